import Verif.Props.ControlSafe
import Verif.Props.Memory

/-! # C91: programs with branches, loops, blocks and handlers leak nothing -/

namespace ETR
open Spec Mach
variable {V : Type}

theorem Fine.mono {σ : Type} {U : UB → Prop} {P Q : σ → Prop} {r : Option (Out Unit × σ)} (h : Fine U P r) (hpq : ∀ s, P s → Q s) : Fine U Q r := by
  match r, h with
  | none, _ => trivial
  | some (.ok _, s), h => exact hpq s h
  | some (.thr _, s), h => exact hpq s h
  | some (.ub _, s), h => exact h

/-- The variables in scope exist, and their types are right; `A`: the vectors that exist. -/
structure SC (A : Nat → Prop) (n0 : Nat) (Γ : Scope) (s : Mach V) : Prop where
  wb : WB s.n s
  le : n0 ≤ s.n
  z : Z A s
  old : ∀ x b, Γ x = some b → x < n0 ∧ A x ∧ s.bor x = b

theorem WE.wb {N : Nat} {s : Mach V} (h : WE N s) : WB s.n s := by
  obtain ⟨k, _, h⟩ := h
  rw [h.1.n]; exact h

theorem fits_target {Γ : Scope} {c : Cmd V} (h : FitsScope Γ c) : ∀ x, c.target = some x → Γ x ≠ none := by
  intro x hx
  cases c with
  | pushBack y v => cases hx; rw [show Γ x = some false from h]; simp
  | storeAssign y v => cases hx; rw [show Γ x = some false from h]; simp
  | destroy y => exact h.elim
  | declCopy y => cases hx
  | _ => exact h x hx

theorem fits_owning {A : Nat → Prop} {n0 : Nat} {Γ : Scope} {s : Mach V} {c : Cmd V} (h : FitsScope Γ c) (hs : SC A n0 Γ s) : Owning s c := by
  cases c with
  | pushBack y v => exact (hs.old y false h).2.2
  | storeAssign y v => exact (hs.old y false h).2.2
  | _ => trivial

/-- One operation. -/
theorem cmd_sc {zero : V} {A : Nat → Prop} {n0 : Nat} {Γ : Scope} {s : Prog.St V} {c : Cmd V} (hA : ∀ x, n0 ≤ x → A x) (hs : SC A n0 Γ s.2) (h : FitsScope Γ c) :
    Fine (fun _ => True) (fun s : Prog.St V => SC A n0 Γ s.2) (some ((Mach.exec zero c s.2).1, (s.1, (Mach.exec zero c s.2).2))) := by
  have ht : ∀ x, c.target = some x → x < n0 ∧ A x := fun x hx => by
    obtain ⟨b, hb⟩ := Option.ne_none_iff_exists'.mp (fits_target h x hx)
    exact ⟨(hs.old x b hb).1, (hs.old x b hb).2.1⟩
  have hd : ∀ x, c ≠ .destroy x := by rintro x rfl; exact h
  have h1 := exec_WB (zero := zero) (c := c) hs.wb (fun x hx => by have := (ht x hx).1; have := hs.le; omega) (fits_owning h hs)
  have h2 := exec_Z (zero := zero) (c := c) hs.z (fun x hx => (ht x hx).2)
  have h3 := exec_NE (zero := zero) (c := c) (k := s.2.n) (B := s.2.bor) (fun x hx => absurd hx (hd x)) s.2 ⟨le_refl _, fun _ _ => rfl⟩
  have hle := hs.le
  rcases hm : Mach.exec zero c s.2 with ⟨o, s1⟩
  rw [hm] at h1 h2 h3
  have old : NE s.2.n s.2.bor s1 → n0 ≤ s1.n ∧ ∀ x b, Γ x = some b → x < n0 ∧ A x ∧ s1.bor x = b := fun h3 =>
    ⟨le_trans hle h3.1, fun x b hx => by
      obtain ⟨g1, g2, g3⟩ := hs.old x b hx
      exact ⟨g1, g2, by rw [h3.2 x (by omega)]; exact g3⟩⟩
  cases o with
  | ok a =>
    refine ⟨WE.wb h1.1, (old h3).1, Z.mono (show Z (After A s.2 c) s1 from h2) (fun x hx => ?_), (old h3).2⟩
    rcases hx with hx | ⟨_, hx⟩
    · exact hx.1
    · have := newId_le (s := s.2) (c := c)
      exact hA x (by omega)
  | thr e => exact ⟨WE.wb h1, (old h3).1, h2, (old h3).2⟩
  | ub k => trivial

/-- The new vector. -/
theorem SC.new {zero : V} {A : Nat → Prop} {n0 : Nat} {Γ : Scope} {s s' : Mach V} {c : Cmd V} (hA : ∀ x, n0 ≤ x → A x) (hs : SC A n0 Γ s) (h : FitsScope Γ c)
    (hd : c.isDecl = true) (e : Mach.exec zero c s = (.ok (), s')) (hs' : SC A n0 Γ s') :
    SC A s'.n (fun x => if x = s'.n - 1 then some (kindOf Γ c) else Γ x) s' := by
  obtain ⟨h1, h2⟩ := exec_new (zero := zero) hd hs.wb.2 e
  have hle := newId_le (s := s) (c := c)
  have h0 := hs.le
  refine ⟨hs'.wb, le_refl _, hs'.z, fun x b hx => ?_⟩
  by_cases hxy : x = s'.n - 1
  · simp only [hxy, if_true, Option.some.injEq] at hx
    subst hxy
    refine ⟨by omega, hA _ (by omega), ?_⟩
    rw [← hx, show s'.n - 1 = newId s c by omega, h2]
    cases c with
    | declCopy y =>
      obtain ⟨b, hb⟩ := Option.ne_none_iff_exists'.mp (show Γ y ≠ none from h)
      show s.bor y = decide (Γ y = some true)
      rw [(hs.old y b hb).2.2, hb]
      cases b <;> rfl
    | _ => rfl
  · simp only [hxy, if_false] at hx
    obtain ⟨g1, g2, g3⟩ := hs'.old x b hx
    exact ⟨by omega, g2, g3⟩

theorem SC.leave {A : Nat → Prop} {n0 lo : Nat} {Γ : Scope} (hlo : n0 ≤ lo) : ∀ n (m : Mach V), SC A n0 Γ m →
    Kept (SC A n0 Γ) (Mach.leave lo n m) := by
  intro n
  induction n with
  | zero => intro m h; exact h
  | succ n ih =>
    intro m h
    rw [Mach.leave, M.bind_apply]
    have h1 := WB.destroy (E := fun _ => False) (x := lo + n) m h.wb
    have h2 := Z.destroy (A := A) (x := lo + n) (s := m) (h.z.mono (fun x hx => Or.inl hx))
    have h3 := NE.destroy (k := n0) (B := m.bor) (y := lo + n) (fun hy => absurd hy (by omega)) m ⟨h.le, fun _ _ => rfl⟩
    rcases hm : Mach.destroy (lo + n) m with ⟨o, s1⟩
    rw [hm] at h1 h2 h3
    cases o with
    | ok a =>
      exact ih s1 ⟨by rw [h1.1.n]; exact h1, h3.1, Z.mono (show Z (fun y => A y ∧ y ≠ lo + n) s1 from h2) (fun x hx => hx.1), fun x b hx => by
        obtain ⟨g1, g2, g3⟩ := h.old x b hx
        exact ⟨g1, g2, by rw [h3.2 x g1]; exact g3⟩⟩
    | thr e => exact h1.elim
    | ub k => trivial

/-- The vectors that were declared in the block own nothing at its end. -/
theorem leave_free {lo N : Nat} : ∀ n (B : Nat → Bool), Tr (PB (fun z => lo + n ≤ z.1) N B) (Mach.leave lo n : M (Mach V) Unit)
    (fun _ s => ∃ B, PB (fun z => lo ≤ z.1) N B s) (fun _ => False) := by
  intro n
  induction n with
  | zero => intro B s h; exact ⟨B, h⟩
  | succ n ih =>
    intro B
    rw [Mach.leave]
    exact Tr.bind PB.destroy (fun _ => (ih _).pre (fun s h => h.mono (fun z hz => by
      have hz : lo + n ≤ z.1 := hz
      show lo + (n + 1) ≤ z.1 ∨ z.1 = lo + n
      omega)))

theorem prog_sc {zero : V} {fuel : Nat} {A : Nat → Prop} : ∀ (p : Prog V) (n0 : Nat) (Γ : Scope) (s : Prog.St V), (∀ x, n0 ≤ x → A x) → WellScoped Γ p →
    SC A n0 Γ s.2 → Fine (fun _ => True) (fun s : Prog.St V => SC A n0 Γ s.2) (p.run zero fuel s) := by
  intro p
  induction p with
  | skip => intro n0 Γ s _ _ h; exact h
  | throw m => intro n0 Γ s _ _ h; exact h
  | cmd c => intro n0 Γ s hA hc h; exact cmd_sc hA h hc
  | seq a b iha ihb =>
    intro n0 Γ s hA hc h
    exact (iha n0 Γ s hA hc.1 h).andThen (fun s1 _ h1 => ihb n0 Γ s1 hA hc.2 h1)
  | decl c k ih =>
    intro n0 Γ s hA hc h
    refine (cmd_sc hA h hc.2.1).andThen (fun s1 e h1 => ?_)
    have e : Mach.exec zero c s.2 = (.ok (), s1.2) := by
      simp only [Option.some.injEq, Prod.mk.injEq] at e
      exact Prod.ext e.1 (by rw [← e.2])
    have hn := exec_count hc.1 e
    have hle := newId_le (s := s.2) (c := c)
    have h0 := h.le
    have hy : Γ (s1.2.n - 1) = none := by
      cases hg : Γ (s1.2.n - 1) with
      | none => rfl
      | some b => have := (h.old _ b hg).1; omega
    refine (ih _ s1.2.n _ s1 (fun x hx => hA x (by omega)) (hc.2.2 _ hy) (SC.new hA h hc.2.1 hc.1 e h1)).mono (fun s2 h2 => ?_)
    refine ⟨h2.wb, by have := h2.le; omega, h2.z, fun x b hx => ?_⟩
    have hne : x ≠ s1.2.n - 1 := by rintro rfl; rw [hy] at hx; cases hx
    exact ⟨(h.old x b hx).1, (h2.old x b (by simpa [hne] using hx)).2⟩
  | read bool e k ih =>
    intro n0 Γ s hA hc h
    exact (FineO.say (P := SC A n0 Γ) h (fun _ _ => trivial)).withOut (fun v s1 _ h1 => ih v n0 Γ s1 hA (hc v) h1)
  | index e i k ih =>
    intro n0 Γ s hA hc h
    exact (FineO.say (P := SC A n0 Γ) h (fun _ _ => trivial)).withOut (fun v s1 _ h1 => ih v n0 Γ s1 hA (hc v) h1)
  | len e k ih => intro n0 Γ s hA hc h; exact ih _ n0 Γ s hA (hc _) h
  | loop bool e c body ih =>
    intro n0 Γ s hA hc h
    exact Fine.rounds (P := fun s : Prog.St V => SC A n0 Γ s.2) (fun s1 _ h1 => FineO.say (P := SC A n0 Γ) h1 (fun _ _ => trivial))
      (fun s1 s2 _ _ h2 => ih n0 Γ s2 hA hc h2) fuel s .first h
  | forVec y body ih =>
    intro n0 Γ s hA hc h
    exact Fine.eachAt (P := fun s : Prog.St V => SC A n0 Γ s.2) (n0 := (s.2.st (y, false)).sz) (fun _ _ _ _ _ _ => trivial)
      (fun i s1 v _ _ _ h1 => ih v n0 Γ s1 hA (hc v) h1) _ 0 s (by omega) .first h
  | forInt a b body ih =>
    intro n0 Γ s hA hc h
    refine (FineO.range (P := SC A n0 Γ) h (fun _ _ => trivial)).withOut (fun l s1 _ h1 => ?_)
    exact Fine.each (P := fun s : Prog.St V => SC A n0 Γ s.2) (l := l)
      (fun i s2 v _ _ h2 => ih v n0 Γ s2 hA (hc v) h2) l.length 0 s1 (by omega) .first h1
  | forDbl a b body ih =>
    intro n0 Γ s hA hc h
    refine (FineO.range (P := SC A n0 Γ) h (fun _ _ => trivial)).withOut (fun l s1 _ h1 => ?_)
    exact Fine.each (P := fun s : Prog.St V => SC A n0 Γ s.2) (l := l)
      (fun i s2 v _ _ h2 => ih v n0 Γ s2 hA (hc v) h2) l.length 0 s1 (by omega) .first h1
  | block body ih =>
    intro n0 Γ s hA hc h
    exact Fine.inBlock (P := SC A n0 Γ) (Q := SC A n0 Γ) (ih n0 Γ s hA hc h) (fun m hm => SC.leave h.le _ m hm) (fun _ _ _ _ => trivial)
  | tryCatch a b iha ihb =>
    intro n0 Γ s hA hc h
    refine Fine.orElse (P := fun s : Prog.St V => SC A n0 Γ s.2) (Fine.inBlock (P := SC A n0 Γ) (iha n0 Γ s hA hc.1 h)
      (fun m hm => SC.leave h.le _ m hm) (fun _ _ _ _ => trivial)) (fun m s1 _ h1 => ?_)
    exact Fine.inBlock (P := SC A n0 Γ) (Q := SC A n0 Γ) (ihb m n0 Γ s1 hA (hc.2 m) h1) (fun m hm => SC.leave h1.le _ m hm) (fun _ _ _ _ => trivial)

/-- C91: a block releases everything that was allocated in it, whatever it does and however it ends, normally or with an exception:
afterwards every block of memory of the library that is in use belongs to a vector that existed before.  `cs` is what happened before; all
sizes are possible and allocations may fail at any time.  The block is one that compiles (`WellScoped`) and does not end with undefined
behaviour. -/
theorem C91_block {zero : V} (sched : List Bool) (cs : List (Cmd V)) (ho : OwningAll zero cs (start sched))
    (hu : UsesExisting zero cs (start sched) []) {m : Mach V} (e : runAll zero cs (start sched) = (none, m)) (Γ : Scope)
    (hΓ : ∀ x b, Γ x = some b → x ∈ existing zero cs (start sched) [] ∧ m.bor x = b) (fuel : Nat) (p : Prog V) (hp : WellScoped Γ p)
    (ws : List String) (o : Out Unit) (s' : Prog.St V) (er : (Prog.block p).run zero fuel (ws, m) = some (o, s')) (hou : ∀ u, o ≠ .ub u)
    (b : Nat) (hb : b < s'.2.heap.next) (hl : (s'.2.heap.blk b).live = true) (hn : (s'.2.heap.blk b).newed = true) :
    ∃ y : Slot, y.1 ∈ existing zero cs (start sched) [] ∧ (s'.2.st y).p = some b := by
  have hz := existing_Z cs (start sched) m [] (fun z _ => rfl) hu e
  obtain ⟨N, hw, hlt⟩ := existing_WB cs (start sched) m [] 0 (WB.start sched) (by simp) hu ho e
  set L := existing zero cs (start sched) [] with hL
  have hN : m.n = N := hw.1.n
  have hs : SC (fun x => x ∈ L ∨ m.n ≤ x) m.n Γ m :=
    ⟨by rw [hN]; exact hw, le_refl _, hz.mono (fun x hx => Or.inl hx), fun x b hx => by
      obtain ⟨h1, h2⟩ := hΓ x b hx
      exact ⟨by rw [hN]; exact hlt x h1, Or.inl h1, h2⟩⟩
  have hA : ∀ x, m.n ≤ x → (x ∈ L ∨ m.n ≤ x) := fun x hx => Or.inr hx
  have h1 := Fine.inBlock (s := (ws, m)) (Q := fun s => SC (fun x => x ∈ L ∨ m.n ≤ x) m.n Γ s ∧ ∃ B, PB (fun z => m.n ≤ z.1) s.n B s)
    (prog_sc (zero := zero) (fuel := fuel) p m.n Γ (ws, m) hA hp hs) (fun m1 hm1 => by
      have g1 := SC.leave (lo := m.n) (le_refl _) (m1.n - m.n) m1 hm1
      have g2 := leave_free (V := V) (lo := m.n) (N := m1.n) (m1.n - m.n) m1.bor m1 (hm1.wb.1.mono (fun z hz => by
        have := hm1.le
        have hz : m.n + (m1.n - m.n) ≤ z.1 := hz
        show m1.n ≤ z.1
        omega))
      rcases hm : Mach.leave m.n (m1.n - m.n) m1 with ⟨o1, m2⟩
      rw [hm] at g1 g2
      cases o1 with
      | ok a =>
        obtain ⟨B, hB⟩ := g2
        exact ⟨g1, B, by rw [hB.n]; exact hB⟩
      | thr e => exact g2.elim
      | ub k => trivial) (fun _ _ _ _ => trivial)
  have er : Prog.inBlock (p.run zero fuel) (ws, m) = some (o, s') := er
  rw [er] at h1
  have h1 : SC (fun x => x ∈ L ∨ m.n ≤ x) m.n Γ s'.2 ∧ ∃ B, PB (fun z => m.n ≤ z.1) s'.2.n B s'.2 := by
    cases o with
    | ok a => exact h1
    | thr e => exact h1
    | ub u => exact absurd rfl (hou u)
  obtain ⟨hsc, B, hB⟩ := h1
  obtain ⟨z, _, hz2⟩ := hB.held b ⟨hb, hl, hn⟩
  refine ⟨z, ?_, hz2.1⟩
  by_contra hc
  by_cases hge : m.n ≤ z.1
  · exact hB.free z hge b hz2
  · have := hsc.z z (by rintro (h | h); exacts [hc h, hge h])
    rw [this] at hz2
    exact absurd hz2.1 (by simp)

/-- C91: the same for a whole program, which begins without vectors: afterwards no memory of the library is in use. -/
theorem C91_no_leak {zero : V} (sched : List Bool) (fuel : Nat) (p : Prog V) (hp : WellScoped (fun _ => none) p) (ws : List String)
    (o : Out Unit) (s' : Prog.St V) (er : (Prog.block p).run zero fuel (ws, start sched) = some (o, s')) (hou : ∀ u, o ≠ .ub u) :
    NoLeak s'.2 := by
  intro b hb hn
  by_contra hl
  obtain ⟨y, hy, _⟩ := C91_block sched [] trivial trivial (m := start sched) rfl (fun _ => none) (fun x b hx => by cases hx) fuel p hp ws o s' er hou b hb
    (by simpa using hl) hn
  cases hy

/-- `for (auto i : colon(1, 3)) { Vec y(4); try { Vec z(y); z.d.set(1, i); y.push_back(i); if i = 2 then throw } catch (...) { Vec w(9); } }`:
vectors that live for one round, an exception that leaves a block, and a handler with a vector of its own. -/
def localRounds : Prog Int :=
  .forInt 1 3 (fun i => .block (.decl (.declSize 4) (fun y =>
    .tryCatch (.decl (.declCopy y) (fun z => .seq (.cmd (.setElem z 1 i)) (.seq (.cmd (.pushBack y i)) (if i = 2 then .throw "two" else .skip))))
      (fun _ => .decl (.declSize 9) (fun _ => .skip)))))

theorem localRounds_scoped (Γ : Scope) : WellScoped Γ localRounds := by
  intro i
  refine ⟨rfl, by simp [FitsScope, Cmd.target], fun y hy => ⟨⟨rfl, by simp [FitsScope], fun z hz => ⟨?_, ?_, ?_⟩⟩, fun _ => ⟨rfl, by simp [FitsScope, Cmd.target],
    fun _ _ => trivial⟩⟩⟩
  · intro x hx; cases hx; simp
  · have : y ≠ z := by rintro rfl; simp at hz
    simp [WellScoped, FitsScope, this, kindOf]
  · split <;> trivial

/-- The third allocation fails. -/
def localSched : List Bool := [false, false, true]

def localEnd : Option (Out Unit × Prog.St Int) := (Prog.block localRounds).run 0 9 ([], start localSched)

/-- It runs to its end, and it did allocate memory. -/
example : localEnd.map (fun r => (decide (r.1 = .ok ()), r.2.2.heap.next)) = some (true, 10) := by decide +kernel

example : ∃ s' : Prog.St Int, (Prog.block localRounds).run 0 9 ([], start localSched) = some (.ok (), s') ∧ WellScoped (fun _ => none) localRounds := by
  have h : localEnd.map (fun r => decide (r.1 = .ok ())) = some true := by decide +kernel
  rcases e : localEnd with _ | ⟨o, s'⟩
  · rw [e] at h; cases h
  · rw [e] at h
    have : o = .ok () := by simpa using h
    subst this
    exact ⟨s', e, localRounds_scoped _⟩

/-- After the declaration of a vector: a block that appends to it and to a copy, and leaves with an exception. -/
def appendBlock : Prog Int := .decl (.declCopy 0) (fun y => .seq (.cmd (.pushBack y 7)) (.seq (.cmd (.pushBack 0 8)) (.throw "end")))

def ownScope : Scope := fun x => if x = 0 then some false else none

example : OwningAll (0 : Int) [.declSize 2] (start []) ∧ UsesExisting (0 : Int) [.declSize 2] (start []) [] ∧
    runAll (0 : Int) [.declSize 2] (start []) = (none, (runAll (0 : Int) [.declSize 2] (start [])).2) ∧
    (∀ x b, ownScope x = some b → x ∈ existing (0 : Int) [.declSize 2] (start []) [] ∧ (runAll (0 : Int) [.declSize 2] (start [])).2.bor x = b) ∧
    WellScoped ownScope appendBlock := by
  refine ⟨.cons trivial trivial, .cons (by simp [Cmd.target]) trivial, Prod.ext (by decide +kernel) rfl, fun x b h => ?_, rfl, by simp [FitsScope, ownScope],
    fun y hy => ⟨?_, ?_, trivial⟩⟩
  · by_cases hx : x = 0
    · subst hx
      simp only [ownScope, if_true, Option.some.injEq] at h
      subst h
      exact ⟨by decide +kernel, by decide +kernel⟩
    · simp [ownScope, hx] at h
  · simp [WellScoped, FitsScope, kindOf, ownScope]
  · have : (0 : Nat) ≠ y := by rintro rfl; simp [ownScope] at hy
    simp [WellScoped, FitsScope, ownScope, this]

def appendEnd : Option (Out Unit × Prog.St Int) := (Prog.block appendBlock).run 0 1 ([], (runAll (0 : Int) [.declSize 2] (start [])).2)

/-- It ends with the exception, and of the four blocks of memory one is in use. -/
example : appendEnd.map (fun r => (decide (r.1 = .thr "end"), r.2.2.heap.next, (List.range 4).map (fun b => (r.2.2.heap.blk b).live))) =
    some (true, 4, [false, false, false, true]) := by decide +kernel

end ETR
