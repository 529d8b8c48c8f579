import Verif.Props.ControlMemory
import Verif.Props.Frame
import Verif.Lemmas.Alone
import Verif.Spec.Alone

/-! A program changes only the vectors that it operates on: C115. -/

namespace ETR
open Spec Mach
variable {V : Type}

/-- The operations of a program that leaves `y` alone, the destructions at the ends of its blocks included, are not applied to `y`. -/
theorem prog_alone {zero : V} {fuel y : Nat} : ∀ (p : Prog V) (s : Prog.St V), y + 1 ≤ s.2.n → LeavesAlone y p →
    Trace zero (fun c => c.target ≠ some y) (Permits zero fuel p s) False s.2 (p.run zero fuel s) := by
  have D : ∀ {s : Prog.St V}, y + 1 ≤ s.2.n → ∀ z, s.2.n ≤ z → (Cmd.destroy (V := V) z).target ≠ some y := by
    intro s hs z hz e
    have e : z = y := Option.some.inj e
    omega
  intro p
  induction p with
  | skip => intro s _ _; exact Trace.stop rfl
  | throw m => intro s _ _; exact Trace.stop rfl
  | cmd c => intro s _ h; exact cmd_trace h (fun h => h)
  | seq a b iha ihb =>
    intro s hk h
    refine Trace.andThen ((iha s hk h.1).mono (fun _ h => h) (fun h => h.1) (fun h => h)) (fun s1 e hn => ?_)
    exact (ihb s1 (by omega) h.2).mono (fun _ h => h) (fun h => h.2 s1 e) (fun h => h)
  | decl c f ih =>
    intro s hk h
    refine Trace.andThen (cmd_trace (by have := h.1; cases c <;> first | (simp [Cmd.target]; done) | cases this) (fun h => h.1)) (fun s1 e hn => ?_)
    simp only [Option.some.injEq, Prod.mk.injEq] at e
    obtain ⟨e1, e2⟩ := e
    have hc : s1.2.n = newId s.2 c + 1 := exec_count (zero := zero) h.1 (Prod.ext e1 (by rw [← e2]))
    have hl : s.2.n ≤ newId s.2 c := newId_le
    exact (ih _ s1 (by omega) (h.2 _ (by omega))).mono (fun _ h => h) (fun h => by rw [← e2]; exact h.2 _ (Prod.ext e1 rfl)) (fun h => h)
  | read bool e f ih =>
    intro s hk h
    refine Trace.withOut rfl (fun v s1 e1 => ?_)
    have hn : s1.2 = s.2 := (congrArg (fun z => z.2.2) e1).symm
    exact (ih v s1 (by rw [hn]; exact hk) (h v)).mono (fun _ h => h) (fun h => h.2 v s1 e1) (fun h => h)
  | index e i f ih =>
    intro s hk h
    refine Trace.withOut rfl (fun v s1 e1 => ?_)
    have hn : s1.2 = s.2 := (congrArg (fun z => z.2.2) e1).symm
    exact (ih v s1 (by rw [hn]; exact hk) (h v)).mono (fun _ h => h) (fun h => h v s1 e1) (fun h => h)
  | len e f ih =>
    intro s hk h
    exact (ih _ s hk (h _)).mono (fun _ h => h) (fun h => h) (fun h => h)
  | loop bool e c body ih =>
    intro s hk h
    exact Trace.rounds (k := y + 1) (test := testOf bool e c) (fun _ => rfl) (fun s1 s2 hk2 hs e2 => (ih s2 hk2 h).mono
      (fun _ h => h) (fun h => h.2 s1 s2 hs e2) (fun h => h)) fuel s hk .first
  | forVec x body ih =>
    intro s hk h
    exact Trace.eachAt (k := y + 1) (n0 := (s.2.st (x, false)).sz) (fun i s1 v hi hk1 hr e => (ih v s1 hk1 (h v)).mono
      (fun _ h => h) (fun h => h.2 i s1 v hi hr e) (fun h => h)) _ 0 s (by omega) hk .first
  | forInt a b body ih =>
    intro s hk h
    refine Trace.withOut range_mach (fun l s1 e1 => ?_)
    have hn : s1.2 = s.2 := by have := range_mach (m := colonI a b) (s := s); rw [e1] at this; exact this
    exact Trace.each (k := y + 1) (l := l) (fun i s2 v hk2 h1 h2 => (ih v s2 hk2 (h v)).mono
      (fun _ h => h) (fun h => h.2 l s1 i s2 v e1 h1 h2) (fun h => h)) l.length 0 s1 (by omega) (by rw [hn]; exact hk) .first
  | forDbl a b body ih =>
    intro s hk h
    refine Trace.withOut range_mach (fun l s1 e1 => ?_)
    have hn : s1.2 = s.2 := by have := range_mach (m := colonD a b) (s := s); rw [e1] at this; exact this
    exact Trace.each (k := y + 1) (l := l) (fun i s2 v hk2 h1 h2 => (ih v s2 hk2 (h v)).mono
      (fun _ h => h) (fun h => h.2.2 l s1 i s2 v e1 h1 h2) (fun h => h)) l.length 0 s1 (by omega) (by rw [hn]; exact hk) .first
  | block body ih =>
    intro s hk h
    exact Trace.inBlock (ih s hk h) (fun z hz => D hk z hz)
  | tryCatch a b iha ihb =>
    intro s hk h
    refine Trace.orElse (Trace.inBlock ((iha s hk h.1).mono (fun _ h => h) (fun h => h.1) (fun h => h))
      (fun z hz => D hk z hz)) (fun m s1 e hn => ?_)
    have hk1 : y + 1 ≤ s1.2.n := by omega
    exact Trace.inBlock ((ihb m s1 hk1 (h.2 m)).mono (fun _ h => h) (fun h => h.2 m s1 e) (fun h => h))
      (fun z hz => D hk1 z hz)

/-- C115, lengths and dimensions: whatever a program with branches, loops, blocks and handlers does, the length and the dimensions of a vector
that none of its operations is applied to are as before.  No condition on the program (sizes, failing allocations, kinds of memory) or the state
but that there is no undefined behaviour. -/
theorem C115_shape (zero : V) (fuel : Nat) (p : Prog V) (s s' : Prog.St V) (o : Out Unit) (y : Nat) (hy : y < s.2.n)
    (hp : LeavesAlone y p) (e : p.run zero fuel s = some (o, s')) (ho : ∀ u, o ≠ .ub u) :
    s'.2.env.size y = s.2.env.size y ∧ s'.2.env.mp y = s.2.env.mp y := by
  obtain ⟨cs, h1, _, h2, h3, _⟩ := prog_alone (zero := zero) (fuel := fuel) p s hy hp o s' e
  have k := runAll_KS cs (y := y) (S := s.2.st (y, false)) h1 ⟨rfl, hy⟩ (Trace.quiet ho h2 h3)
  constructor
  · show (s'.2.st (y, false)).sz = (s.2.st (y, false)).sz; rw [k.1]
  · show (s'.2.st (y, false)).mp = (s.2.st (y, false)).mp; rw [k.1]

/-- C115: if the operations of the program are allowed (C91) then also every element of a vector with memory of its own is as before, whether the
program ends normally or with an exception. -/
theorem C115_vector (zero : V) (fuel : Nat) (p : Prog V) (s s' : Prog.St V) (o : Out Unit) (r : Reach zero s.2) (hal : Permits zero fuel p s)
    (y : Nat) (hy : y < s.2.n) (hb : s.2.bor y = false) (hp : LeavesAlone y p) (e : p.run zero fuel s = some (o, s'))
    (ho : ∀ u, o ≠ .ub u) : SameVar s.2 s'.2 y := by
  obtain ⟨cs, h1, h0, h2, h3, _⟩ := prog_alone (zero := zero) (fuel := fuel) p s hy hp o s' e
  have q := Trace.quiet ho h2 h3
  by_cases hne : 1 ≤ s.2.env.size y
  · exact C07_independent r y hy hb hne cs (h0 hal) h1 q
  · have k := runAll_KS cs (y := y) (S := s.2.st (y, false)) h1 ⟨rfl, hy⟩ q
    have hz : (s.2.st (y, false)).sz = 0 := by
      have : ¬ 1 ≤ (s.2.st (y, false)).sz := hne
      omega
    refine ⟨?_, fun i => ?_, ?_⟩
    · show (s'.2.st (y, false)).sz = (s.2.st (y, false)).sz; rw [k.1]
    · show (s'.2.st (y, false)).get s'.2.heap i = (s.2.st (y, false)).get s.2.heap i
      rw [k.1]
      unfold Store.get Store.checkIdx
      rw [hz]
      by_cases ha : (s.2.st (y, false)).allocated = true
      · simp [ha, Out.ass]
      · simp [ha, Out.ass]
    · show (s'.2.st (y, false)).mp = (s.2.st (y, false)).mp; rw [k.1]

/-- C115, the memory of the caller: a cell that neither an existing borrowed vector nor one that the program declares reaches is as before. -/
theorem C115_caller (zero : V) (fuel : Nat) (p : Prog V) (s s' : Prog.St V) (o : Out Unit) (r : Reach zero s.2) (hal : Permits zero fuel p s)
    (b j : Nat) (hb : b < s.2.heap.next) (hn : (s.2.heap.blk b).newed = false) (hr : OutOfReach b j s.2)
    (hbw : ∀ q n, HasCmd (.declBorrow q n) p → q = some b → n ≤ j) (e : p.run zero fuel s = some (o, s')) (ho : ∀ u, o ≠ .ub u) :
    s'.2.heap.load (some b) j = s.2.heap.load (some b) j := by
  obtain ⟨cs, h1, h0, h2, h3, _⟩ := prog_trace (zero := zero) (fuel := fuel) p s (le_refl _) o s' e
  have k := (runAll_foreign b j cs s.2 s'.2 r.inv (h0 hal) hb hn hr (fun q n hc => hbw q n ((h1 _ hc).resolve_right (by
    rintro ⟨_, _, h⟩; cases h))) (Trace.quiet ho h2 h3)).1
  unfold Heap.load Heap.cellAt
  simp only []
  rw [k.live, k.len, k.cell]

/-- `try { auto z = x; z.d.set(0, 9); x has 3 elements; for (auto i : colon(1, 2)) { Vec w(i); } throw } catch (...) { Vec w(2); }`. -/
def sampleAlone : Prog Int :=
  .tryCatch (.decl (.declCopy 0) (fun z => .seq (.cmd (.setElem z 0 9)) (.seq (.cmd (.setElem 1 0 4)) (.throw "x"))))
    (fun _ => .decl (.declSize 2) (fun w => .cmd (.fill w 7)))

/-- Two vectors. -/
def aloneStart : Mach Int := (runAll 0 [.declSize 3, .setElem 0 1 5, .declSize 2] start).2

theorem aloneStart_reach : Reach 0 aloneStart :=
  ⟨[.declSize 3, .setElem 0 1 5, .declSize 2], .cons (by show _ ≤ _; decide) (.cons (by show _ < _; decide +kernel)
    (.cons (by show _ ≤ _; decide) trivial)), Prod.ext (by decide +kernel) rfl⟩

theorem sampleAlone_leaves : LeavesAlone 0 sampleAlone := by
  refine ⟨⟨rfl, fun x hx => ⟨?_, ?_, trivial⟩⟩, fun _ => ⟨rfl, fun x hx => ?_⟩⟩
  · show some x ≠ some 0
    simpa using hx
  · show some 1 ≠ some 0
    simp
  · show some x ≠ some 0
    simpa using hx

theorem sampleAlone_permits : Permits 0 1 sampleAlone ([], aloneStart) := by
  refine ⟨⟨⟨by decide +kernel, by decide +kernel⟩, fun s1 e1 => ⟨?_, fun s2 e2 => ⟨?_, fun _ _ => trivial⟩⟩⟩, fun m s3 e3 => ⟨?_, fun s4 e4 => ?_⟩⟩
  · have h : s1 = (Mach.exec 0 (.declCopy 0) aloneStart).2 := by rw [e1]
    subst h
    show _ < _
    decide +kernel
  · have h : s1 = (Mach.exec 0 (.declCopy 0) aloneStart).2 := by rw [e1]
    subst h
    have h : s2 = ([], (Mach.exec 0 (.setElem ((Mach.exec 0 (.declCopy 0) aloneStart).2.n - 1) 0 9) (Mach.exec 0 (.declCopy 0) aloneStart).2).2) :=
      (congrArg Prod.snd (Option.some.inj e2)).symm
    subst h
    show _ < _
    decide +kernel
  · show _ ≤ _
    decide
  · show s4.n - 1 < s4.n
    have := exec_count (zero := (0 : Int)) (c := .declSize 2) (s := s3.2) rfl e4
    omega

/-- The theorems applied: the first vector still has the elements 0, 5, 0 although a copy of it was changed and an exception thrown. -/
example : ∃ s', sampleAlone.run 0 1 ([], aloneStart) = some (.ok (), s') ∧ SameVar aloneStart s'.2 0 ∧ s'.2.env.size 0 = aloneStart.env.size 0 := by
  have h : (sampleAlone.run 0 1 ([], aloneStart)).map Prod.fst = some (.ok ()) := by decide +kernel
  match e : sampleAlone.run 0 1 ([], aloneStart) with
  | none => rw [e] at h; cases h
  | some (o, s') =>
    rw [e] at h
    have h1 : o = .ok () := Option.some.inj h
    subst h1
    exact ⟨s', rfl, C115_vector 0 1 sampleAlone ([], aloneStart) s' (.ok ()) aloneStart_reach sampleAlone_permits 0 (by decide +kernel)
      (by decide +kernel) sampleAlone_leaves e (by simp),
      (C115_shape 0 1 sampleAlone ([], aloneStart) s' (.ok ()) 0 (by decide +kernel) sampleAlone_leaves e (by simp)).1⟩

/-- C115: a vector that borrows its memory is not left alone by the operations on other vectors that borrow the same memory. -/
theorem C115_needs_own : ∃ (s s' : Mach Int), Reach 0 s ∧ s.bor 0 = true ∧ LeavesAlone 0 (.cmd (.setElem 1 0 (8 : Int)) : Prog Int) ∧
    Mach.exec 0 (.setElem 1 0 8) s = (.ok (), s') ∧ s.env.get 0 0 = .ok 1 ∧ s'.env.get 0 0 = .ok 8 := by
  refine ⟨(runAll 0 [.callerArray [1, 2], .declBorrow (some 0) 2, .declBorrow (some 0) 2] start).2, _, ⟨_, ?_, Prod.ext (by decide +kernel) rfl⟩,
    by decide +kernel, ?_, Prod.ext (by decide +kernel) rfl, by decide +kernel, by decide +kernel⟩
  · exact .cons trivial (.cons ⟨by decide, ⟨0, rfl, by decide +kernel, by decide +kernel, by decide +kernel⟩, by rintro b h; cases h; decide +kernel⟩
      (.cons ⟨by decide, ⟨0, rfl, by decide +kernel, by decide +kernel, by decide +kernel⟩, by rintro b h; cases h; decide +kernel⟩ trivial))
  · show some 1 ≠ some 0
    simp

/-- `{ Vec<int, Borrow> v(array, 2); v.fill(8); } throw` on an array with three elements. -/
def sampleLend : Prog Int :=
  .seq (.block (.decl (.declBorrow (some 0) 2) (fun v => .cmd (.fill v 8)))) (.throw "x")

def lendStart : Mach Int := (runAll 0 [.callerArray [1, 2, 3]] start).2

theorem lendStart_reach : Reach 0 lendStart := ⟨[.callerArray [1, 2, 3]], .cons trivial trivial, Prod.ext (by decide +kernel) rfl⟩

theorem sampleLend_permits : Permits 0 1 sampleLend ([], lendStart) := by
  refine ⟨⟨⟨by decide, ?_, ?_⟩, fun s1 e1 => ?_⟩, fun _ _ => trivial⟩
  · exact ⟨0, rfl, by decide +kernel, by decide +kernel, by decide +kernel⟩
  · rintro b h
    cases h
    decide +kernel
  · have := exec_count (zero := (0 : Int)) (c := .declBorrow (some 0) 2) (s := lendStart) rfl e1
    show s1.n - 1 < s1.n
    omega

/-- The third element of the array keeps its value, the others are written. -/
example : ∃ s', sampleLend.run 0 1 ([], lendStart) = some (.thr "x", s') ∧ s'.2.heap.load (some 0) 2 = .ok 3 ∧ s'.2.heap.load (some 0) 1 = .ok 8 := by
  have h : (sampleLend.run 0 1 ([], lendStart)).map (fun z => (z.1, z.2.2.heap.load (some 0) 1)) = some (.thr "x", .ok 8) := by decide +kernel
  match e : sampleLend.run 0 1 ([], lendStart) with
  | none => rw [e] at h; cases h
  | some (o, s') =>
    rw [e] at h
    simp only [Option.map_some, Option.some.injEq, Prod.mk.injEq] at h
    obtain ⟨rfl, h⟩ := h
    refine ⟨s', rfl, ?_, h⟩
    rw [C115_caller 0 1 sampleLend ([], lendStart) s' _ lendStart_reach sampleLend_permits 0 2 (by decide +kernel) (by decide +kernel)
      (fun x hx => by cases hx) (fun q n hc hq => ?_) e (by simp)]
    · decide +kernel
    · rcases hc with (hc | ⟨_, hc⟩) | hc
      · cases hc; decide
      · cases hc
      · cases hc

end ETR
