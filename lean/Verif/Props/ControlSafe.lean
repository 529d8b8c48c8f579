import Verif.Lemmas.ControlSafe
import Verif.Lemmas.ProgBor
import Verif.Props.Machine
import Verif.Props.Assign
import Verif.Props.Control
import Verif.Lemmas.Scope
import Verif.Lemmas.Names

/-! # C91: memory in programs with branches and loops -/

namespace ETR
open Spec Mach
variable {V : Type}

/-! ## Outcomes -/

section
variable {σ α : Type} {U : UB → Prop} {P : σ → Prop}

/-- The outcome: `P` unless there is undefined behaviour, which is of a kind in `U`. -/
def Fine (U : UB → Prop) (P : σ → Prop) : Option (Out Unit × σ) → Prop
  | none => True
  | some (.ok _, s) => P s
  | some (.thr _, s) => P s
  | some (.ub u, _) => U u

theorem Fine.andThen {r : Option (Out Unit × σ)} {k : σ → Option (Out Unit × σ)} (h : Fine U P r)
    (h' : ∀ s, r = some (.ok (), s) → P s → Fine U P (k s)) : Fine U P (Prog.andThen r k) := by
  match r, h, h' with
  | none, _, _ => trivial
  | some (.ok _, s), h, h' => exact h' s rfl h
  | some (.thr _, s), h, _ => exact h
  | some (.ub _, s), h, _ => exact h

/-- The same for a computation whose result is used. -/
structure FineO (U : UB → Prop) (P : σ → Prop) (o : Out α × σ) : Prop where
  ok : ∀ a s, o = (.ok a, s) → P s
  thr : ∀ m s, o = (.thr m, s) → P s
  ub : ∀ u s, o = (.ub u, s) → U u

theorem FineO.withOut {o : Out α × σ} {k : α → σ → Option (Out Unit × σ)} (h : FineO U P o)
    (h' : ∀ a s, o = (.ok a, s) → P s → Fine U P (k a s)) : Fine U P (Prog.withOut o k) := by
  rcases o with ⟨o, s⟩
  cases o with
  | ok a => exact h' a s rfl (h.ok a s rfl)
  | thr m => exact h.thr m s rfl
  | ub u => exact h.ub u s rfl

theorem Fine.rounds {test : σ → Out Bool × σ} {body : σ → Option (Out Unit × σ)} {s0 : σ}
    (ht : ∀ s, Heads test body s0 s → P s → FineO U P (test s))
    (hb : ∀ s s1, Heads test body s0 s → test s = (.ok true, s1) → P s1 → Fine U P (body s1)) :
    ∀ n s, Heads test body s0 s → P s → Fine U P (Prog.rounds test body n s) := by
  intro n
  induction n with
  | zero => intro s _ _; trivial
  | succ n ih =>
    intro s hs hp
    refine (ht s hs hp).withOut (fun t s1 e p1 => ?_)
    cases t with
    | false => exact p1
    | true => exact (hb s s1 hs e p1).andThen (fun s2 e2 p2 => ih s2 (.next hs e e2) p2)

theorem Fine.each {body : α → σ → Option (Out Unit × σ)} {l : List α} {s0 : σ}
    (hb : ∀ i s a, RoundOf body l s0 i s → l[i]? = some a → P s → Fine U P (body a s)) :
    ∀ n i s, i + n = l.length → RoundOf body l s0 i s → P s → Fine U P (Prog.each body (l.drop i) s) := by
  intro n
  induction n with
  | zero =>
    intro i s hi _ hp
    rw [List.drop_eq_nil_of_le (by omega)]
    exact hp
  | succ n ih =>
    intro i s hi hr hp
    have hi' : i < l.length := by omega
    rw [List.drop_eq_getElem_cons hi']
    have hg : l[i]? = some l[i] := List.getElem?_eq_getElem hi'
    exact (hb i s _ hr hg hp).andThen (fun s1 e1 p1 => ih (i + 1) s1 (by omega) (.next hr hg e1) p1)

theorem Fine.eachAt {p : Ptr} {body : V → Prog.St V → Option (Out Unit × Prog.St V)} {s0 : Prog.St V} {n0 : Nat}
    {P : Prog.St V → Prop}
    (hl : ∀ i s, i < n0 → P s → ∀ u, s.2.heap.load p i = .ub u → U u)
    (hb : ∀ i s v, i < n0 → RoundAt p body s0 i s → s.2.heap.load p i = .ok v → P s → Fine U P (body v s)) :
    ∀ n i s, i + n = n0 → RoundAt p body s0 i s → P s → Fine U P (Prog.eachAt p body n i s) := by
  intro n
  induction n with
  | zero => intro i s _ _ hp; exact hp
  | succ n ih =>
    intro i s hi hr hp
    have hi' : i < n0 := by omega
    have ho : FineO U P (s.2.heap.load p i, s) := by
      refine ⟨fun a s' e => ?_, fun m s' e => ?_, fun u s' e => ?_⟩
      · have h : s = s' := congrArg Prod.snd e
        exact h ▸ hp
      · have h : s = s' := congrArg Prod.snd e
        exact h ▸ hp
      · exact hl i s hi' hp u (congrArg Prod.fst e)
    refine ho.withOut (fun v s' e _ => ?_)
    have e1 : s.2.heap.load p i = .ok v := congrArg Prod.fst e
    have e2 : s = s' := congrArg Prod.snd e
    subst e2
    exact (hb i s v hi' hr e1 hp).andThen (fun s1 e1' p1 => ih (i + 1) s1 (by omega) (.next hr e1 e1') p1)

end

/-- The end of a block. -/
theorem Fine.inBlock {U : UB → Prop} {P Q : Mach V → Prop} {body : Prog.St V → Option (Out Unit × Prog.St V)}
    {s : Prog.St V} (h : Fine U (fun s : Prog.St V => P s.2) (body s))
    (hl : ∀ m, P m → Kept Q (Mach.leave s.2.n (m.n - s.2.n) m))
    (hu : ∀ m u, P m → (Mach.leave s.2.n (m.n - s.2.n) m).1 = .ub u → U u) :
    Fine U (fun s : Prog.St V => Q s.2) (Prog.inBlock body s) := by
  unfold Prog.inBlock
  match body s, h with
  | none, _ => trivial
  | some (.ub u, s1), h => exact h
  | some (.ok _, s1), h =>
    have h1 := hl s1.2 h
    have h2 := hu s1.2
    simp only []
    rcases hm : Mach.leave s.2.n (s1.2.n - s.2.n) s1.2 with ⟨o, m⟩
    rw [hm] at h1 h2
    cases o with
    | ok a => exact h1
    | thr e => exact h1
    | ub u => exact h2 u h rfl
  | some (.thr _, s1), h =>
    have h1 := hl s1.2 h
    have h2 := hu s1.2
    simp only []
    rcases hm : Mach.leave s.2.n (s1.2.n - s.2.n) s1.2 with ⟨o, m⟩
    rw [hm] at h1 h2
    cases o with
    | ok a => exact h1
    | thr e => exact h1
    | ub u => exact h2 u h rfl

theorem Fine.orElse {σ : Type} {U : UB → Prop} {P : σ → Prop} {r : Option (Out Unit × σ)}
    {k : String → σ → Option (Out Unit × σ)}
    (h : Fine U P r) (h' : ∀ m s, r = some (.thr m, s) → P s → Fine U P (k m s)) : Fine U P (Prog.orElse r k) := by
  match r, h, h' with
  | none, _, _ => trivial
  | some (.ok _, s), h, _ => exact h
  | some (.thr m, s), h, h' => exact h' m s rfl h
  | some (.ub _, s), h, _ => exact h

theorem FineO.say {α : Type} {U : UB → Prop} {P : Mach V → Prop} {m : L α} {s : Prog.St V} (hp : P s.2)
    (hu : ∀ u, (m s.1).1 = .ub u → U u) : FineO U (fun s : Prog.St V => P s.2) (Prog.say m s) := by
  refine ⟨fun a s' e => ?_, fun m s' e => ?_, fun u s' e => ?_⟩
  · exact (congrArg (fun z => z.2.2) e : s.2 = s'.2) ▸ hp
  · exact (congrArg (fun z => z.2.2) e : s.2 = s'.2) ▸ hp
  · exact hu u (congrArg Prod.fst e)

theorem FineO.range {W : Type} {U : UB → Prop} {P : Mach V → Prop} {m : AM W Unit} {s : Prog.St V} (hp : P s.2)
    (hu : ∀ u, (Prog.range m s).1 = .ub u → U u) : FineO U (fun s : Prog.St V => P s.2) (Prog.range m s) := by
  have h2 : (Prog.range m s).2.2 = s.2 := by
    unfold Prog.range
    rcases m (s.1, (Heap.empty, {})) with ⟨o, ws, hp, d⟩
    cases o <;> rfl
  refine ⟨fun a s' e => ?_, fun m s' e => ?_, fun u s' e => ?_⟩
  · exact (h2.symm.trans (congrArg (fun z => z.2.2) e) : s.2 = s'.2) ▸ hp
  · exact (h2.symm.trans (congrArg (fun z => z.2.2) e) : s.2 = s'.2) ▸ hp
  · exact hu u (congrArg Prod.fst e)

/-! ## Vectors that are not moved -/

theorem cmd_dk {zero : V} {x : Nat} {bo : Bool} {d : Store} {c : Cmd V} {s : Prog.St V} (h : DK x bo d s.2) (hc : Stays x c) :
    Fine (fun _ => True) (fun s : Prog.St V => DK x bo d s.2) (some ((Mach.exec zero c s.2).1, (s.1, (Mach.exec zero c s.2).2))) := by
  have := exec_dk (zero := zero) h hc
  rcases hm : Mach.exec zero c s.2 with ⟨o, s1⟩
  rw [hm] at this
  cases o with
  | ok a => exact this
  | thr e => exact this
  | ub k => trivial

theorem prog_dk {zero : V} {fuel x : Nat} {bo : Bool} {d : Store} : ∀ (p : Prog V), Rests x p →
    ∀ s : Prog.St V, DK x bo d s.2 →
      Fine (fun _ => True) (fun s : Prog.St V => DK x bo d s.2) (p.run zero fuel s) := by
  intro p
  induction p with
  | skip => intro _ s h; exact h
  | throw m => intro _ s h; exact h
  | cmd c => intro hc s h; exact cmd_dk h hc
  | seq a b iha ihb =>
    intro hc s h
    exact (iha hc.1 s h).andThen (fun s1 _ h1 => ihb hc.2 s1 h1)
  | decl c k ih =>
    intro hc s h
    refine (cmd_dk (zero := zero) h hc.2.1).andThen (fun s1 e h1 => ih _ (hc.2.2 _ ?_) s1 h1)
    have e : exec zero c s.2 = (.ok (), s1.2) := by
      simp only [Option.some.injEq, Prod.mk.injEq] at e
      exact Prod.ext e.1 (by rw [← e.2])
    have := exec_count hc.1 e
    have := newId_le (s := s.2) (c := c)
    have := h.1
    omega
  | read bool e k ih =>
    intro hc s h
    exact (FineO.say (P := DK x bo d) h (fun _ _ => trivial)).withOut
      (fun v s1 _ h1 => ih v (hc v) s1 h1)
  | index e i k ih =>
    intro hc s h
    exact (FineO.say (P := DK x bo d) h (fun _ _ => trivial)).withOut
      (fun v s1 _ h1 => ih v (hc v) s1 h1)
  | len e k ih =>
    intro hc s h
    exact ih _ (hc _) s h
  | loop bool e c body ih =>
    intro hc s h
    exact Fine.rounds (P := fun s : Prog.St V => DK x bo d s.2)
      (fun s1 _ h1 => FineO.say (P := DK x bo d) h1 (fun _ _ => trivial))
      (fun s1 s2 _ _ h2 => ih hc s2 h2) fuel s .first h
  | forVec y body ih =>
    intro hc s h
    exact Fine.eachAt (P := fun s : Prog.St V => DK x bo d s.2) (n0 := (s.2.st (y, false)).sz)
      (fun _ _ _ _ _ _ => trivial)
      (fun i s1 v _ _ _ h1 => ih v (hc v) s1 h1) _ 0 s (by omega) .first h
  | forInt a b body ih =>
    intro hc s h
    refine (FineO.range (P := DK x bo d) h (fun _ _ => trivial)).withOut (fun l s1 _ h1 => ?_)
    exact Fine.each (P := fun s : Prog.St V => DK x bo d s.2) (l := l)
      (fun i s2 v _ _ h2 => ih v (hc v) s2 h2) l.length 0 s1 (by omega) .first h1
  | forDbl a b body ih =>
    intro hc s h
    refine (FineO.range (P := DK x bo d) h (fun _ _ => trivial)).withOut (fun l s1 _ h1 => ?_)
    exact Fine.each (P := fun s : Prog.St V => DK x bo d s.2) (l := l)
      (fun i s2 v _ _ h2 => ih v (hc v) s2 h2) l.length 0 s1 (by omega) .first h1
  | block body ih =>
    intro hc s h
    exact Fine.inBlock (P := DK x bo d) (Q := DK x bo d) (ih hc s h) (fun m hm => DK.leave h.1 _ m hm) (fun _ _ _ _ => trivial)
  | tryCatch a b iha ihb =>
    intro hc s h
    refine Fine.orElse (P := fun s : Prog.St V => DK x bo d s.2) (Fine.inBlock (P := DK x bo d)
      (iha hc.1 s h) (fun m hm => DK.leave h.1 _ m hm) (fun _ _ _ _ => trivial)) (fun m s1 _ h1 => ?_)
    exact Fine.inBlock (P := DK x bo d) (Q := DK x bo d) (ihb m (hc.2 m) s1 h1)
      (fun m hm => DK.leave h1.1 _ m hm) (fun _ _ _ _ => trivial)

theorem Inv.leave_kept {lo : Nat} (m : Mach V) (I : Inv m) : Kept Mach.Inv (Mach.leave lo (m.n - lo) m) := by
  obtain ⟨s', e, I', _⟩ := leave_inv (lo := lo) I
  rw [e]
  exact I'

theorem Inv.leave_noUb {U : UB → Prop} {lo : Nat} (m : Mach V) (u : UB) (I : Inv m)
    (h : (Mach.leave lo (m.n - lo) m).1 = .ub u) : U u := by
  obtain ⟨s', e, _⟩ := leave_inv (lo := lo) I
  rw [e] at h
  cases h

theorem Inv.load_noMem {s : Mach V} (I : Inv s) {x i : Nat} (hi : i < (s.st (x, false)).sz) :
    (s.heap.load (s.st (x, false)).p i).NoMem := by
  rcases I.readable x with h | ⟨b, hp, hl, hs⟩
  · omega
  · rw [hp]
    exact fun k e => Store.load_no_memory hl (by omega) k e

/-! ## No memory error -/

theorem cmd_safe {zero : V} {c : Cmd V} {s : Prog.St V} (I : Inv s.2) (h : s.2.Allowed c) :
    Fine (fun u => u.memory = false) (fun s : Prog.St V => Inv s.2) (some ((Mach.exec zero c s.2).1, (s.1, (Mach.exec zero c s.2).2))) := by
  have := exec_safe (zero := zero) I h s.2 rfl
  rcases hm : Mach.exec zero c s.2 with ⟨o, s1⟩
  rw [hm] at this
  cases o with
  | ok a => exact this
  | thr e => exact this
  | ub k => exact this

theorem prog_safe {zero : V} {fuel : Nat} : ∀ (p : Prog V) (s : Prog.St V), Inv s.2 → Permits zero fuel p s →
    Fine (fun u => u.memory = false) (fun s : Prog.St V => Inv s.2) (p.run zero fuel s) := by
  intro p
  induction p with
  | skip => intro s I _; exact I
  | throw m => intro s I _; exact I
  | cmd c => intro s I h; exact cmd_safe I h
  | seq a b iha ihb =>
    intro s I h
    exact (iha s I h.1).andThen (fun s1 e I1 => ihb s1 I1 (h.2 s1 e))
  | decl c k ih =>
    intro s I h
    refine (cmd_safe I h.1).andThen (fun s1 e I1 => ?_)
    simp only [Option.some.injEq, Prod.mk.injEq] at e
    obtain ⟨e1, e2⟩ := e
    exact ih (s1.2.n - 1) s1 I1 (by rw [← e2]; exact h.2 _ (Prod.ext e1 rfl))
  | read bool e k ih =>
    intro s I h
    exact (FineO.say (P := Mach.Inv) I (fun u hu => toScalar_noMem I h.1 s.1 u hu)).withOut
      (fun v s1 e1 I1 => ih v s1 I1 (h.2 v s1 e1))
  | index e i k ih =>
    intro s I h
    exact (FineO.say (P := Mach.Inv) I (fun u hu => calcIndVector_noMem _ _ s.1 u hu)).withOut
      (fun v s1 e1 I1 => ih v s1 I1 (h v s1 e1))
  | len e k ih =>
    intro s I h
    exact ih _ s I h
  | loop bool e c body ih =>
    intro s I h
    refine Fine.rounds (P := fun s : Prog.St V => Inv s.2) (fun s1 _ I1 => ?_) (fun s1 s2 hs e2 I2 => ?_) fuel s .first I
    · exact FineO.say (P := Mach.Inv) I1 (fun u hu =>
        NoMemL.bind (toScalar_noMem I1 h.1) (fun v => NoMemL.pure _) s1.1 u hu)
    · exact ih s2 I2 (h.2 s1 s2 hs e2)
  | forVec x body ih =>
    intro s I h
    by_cases hx : x < s.2.n
    · have key := Fine.eachAt (U := fun u => u.memory = false) (n0 := (s.2.st (x, false)).sz)
        (p := (s.2.st (x, false)).p) (s0 := s) (body := fun v => (body v).run zero fuel)
        (P := fun s1 : Prog.St V => Inv s1.2 ∧ DK x (s.2.bor x) (s.2.st (x, false)) s1.2)
        (fun i s1 hi hp u e => by
          have := Inv.load_noMem (x := x) (i := i) hp.1 (by rw [hp.2.2.2]; exact hi)
          rw [hp.2.2.2] at this
          exact this u e)
        (fun i s1 v hi hr e hp => by
          have h1 := ih v s1 hp.1 (h.2 i s1 v hi hr e)
          have h2 := prog_dk (zero := zero) (fuel := fuel) (body v) (h.1 v) s1 hp.2
          revert h1 h2
          match (body v).run zero fuel s1 with
          | none => intro _ _; trivial
          | some (.ok _, s) => intro h1 h2; exact ⟨h1, h2⟩
          | some (.thr _, s) => intro h1 h2; exact ⟨h1, h2⟩
          | some (.ub _, s) => intro h1 h2; exact h1)
        (s.2.st (x, false)).sz 0 s (by omega) .first ⟨I, hx, rfl, rfl⟩
      unfold Prog.run
      revert key
      match Prog.eachAt (s.2.st (x, false)).p (fun v => (body v).run zero fuel) (s.2.st (x, false)).sz 0 s with
      | none => intro _; trivial
      | some (.ok _, s) => intro h1; exact h1.1
      | some (.thr _, s) => intro h1; exact h1.1
      | some (.ub _, s) => intro h1; exact h1
    · have hz : (s.2.st (x, false)).sz = 0 := by rw [(I.fresh x (by omega)).1]
      unfold Prog.run
      rw [hz]
      exact I
  | forInt a b body ih =>
    intro s I h
    have hr := range_noMem (safe_colonI h.1) s
    refine (FineO.range (P := Mach.Inv) I (fun u e => hr.1 u e)).withOut (fun l s1 e1 I1 => ?_)
    exact Fine.each (P := fun s : Prog.St V => Inv s.2) (l := l)
      (fun i s2 v h1 h2 I2 => ih v s2 I2 (h.2 l s1 i s2 v e1 h1 h2)) l.length 0 s1 (by omega) .first I1
  | forDbl a b body ih =>
    intro s I h
    have hr := range_noMem (safe_colonD h.1 h.2.1) s
    refine (FineO.range (P := Mach.Inv) I (fun u e => hr.1 u e)).withOut (fun l s1 e1 I1 => ?_)
    exact Fine.each (P := fun s : Prog.St V => Inv s.2) (l := l)
      (fun i s2 v h1 h2 I2 => ih v s2 I2 (h.2.2 l s1 i s2 v e1 h1 h2)) l.length 0 s1 (by omega) .first I1
  | block body ih =>
    intro s I h
    exact Fine.inBlock (P := Mach.Inv) (ih s I h) Inv.leave_kept Inv.leave_noUb
  | tryCatch a b iha ihb =>
    intro s I h
    refine Fine.orElse (P := fun s : Prog.St V => Inv s.2) (Fine.inBlock (P := Mach.Inv) (iha s I h.1) Inv.leave_kept
      Inv.leave_noUb) (fun m s1 e I1 => ?_)
    exact Fine.inBlock (P := Mach.Inv) (ihb m s1 I1 (h.2 m s1 e)) Inv.leave_kept Inv.leave_noUb

/-! ## The operations that were performed -/

/-- `o` is the outcome of the operations `cs`, of which the last ones are destructions at the end of blocks that were left
with a failure: `o` is the outcome of the other ones, or there was a failure elsewhere. -/
def Straight (zero : V) (cs : List (Cmd V)) (s : Mach V) (o : Out Unit) : Prop :=
  ∃ as ds, cs = as ++ ds ∧ (∀ c ∈ ds, ∃ y, c = .destroy y) ∧ (o = .ok () → ds = []) ∧
    ((runOk zero as s).1 = o ∨ ((runOk zero as s).1 = .ok () ∧ o ≠ .ok ()) ∨
      (ds ≠ [] ∧ ∃ e u, (runOk zero as s).1 = .thr e ∧ o = .ub u))

/-- The operations performed between the state `s` and the end of `r`: `Oc` holds of each of them, they were allowed if
`Al` holds, and they have the effect of `r` on the vectors. -/
def Trace (zero : V) (Oc : Cmd V → Prop) (Al St : Prop) (s : Mach V) (r : Option (Out Unit × Prog.St V)) : Prop :=
  ∀ o s', r = some (o, s') → ∃ cs, (∀ c ∈ cs, Oc c) ∧ (Al → AllowedAll zero cs s) ∧ (runAll zero cs s).2 = s'.2 ∧
    ((runAll zero cs s).1 = none ∨ ∃ u, (runAll zero cs s).1 = some u ∧ o = .ub u) ∧ (St → Straight zero cs s o)

theorem runAll_of_ok {zero : V} : ∀ {cs : List (Cmd V)} {s s1 : Mach V}, runOk zero cs s = (.ok (), s1) →
    runAll zero cs s = (none, s1) := by
  intro cs
  induction cs with
  | nil =>
    intro s s1 h
    simp only [runOk, M.pure_apply, Prod.mk.injEq, true_and] at h
    rw [h]; rfl
  | cons c cs ih =>
    intro s s1 h
    rw [runOk] at h
    cases hc : Mach.exec zero c s with
    | mk o s2 =>
      cases o with
      | ok a => rw [M.bind_ok hc] at h; rw [runAll, hc]; exact ih h
      | thr e => rw [M.bind_thr hc] at h; simp at h
      | ub u => rw [M.bind_ub hc] at h; simp at h

/-- Without an exception it does not matter whether one would have been caught. -/
theorem runAll_iff_runOk {zero : V} : ∀ {cs : List (Cmd V)} {s : Mach V}, (∀ e, (runOk zero cs s).1 ≠ .thr e) →
    (runAll zero cs s).2 = (runOk zero cs s).2 ∧ ((runAll zero cs s).1 = none ↔ (runOk zero cs s).1 = .ok ()) := by
  intro cs
  induction cs with
  | nil => intro s _; exact ⟨rfl, by simp [runAll, runOk]⟩
  | cons c cs ih =>
    intro s h
    rw [runOk] at h ⊢
    rw [runAll]
    cases hc : Mach.exec zero c s with
    | mk o s2 =>
      cases o with
      | ok a => rw [M.bind_ok hc] at h ⊢; exact ih h
      | thr e => rw [M.bind_thr hc] at h; exact absurd rfl (h e)
      | ub u => rw [M.bind_ub hc]; exact ⟨rfl, by simp⟩

theorem Trace.stop {zero : V} {Oc : Cmd V → Prop} {Al St : Prop} {s : Mach V} {o : Out Unit} {s' : Prog.St V}
    (h : s'.2 = s) : Trace zero Oc Al St s (some (o, s')) := by
  intro o' s'' e
  cases e
  refine ⟨[], by simp, fun _ => trivial, h.symm, Or.inl rfl, fun _ => ⟨[], [], rfl, by simp, fun _ => rfl, ?_⟩⟩
  cases o with
  | ok a => exact Or.inl rfl
  | thr m => exact Or.inr (Or.inl ⟨rfl, by simp⟩)
  | ub u => exact Or.inr (Or.inl ⟨rfl, by simp⟩)

theorem Trace.mono {zero : V} {Oc Oc' : Cmd V → Prop} {Al Al' St St' : Prop} {s : Mach V} {r : Option (Out Unit × Prog.St V)}
    (h : Trace zero Oc Al St s r) (h1 : ∀ c, Oc c → Oc' c) (h2 : Al' → Al) (h3 : St' → St) : Trace zero Oc' Al' St' s r := by
  intro o s' e
  obtain ⟨cs, a, b, c, d, f⟩ := h o s' e
  exact ⟨cs, fun d hd => h1 d (a d hd), fun hal => b (h2 hal), c, d, fun hs => f (h3 hs)⟩

theorem AllowedAll.append {zero : V} {bs : List (Cmd V)} : ∀ {as : List (Cmd V)} {s s1 : Mach V},
    runAll zero as s = (none, s1) → AllowedAll zero as s → AllowedAll zero bs s1 → AllowedAll zero (as ++ bs) s := by
  intro as
  induction as with
  | nil =>
    intro s s1 h _ h'
    simp only [runAll, Prod.mk.injEq, true_and] at h
    subst h
    exact h'
  | cons c as ih =>
    intro s s1 h ha h'
    rw [runAll] at h
    obtain ⟨ha1, ha2⟩ := ha
    refine ⟨ha1, ?_⟩
    cases hc : Mach.exec zero c s with
    | mk o s2 =>
      rw [hc] at ha2 h
      cases o with
      | ok a => exact ih h ha2 h'
      | thr => exact ih h ha2 h'
      | ub => trivial

/-- What was performed before a state that is not the end of the execution. -/
theorem Trace.quiet {zero : V} {cs : List (Cmd V)} {s m : Mach V} {o : Out Unit} (ho : ∀ u, o ≠ .ub u)
    (h : (runAll zero cs s).2 = m) (h' : (runAll zero cs s).1 = none ∨ ∃ u, (runAll zero cs s).1 = some u ∧ o = .ub u) :
    runAll zero cs s = (none, m) := by
  rcases h' with h' | ⟨u, _, rfl⟩
  · exact Prod.ext h' h
  · exact absurd rfl (ho u)

theorem Straight.ok {zero : V} {cs : List (Cmd V)} {s m : Mach V} (h : Straight zero cs s (.ok ()))
    (e : (runAll zero cs s).2 = m) : runOk zero cs s = (.ok (), m) := by
  obtain ⟨as, ds, rfl, _, h1, h2⟩ := h
  have := h1 rfl
  subst this
  have h3 : (runOk zero as s).1 = .ok () := by
    rcases h2 with h2 | ⟨_, h2⟩ | ⟨_, _, _, _, h2⟩
    · exact h2
    · exact absurd rfl h2
    · cases h2
  have h4 : runOk zero as s = (.ok (), (runOk zero as s).2) := Prod.ext h3 rfl
  rw [List.append_nil] at e ⊢
  rw [runAll_of_ok h4] at e
  exact Prod.ext h3 e

theorem Trace.andThen {zero : V} {Oc : Cmd V → Prop} {Al St : Prop} {s : Mach V} {r : Option (Out Unit × Prog.St V)}
    {k : Prog.St V → Option (Out Unit × Prog.St V)} (h : Trace zero Oc Al St s r)
    (h' : ∀ s1, r = some (.ok (), s1) → s.n ≤ s1.2.n → Trace zero Oc Al St s1.2 (k s1)) :
    Trace zero Oc Al St s (Prog.andThen r k) := by
  match r, h, h' with
  | none, _, _ => intro o s' e; cases e
  | some (.thr _, s1), h, _ => exact h
  | some (.ub _, s1), h, _ => exact h
  | some (.ok _, s1), h, h' =>
    intro o s' e
    obtain ⟨cs, a1, a2, a3, a4, a5⟩ := h _ _ rfl
    have hr := Trace.quiet (by simp) a3 a4
    obtain ⟨ds, b1, b2, b3, b4, b5⟩ := h' s1 rfl (runAll_grown _ _ _ hr) o s' e
    refine ⟨cs ++ ds, fun c hc => ?_, fun hal => AllowedAll.append hr (a2 hal) (b2 hal), ?_, ?_, fun hs => ?_⟩
    · rcases List.mem_append.mp hc with hc | hc
      · exact a1 c hc
      · exact b1 c hc
    · rw [runAll_append _ _ _ _ hr]; exact b3
    · rw [runAll_append _ _ _ _ hr]; exact b4
    · have hk := (a5 hs).ok a3
      obtain ⟨as, es, rfl, h1, h2, h3⟩ := b5 hs
      refine ⟨cs ++ as, es, by rw [List.append_assoc], h1, h2, ?_⟩
      rw [runOk_append hk]
      exact h3

theorem Trace.withOut {α : Type} {zero : V} {Oc : Cmd V → Prop} {Al St : Prop} {s : Mach V} {o : Out α × Prog.St V}
    {k : α → Prog.St V → Option (Out Unit × Prog.St V)} (ho : o.2.2 = s)
    (h' : ∀ a s1, o = (.ok a, s1) → Trace zero Oc Al St s1.2 (k a s1)) : Trace zero Oc Al St s (Prog.withOut o k) := by
  rcases o with ⟨o, s1⟩
  have ho : s1.2 = s := ho
  cases o with
  | ok a =>
    have := h' a s1 rfl
    rw [ho] at this
    exact this
  | thr m => exact Trace.stop ho
  | ub u => exact Trace.stop ho

theorem range_mach {W : Type} {m : AM W Unit} {s : Prog.St V} : (Prog.range m s).2.2 = s.2 := by
  unfold Prog.range
  rcases m (s.1, (Heap.empty, {})) with ⟨o, ws, hp, d⟩
  cases o <;> rfl

theorem Trace.each {k : Nat} {α : Type} {zero : V} {Oc : Cmd V → Prop} {Al St : Prop}
    {body : α → Prog.St V → Option (Out Unit × Prog.St V)} {l : List α} {s0 : Prog.St V}
    (hb : ∀ i s a, k ≤ s.2.n → RoundOf body l s0 i s → l[i]? = some a → Trace zero Oc Al St s.2 (body a s)) :
    ∀ n i s, i + n = l.length → k ≤ s.2.n → RoundOf body l s0 i s → Trace zero Oc Al St s.2 (Prog.each body (l.drop i) s) := by
  intro n
  induction n with
  | zero =>
    intro i s hi _ _
    rw [List.drop_eq_nil_of_le (by omega)]
    exact Trace.stop rfl
  | succ n ih =>
    intro i s hi hk hr
    have hi' : i < l.length := by omega
    rw [List.drop_eq_getElem_cons hi']
    have hg : l[i]? = some l[i] := List.getElem?_eq_getElem hi'
    exact (hb i s _ hk hr hg).andThen (fun s1 e1 hn => ih (i + 1) s1 (by omega) (by omega) (.next hr hg e1))

theorem Trace.eachAt {k : Nat} {zero : V} {Oc : Cmd V → Prop} {Al St : Prop} {p : Ptr} {s0 : Prog.St V} {n0 : Nat}
    {body : V → Prog.St V → Option (Out Unit × Prog.St V)}
    (hb : ∀ i s v, i < n0 → k ≤ s.2.n → RoundAt p body s0 i s → s.2.heap.load p i = .ok v → Trace zero Oc Al St s.2 (body v s)) :
    ∀ n i s, i + n = n0 → k ≤ s.2.n → RoundAt p body s0 i s → Trace zero Oc Al St s.2 (Prog.eachAt p body n i s) := by
  intro n
  induction n with
  | zero => intro i s _ _ _; exact Trace.stop rfl
  | succ n ih =>
    intro i s hi hk hr
    refine Trace.withOut rfl (fun v s' e => ?_)
    have e1 : s.2.heap.load p i = .ok v := congrArg Prod.fst e
    have e2 : s = s' := congrArg Prod.snd e
    subst e2
    exact (hb i s v (by omega) hk hr e1).andThen (fun s1 e1' hn => ih (i + 1) s1 (by omega) (by omega) (.next hr e1 e1'))

theorem Trace.rounds {k : Nat} {zero : V} {Oc : Cmd V → Prop} {Al St : Prop} {test : Prog.St V → Out Bool × Prog.St V}
    {body : Prog.St V → Option (Out Unit × Prog.St V)} {s0 : Prog.St V} (ht : ∀ s, (test s).2.2 = s.2)
    (hb : ∀ s s1, k ≤ s1.2.n → Heads test body s0 s → test s = (.ok true, s1) → Trace zero Oc Al St s1.2 (body s1)) :
    ∀ n s, k ≤ s.2.n → Heads test body s0 s → Trace zero Oc Al St s.2 (Prog.rounds test body n s) := by
  intro n
  induction n with
  | zero => intro s _ _ o s' e; cases e
  | succ n ih =>
    intro s hk hs
    refine Trace.withOut (ht s) (fun t s1 e => ?_)
    cases t with
    | false => exact Trace.stop rfl
    | true =>
      have hn : s1.2.n = s.2.n := by have := ht s; rw [e] at this; exact congrArg Mach.n this
      exact (hb s s1 (by omega) hs e).andThen (fun s2 e2 hn' => ih s2 (by omega) (.next hs e e2))

/-- The destructions at the end of a block. -/
def destroysFrom (V : Type) (lo : Nat) : Nat → List (Cmd V)
  | 0 => []
  | n + 1 => .destroy (lo + n) :: destroysFrom V lo n

theorem destroysFrom_mem {lo : Nat} {c : Cmd V} : ∀ {n : Nat}, c ∈ destroysFrom V lo n → ∃ y, lo ≤ y ∧ c = .destroy y
  | 0, h => by simp [destroysFrom] at h
  | n + 1, h => by
    rcases List.mem_cons.mp h with h | h
    · exact ⟨lo + n, by omega, h⟩
    · exact destroysFrom_mem h

theorem dtor_noThr {st : Heap V × Store} {e : String} : (Store.dtor st).1 ≠ .thr e := by
  intro h
  obtain ⟨hp, d⟩ := st
  unfold Store.dtor at h
  rw [M.bind_ok (Store.self_apply _)] at h
  split at h
  · split at h
    · have hd : ∀ m, (Heap.delete d.p hp).1 ≠ .thr m := by
        intro m hm
        unfold Heap.delete at hm
        split at hm
        · cases hm
        · split at hm
          · cases hm
          · split at hm <;> cases hm
      rw [M.bind_apply, Store.heapM_apply] at h
      rcases hm : Heap.delete d.p hp with ⟨o, h1⟩
      simp only [] at h hd
      rw [hm] at h hd
      cases o with
      | ok a => cases h
      | thr m => exact hd m rfl
      | ub u => simp at h
    · cases h
  · cases h

theorem destroy_noThr {x : Nat} {s : Mach V} {e : String} : (Mach.destroy x s).1 ≠ .thr e := by
  intro h
  unfold Mach.destroy at h
  rw [M.bind_apply, onSlot_apply] at h
  have h1 := @dtor_noThr V (s.heap, s.st (x, true))
  rcases hm : Store.dtor (s.heap, s.st (x, true)) with ⟨o, st⟩
  rw [hm] at h h1
  cases o with
  | thr m => exact h1 rfl
  | ub u => simp at h
  | ok a =>
    simp only [] at h
    rw [M.bind_ok (M.get_apply _)] at h
    split at h
    · rw [M.bind_apply, onSlot_apply] at h
      generalize hm' : ((s.put (x, true) st).heap, (s.put (x, true) st).st (x, false)) = st2 at h
      have h2 := @dtor_noThr V st2
      rcases hm2 : Store.dtor st2 with ⟨o, st3⟩
      rw [hm2] at h h2
      cases o with
      | thr m => exact h2 rfl
      | ub u => simp at h
      | ok a => cases h
    · cases h

/-- The end of a block is a sequence of destructions. -/
theorem leave_runAll {zero : V} {lo : Nat} : ∀ (n : Nat) (s : Mach V),
    (runAll zero (destroysFrom V lo n) s).2 = (Mach.leave lo n s).2 ∧
      (((runAll zero (destroysFrom V lo n) s).1 = none ∧ (Mach.leave lo n s).1 = .ok ()) ∨
        ∃ u, (runAll zero (destroysFrom V lo n) s).1 = some u ∧ (Mach.leave lo n s).1 = .ub u)
  | 0, s => ⟨rfl, Or.inl ⟨rfl, rfl⟩⟩
  | n + 1, s => by
    have h := fun e => @destroy_noThr V (lo + n) s e
    have e : Mach.exec zero (.destroy (lo + n)) s = Mach.destroy (lo + n) s := rfl
    rw [destroysFrom, runAll, Mach.leave, e]
    rcases hm : Mach.destroy (lo + n) s with ⟨o, s1⟩
    rw [hm] at h
    cases o with
    | ok a => rw [M.bind_ok hm]; exact leave_runAll n s1
    | thr m => exact absurd rfl (h m)
    | ub u => rw [M.bind_ub hm]; exact ⟨rfl, Or.inr ⟨u, rfl, rfl⟩⟩

/-- The destructions at the end of a block are allowed. -/
theorem destroysFrom_allowed {zero : V} {lo : Nat} : ∀ (n : Nat) (s : Mach V), lo + n ≤ s.n ∨ n = 0 →
    AllowedAll zero (destroysFrom V lo n) s
  | 0, s, _ => trivial
  | n + 1, s, h => by
    refine ⟨?_, ?_⟩
    · show lo + n < s.n
      omega
    · have g := exec_grown (zero := zero) (.destroy (lo + n)) s (show Grown s.n s from le_refl _)
      rcases hm : Mach.exec zero (.destroy (lo + n)) s with ⟨o, s1⟩
      rw [hm] at g
      cases o with
      | ok a => exact destroysFrom_allowed n s1 (Or.inl (by have : s.n ≤ s1.n := g; omega))
      | thr a => exact destroysFrom_allowed n s1 (Or.inl (by have : s.n ≤ s1.n := g; omega))
      | ub a => trivial

theorem runAll_quiet {zero : V} {cs ds : List (Cmd V)} {s m : Mach V} (h : runAll zero cs s = (none, m)) :
    runAll zero (cs ++ ds) s = runAll zero ds m := runAll_append _ _ _ _ h

/-- The end of a block. -/
theorem Trace.inBlock {zero : V} {Oc : Cmd V → Prop} {Al St : Prop} {s : Prog.St V}
    {body : Prog.St V → Option (Out Unit × Prog.St V)} (h : Trace zero Oc Al St s.2 (body s))
    (hO : ∀ y, s.2.n ≤ y → Oc (.destroy y)) : Trace zero Oc Al St s.2 (Prog.inBlock body s) := by
  -- the outcome of the body and the destructions
  have key : ∀ (o : Out Unit) (s1 : Prog.St V), (∀ u, o ≠ .ub u) → body s = some (o, s1) → ∀ (o' : Out Unit) (m : Mach V),
      m = (Mach.leave s.2.n (s1.2.n - s.2.n) s1.2).2 →
      ((Mach.leave s.2.n (s1.2.n - s.2.n) s1.2).1 = .ok () ∧ o' = o ∨
        ∃ u, (Mach.leave s.2.n (s1.2.n - s.2.n) s1.2).1 = .ub u ∧ o' = .ub u) →
      ∃ cs, (∀ c ∈ cs, Oc c) ∧ (Al → AllowedAll zero cs s.2) ∧ (runAll zero cs s.2).2 = m ∧
        ((runAll zero cs s.2).1 = none ∨ ∃ u, (runAll zero cs s.2).1 = some u ∧ o' = .ub u) ∧ (St → Straight zero cs s.2 o') := by
    intro o s1 ho e o' m hm ho'
    obtain ⟨cs, a1, a2, a3, a4, a5⟩ := h o s1 e
    have hr := Trace.quiet ho a3 a4
    obtain ⟨l1, l2⟩ := leave_runAll (zero := zero) (lo := s.2.n) (s1.2.n - s.2.n) s1.2
    refine ⟨cs ++ destroysFrom V s.2.n (s1.2.n - s.2.n), fun c hc => ?_, fun hal => ?_, ?_, ?_, fun hs => ?_⟩
    · rcases List.mem_append.mp hc with hc | hc
      · exact a1 c hc
      · obtain ⟨y, hy, rfl⟩ := destroysFrom_mem hc
        exact hO y hy
    · exact AllowedAll.append hr (a2 hal) (destroysFrom_allowed _ _ (by omega))
    · rw [runAll_quiet hr, hm, l1]
    · rw [runAll_quiet hr]
      rcases ho' with ⟨h1, _⟩ | ⟨u, h1, h2⟩
      · rcases l2 with l2 | ⟨u, _, l2⟩
        · exact Or.inl l2.1
        · rw [h1] at l2; cases l2
      · rcases l2 with ⟨_, l2⟩ | ⟨u', l2, l3⟩
        · rw [h1] at l2; cases l2
        · rw [h1] at l3; cases l3
          exact Or.inr ⟨u, l2, h2⟩
    · have a5 := a5 hs
      cases o with
      | ub u => exact absurd rfl (ho u)
      | ok a =>
        have hk := a5.ok a3
        rcases ho' with ⟨h1, rfl⟩ | ⟨u, h1, rfl⟩
        · -- everything went well: the destructions are operations like the others
          refine ⟨_, [], (List.append_nil _).symm, by simp, fun _ => rfl, Or.inl ?_⟩
          rw [runOk_append hk]
          have hd : ∀ n m, runOk zero (destroysFrom V s.2.n n) m = Mach.leave s.2.n n m := by
            intro n
            induction n with
            | zero => intro m; rfl
            | succ n ih =>
              intro m
              rw [destroysFrom, runOk, Mach.leave]
              have e : Mach.exec zero (.destroy (s.2.n + n)) m = Mach.destroy (s.2.n + n) m := rfl
              rw [M.bind_apply, M.bind_apply, e]
              rcases Mach.destroy (s.2.n + n) m with ⟨o, m1⟩
              cases o <;> first | exact ih _ | rfl
          rw [hd]
          exact h1
        · refine ⟨cs, _, rfl, fun c hc => ?_, fun hh => (by cases hh), Or.inr (Or.inl ⟨(by rw [hk]), (by simp)⟩)⟩
          obtain ⟨y, _, rfl⟩ := destroysFrom_mem hc
          exact ⟨y, rfl⟩
      | thr msg =>
        obtain ⟨as, ds, rfl, d1, d2, d3⟩ := a5
        refine ⟨as, ds ++ destroysFrom V s.2.n (s1.2.n - s.2.n), by rw [List.append_assoc], fun c hc => ?_, fun hh => ?_, ?_⟩
        · rcases List.mem_append.mp hc with hc | hc
          · exact d1 c hc
          · obtain ⟨y, _, rfl⟩ := destroysFrom_mem hc
            exact ⟨y, rfl⟩
        · rcases ho' with ⟨_, h2⟩ | ⟨u, _, h2⟩ <;> (rw [hh] at h2; cases h2)
        · rcases ho' with ⟨_, h2⟩ | ⟨u, h1, h2⟩
          · rcases d3 with d3 | d3 | ⟨_, _, _, _, d3⟩
            · exact Or.inl (by rw [h2]; exact d3)
            · exact Or.inr (Or.inl (by rw [h2]; exact d3))
            · cases d3
          · rcases d3 with d3 | d3 | ⟨_, _, _, _, d3⟩
            · refine Or.inr (Or.inr ⟨?_, msg, u, d3, h2⟩)
              intro hnil
              have : destroysFrom V s.2.n (s1.2.n - s.2.n) = [] := (List.append_eq_nil_iff.mp hnil).2
              rw [this] at l1 l2
              rcases l2 with ⟨_, l2⟩ | ⟨_, l2, _⟩
              · rw [h1] at l2; cases l2
              · cases l2
            · exact Or.inr (Or.inl ⟨d3.1, by rw [h2]; simp⟩)
            · cases d3
  intro o s' e
  unfold Prog.inBlock at e
  rcases hb : body s with _ | ⟨o1, s1⟩
  · rw [hb] at e; cases e
  · rw [hb] at e
    cases o1 with
    | ub u => exact h o s' (by rw [hb]; exact e)
    | ok a =>
      simp only [] at e
      have key := key (.ok a) s1 (by simp) hb
      have hn := (leave_runAll (zero := zero) (lo := s.2.n) (s1.2.n - s.2.n) s1.2).2
      rcases hm : Mach.leave s.2.n (s1.2.n - s.2.n) s1.2 with ⟨o2, m⟩
      rw [hm] at key e hn
      cases o2 with
      | ok b => cases e; exact key _ _ rfl (Or.inl ⟨rfl, rfl⟩)
      | ub u => cases e; exact key _ _ rfl (Or.inr ⟨u, rfl, rfl⟩)
      | thr m =>
        rcases hn with ⟨_, hn⟩ | ⟨_, _, hn⟩ <;> cases hn
    | thr a =>
      simp only [] at e
      have key := key (.thr a) s1 (by simp) hb
      have hn := (leave_runAll (zero := zero) (lo := s.2.n) (s1.2.n - s.2.n) s1.2).2
      rcases hm : Mach.leave s.2.n (s1.2.n - s.2.n) s1.2 with ⟨o2, m⟩
      rw [hm] at key e hn
      cases o2 with
      | ok b => cases e; exact key _ _ rfl (Or.inl ⟨rfl, rfl⟩)
      | ub u => cases e; exact key _ _ rfl (Or.inr ⟨u, rfl, rfl⟩)
      | thr m =>
        rcases hn with ⟨_, hn⟩ | ⟨_, _, hn⟩ <;> cases hn

/-- A handler. -/
theorem Trace.orElse {zero : V} {Oc : Cmd V → Prop} {Al : Prop} {s : Mach V} {r : Option (Out Unit × Prog.St V)}
    {k : String → Prog.St V → Option (Out Unit × Prog.St V)} (h : Trace zero Oc Al False s r)
    (h' : ∀ m s1, r = some (.thr m, s1) → s.n ≤ s1.2.n → Trace zero Oc Al False s1.2 (k m s1)) :
    Trace zero Oc Al False s (Prog.orElse r k) := by
  match r, h, h' with
  | none, _, _ => intro o s' e; cases e
  | some (.ok _, s1), h, _ => exact h
  | some (.ub _, s1), h, _ => exact h
  | some (.thr m, s1), h, h' =>
    intro o s' e
    obtain ⟨cs, a1, a2, a3, a4, _⟩ := h _ _ rfl
    have hr := Trace.quiet (by simp) a3 a4
    obtain ⟨ds, b1, b2, b3, b4, _⟩ := h' m s1 rfl (runAll_grown _ _ _ hr) o s' e
    refine ⟨cs ++ ds, fun c hc => ?_, fun hal => AllowedAll.append hr (a2 hal) (b2 hal), ?_, ?_, fun hs => hs.elim⟩
    · rcases List.mem_append.mp hc with hc | hc
      · exact a1 c hc
      · exact b1 c hc
    · rw [runAll_quiet hr]; exact b3
    · rw [runAll_quiet hr]; exact b4

/-- An operation of the program, or the destruction of a vector that the program declared. -/
def Does (p : Prog V) (k : Nat) (c : Cmd V) : Prop := HasCmd c p ∨ ∃ y, k ≤ y ∧ c = .destroy y

theorem Does.mono {p q : Prog V} {k : Nat} (h : ∀ c, HasCmd c p → HasCmd c q) : ∀ c, Does p k c → Does q k c :=
  fun c hc => hc.elim (fun hc => Or.inl (h c hc)) Or.inr

theorem cmd_trace {zero : V} {Oc : Cmd V → Prop} {Al St : Prop} {c : Cmd V} {s : Prog.St V} (hO : Oc c) (hA : Al → s.2.Allowed c) :
    Trace zero Oc Al St s.2 (some ((Mach.exec zero c s.2).1, (s.1, (Mach.exec zero c s.2).2))) := by
  intro o s' e
  have e1 : (Mach.exec zero c s.2).1 = o := by cases e; rfl
  have e2 : (Mach.exec zero c s.2).2 = s'.2 := by cases e; rfl
  have hr : runOk zero [c] s.2 = Mach.exec zero c s.2 := by
    rw [runOk, M.bind_apply]
    rcases Mach.exec zero c s.2 with ⟨o, s1⟩
    cases o <;> rfl
  refine ⟨[c], fun d hd => ?_, fun hal => ⟨hA hal, ?_⟩, ?_, ?_, fun _ => ⟨[c], [], rfl, by simp, fun _ => rfl,
    Or.inl (by rw [hr]; exact e1)⟩⟩
  · exact (List.mem_singleton.mp hd).symm ▸ hO
  · rcases Mach.exec zero c s.2 with ⟨o, s1⟩
    cases o <;> trivial
  · rw [runAll]
    rcases hm : Mach.exec zero c s.2 with ⟨o, s1⟩
    rw [hm] at e2
    cases o <;> exact e2
  · rw [runAll]
    rcases hm : Mach.exec zero c s.2 with ⟨o1, s1⟩
    rw [hm] at e1
    cases o1 with
    | ok a => exact Or.inl rfl
    | thr a => exact Or.inl rfl
    | ub u => exact Or.inr ⟨u, rfl, e1.symm⟩

theorem prog_trace {zero : V} {fuel k : Nat} : ∀ (p : Prog V) (s : Prog.St V), k ≤ s.2.n →
    Trace zero (Does p k) (Permits zero fuel p s) (NoTry p) s.2 (p.run zero fuel s) := by
  intro p
  induction p with
  | skip => intro s _; exact Trace.stop rfl
  | throw m => intro s _; exact Trace.stop rfl
  | cmd c => intro s _; exact cmd_trace (Or.inl rfl) (fun h => h)
  | seq a b iha ihb =>
    intro s hk
    refine Trace.andThen ((iha s hk).mono (Does.mono fun c h => Or.inl h) (fun h => h.1) (fun h => h.1)) (fun s1 e hn => ?_)
    exact (ihb s1 (by omega)).mono (Does.mono fun c h => Or.inr h) (fun h => h.2 s1 e) (fun h => h.2)
  | decl c f ih =>
    intro s hk
    refine Trace.andThen (cmd_trace (Or.inl (Or.inl rfl)) (fun h => h.1)) (fun s1 e hn => ?_)
    simp only [Option.some.injEq, Prod.mk.injEq] at e
    obtain ⟨e1, e2⟩ := e
    exact (ih _ s1 (by omega)).mono (Does.mono fun c h => Or.inr ⟨_, h⟩) (fun h => by rw [← e2]; exact h.2 _ (Prod.ext e1 rfl)) (fun h => h _)
  | read bool e f ih =>
    intro s hk
    refine Trace.withOut rfl (fun v s1 e1 => ?_)
    have hn : s1.2 = s.2 := (congrArg (fun z => z.2.2) e1).symm
    exact (ih v s1 (by rw [hn]; exact hk)).mono (Does.mono fun c h => ⟨v, h⟩) (fun h => h.2 v s1 e1) (fun h => h v)
  | index e i f ih =>
    intro s hk
    refine Trace.withOut rfl (fun v s1 e1 => ?_)
    have hn : s1.2 = s.2 := (congrArg (fun z => z.2.2) e1).symm
    exact (ih v s1 (by rw [hn]; exact hk)).mono (Does.mono fun c h => ⟨v, h⟩) (fun h => h v s1 e1) (fun h => h v)
  | len e f ih =>
    intro s hk
    exact (ih _ s hk).mono (Does.mono fun c h => ⟨_, h⟩) (fun h => h) (fun h => h _)
  | loop bool e c body ih =>
    intro s hk
    exact Trace.rounds (k := k) (test := testOf bool e c) (fun _ => rfl) (fun s1 s2 hk2 hs e2 => (ih s2 hk2).mono
      (Does.mono fun c h => h) (fun h => h.2 s1 s2 hs e2) (fun h => h)) fuel s hk .first
  | forVec x body ih =>
    intro s hk
    exact Trace.eachAt (k := k) (n0 := (s.2.st (x, false)).sz) (fun i s1 v hi hk1 hr e => (ih v s1 hk1).mono
      (Does.mono (q := .forVec x body) fun c h => ⟨v, h⟩) (fun h => h.2 i s1 v hi hr e) (fun h => h v)) _ 0 s (by omega) hk .first
  | forInt a b body ih =>
    intro s hk
    refine Trace.withOut range_mach (fun l s1 e1 => ?_)
    have hn : s1.2 = s.2 := by have := range_mach (m := colonI a b) (s := s); rw [e1] at this; exact this
    exact Trace.each (k := k) (l := l) (fun i s2 v hk2 h1 h2 => (ih v s2 hk2).mono
      (Does.mono (q := .forInt a b body) fun c h => ⟨v, h⟩) (fun h => h.2 l s1 i s2 v e1 h1 h2) (fun h => h v)) l.length 0 s1 (by omega) (by rw [hn]; exact hk) .first
  | forDbl a b body ih =>
    intro s hk
    refine Trace.withOut range_mach (fun l s1 e1 => ?_)
    have hn : s1.2 = s.2 := by have := range_mach (m := colonD a b) (s := s); rw [e1] at this; exact this
    exact Trace.each (k := k) (l := l) (fun i s2 v hk2 h1 h2 => (ih v s2 hk2).mono
      (Does.mono (q := .forDbl a b body) fun c h => ⟨v, h⟩) (fun h => h.2.2 l s1 i s2 v e1 h1 h2) (fun h => h v)) l.length 0 s1 (by omega) (by rw [hn]; exact hk) .first
  | block body ih =>
    intro s hk
    exact Trace.inBlock ((ih s hk).mono (Does.mono fun c h => h) (fun h => h) (fun h => h))
      (fun y hy => Or.inr ⟨y, by omega, rfl⟩)
  | tryCatch a b iha ihb =>
    intro s hk
    refine Trace.mono (St := False) ?_ (fun _ h => h) (fun h => h) (fun h => h)
    refine Trace.orElse (Trace.inBlock ((iha s hk).mono (Does.mono fun c h => Or.inl h) (fun h => h.1) (fun h => h.elim))
      (fun y hy => Or.inr ⟨y, by omega, rfl⟩)) (fun m s1 e hn => ?_)
    exact Trace.inBlock ((ihb m s1 (by omega)).mono (Does.mono fun c h => Or.inr ⟨m, h⟩) (fun h => h.2 m s1 e) (fun h => h.elim))
      (fun y hy => Or.inr ⟨y, by omega, rfl⟩)

/-! ## The property -/

/-- C91: what a program with branches, loops, blocks and handlers does to the vectors is what a sequence of operations does: each of
them occurs in the program, or it is the destruction of a vector that did not exist before the program.  If there is undefined
behaviour in an operation then the program ends with it. -/
theorem C91_trace (zero : V) (fuel : Nat) (p : Prog V) (s s' : Prog.St V) (o : Out Unit)
    (e : p.run zero fuel s = some (o, s')) :
    ∃ cs, (∀ c ∈ cs, HasCmd c p ∨ ∃ y, s.2.n ≤ y ∧ c = .destroy y) ∧ (runAll zero cs s.2).2 = s'.2 ∧
      ((runAll zero cs s.2).1 = none ∨ ∃ u, (runAll zero cs s.2).1 = some u ∧ o = .ub u) := by
  obtain ⟨cs, h1, _, h2, h3, _⟩ := prog_trace (zero := zero) (fuel := fuel) p s (le_refl _) o s' e
  exact ⟨cs, h1, h2, h3⟩

/-- C91: in a program without handlers only the last operation may have failed, and then the program has the same outcome; after a
failure nothing is performed but the destructions `ds` at the end of the blocks that are left.  If the program fails without a failing
operation then a condition, an index argument, the head of a loop or a destructor failed. -/
theorem C91_stops (zero : V) (fuel : Nat) (p : Prog V) (hp : NoTry p) (s s' : Prog.St V) (o : Out Unit)
    (e : p.run zero fuel s = some (o, s')) :
    ∃ cs ds, (∀ c ∈ cs, HasCmd c p ∨ ∃ y, s.2.n ≤ y ∧ c = .destroy y) ∧ (∀ c ∈ ds, ∃ y, c = .destroy y) ∧
      (o = .ok () → ds = []) ∧ (runAll zero (cs ++ ds) s.2).2 = s'.2 ∧
      ((runOk zero cs s.2).1 = o ∨ ((runOk zero cs s.2).1 = .ok () ∧ o ≠ .ok ()) ∨
        (ds ≠ [] ∧ ∃ e u, (runOk zero cs s.2).1 = .thr e ∧ o = .ub u)) := by
  obtain ⟨cs, h1, _, h2, h3, h4⟩ := prog_trace (zero := zero) (fuel := fuel) p s (le_refl _) o s' e
  obtain ⟨as, ds, rfl, d1, d2, d3⟩ := h4 hp
  exact ⟨as, ds, fun c hc => h1 c (List.mem_append_left _ hc), d1, d2, h2, d3⟩

/-- C91 (partial: the program respects the preconditions of `Permits`).  The state in which a permitted program ends,
normally or with an exception, is one that a history of allowed operations reaches; so that whatever holds after every
such history (C02, C06, C19, C21, ...) holds after every program with branches, loops, blocks and handlers. -/
theorem C91_reach_partial (zero : V) (fuel : Nat) (p : Prog V) (s s' : Prog.St V) (o : Out Unit) (r : Reach zero s.2)
    (hp : Permits zero fuel p s) (e : p.run zero fuel s = some (o, s')) (ho : ∀ u, o ≠ .ub u) : Reach zero s'.2 := by
  obtain ⟨cs, _, h1, h2, h3, _⟩ := prog_trace (zero := zero) (fuel := fuel) p s (le_refl _) o s' e
  obtain ⟨bs, a1, a2⟩ := r
  refine ⟨bs ++ cs, AllowedAll.append a2 a1 (h1 hp), ?_⟩
  rw [runAll_append _ _ _ _ a2]
  exact Trace.quiet ho h2 h3

/-- C91 (partial: as above).  A permitted program makes no memory error: no access outside of a block, no use after free, no
release of memory that is not owned; neither in its operations nor in its conditions, index arguments and loop heads. -/
theorem C91_no_memory_error_partial (zero : V) (fuel : Nat) (p : Prog V) (s s' : Prog.St V) (u : UB) (r : Reach zero s.2)
    (hp : Permits zero fuel p s) (e : p.run zero fuel s = some (.ub u, s')) : u.memory = false := by
  have := prog_safe (zero := zero) (fuel := fuel) p s r.inv hp
  rw [e] at this
  exact this

/-- C91 (partial: as above).  A permitted program leaks nothing: after the destruction of the objects that exist at its end no
block of the library is allocated. -/
theorem C91_no_leak_partial (zero : V) (fuel : Nat) (p : Prog V) (s s' : Prog.St V) (o : Out Unit) (r : Reach zero s.2)
    (hp : Permits zero fuel p s) (e : p.run zero fuel s = some (o, s')) (ho : ∀ u, o ≠ .ub u) :
    ∃ t, runAll zero s'.2.destroyAll s'.2 = (none, t) ∧ NoLeak t :=
  C06_no_leak_partial zero s'.2 (C91_reach_partial zero fuel p s s' o r hp e ho)

theorem leave_owners {lo : Nat} {s : Mach V} (I : Inv s) (hlo : lo ≤ s.n) :
    ∃ s', Mach.leave lo (s.n - lo) s = (.ok (), s') ∧ ∀ b, b < s'.heap.next → (s'.heap.blk b).live = true →
      (s'.heap.blk b).newed = true → ∃ y : Slot, y.1 < lo ∧ (s'.st y).p = some b := by
  obtain ⟨s', e, I', n, z, o⟩ := leave_ok (lo := lo) (s.n - lo) s I (by omega)
  refine ⟨s', e, fun b hb hl hn => ?_⟩
  obtain ⟨y, _, hp⟩ := I'.own b hb hl hn
  refine ⟨y, ?_, hp⟩
  by_contra hy
  have : s'.st y = {} := by
    by_cases h : y.1 < s.n
    · exact z y (by omega) (by omega)
    · obtain ⟨h1, h2, _⟩ := I'.fresh y.1 (by omega)
      obtain ⟨y1, y2⟩ := y
      cases y2
      · exact h1
      · exact h2
  rw [this] at hp
  simp at hp

/-- C91 (partial: as above).  A block releases what was allocated for its vectors, also when an exception leaves it: afterwards every
block of memory of the library that is still allocated belongs to a vector that existed before.  So the memory in use does not grow
with the number of rounds of a loop whose body is a block. -/
theorem C91_block_partial (zero : V) (fuel : Nat) (p : Prog V) (s s' : Prog.St V) (o : Out Unit) (r : Reach zero s.2)
    (hp : Permits zero fuel p s) (e : (Prog.block p).run zero fuel s = some (o, s')) (ho : ∀ u, o ≠ .ub u) :
    ∀ b, b < s'.2.heap.next → (s'.2.heap.blk b).live = true → (s'.2.heap.blk b).newed = true →
      ∃ y : Slot, y.1 < s.2.n ∧ (s'.2.st y).p = some b := by
  have hs := prog_safe (zero := zero) (fuel := fuel) p s r.inv hp
  have ht := prog_trace (zero := zero) (fuel := fuel) p s (le_refl _)
  have e : Prog.inBlock (p.run zero fuel) s = some (o, s') := e
  unfold Prog.inBlock at e
  have key : ∀ (o1 : Out Unit) (s1 : Prog.St V), p.run zero fuel s = some (o1, s1) → (∀ u, o1 ≠ .ub u) → Inv s1.2 →
      ∃ m, Mach.leave s.2.n (s1.2.n - s.2.n) s1.2 = (.ok (), m) ∧ ∀ b, b < m.heap.next → (m.heap.blk b).live = true →
      (m.heap.blk b).newed = true → ∃ y : Slot, y.1 < s.2.n ∧ (m.st y).p = some b := by
    intro o1 s1 e1 ho1 I1
    obtain ⟨cs, _, _, h1, h2, _⟩ := ht o1 s1 e1
    exact leave_owners I1 (runAll_grown _ _ _ (Trace.quiet ho1 h1 h2))
  rcases hb : p.run zero fuel s with _ | ⟨o1, s1⟩
  · rw [hb] at e; cases e
  · rw [hb] at e hs
    cases o1 with
    | ub u => cases e; exact absurd rfl (ho u)
    | ok a =>
      obtain ⟨m, e1, h⟩ := key _ _ hb (by simp) hs
      simp only [e1] at e
      cases e
      exact h
    | thr a =>
      obtain ⟨m, e1, h⟩ := key _ _ hb (by simp) hs
      simp only [e1] at e
      cases e
      exact h

/-! ## A program -/

/-- `x = vector(3); for (v : x) x[2] = v + 1; for (i : colon(1, 3)) x[i - 1] = i;`. -/
def sampleWrites : Prog Int :=
  .seq (.cmd (.declSize 3)) (.seq (.forVec 0 fun v => .cmd (.setElem 0 2 (v + 1)))
    (.forInt 1 3 fun i => .cmd (.setElem 0 (i - 1).toNat i)))

theorem setElem_n {i : Nat} {v : Int} {s : Mach Int} : (Mach.exec 0 (.setElem 0 i v) s).2.n = s.n := by
  show (Mach.onSlot (0, false) (Store.set i v) s).2.n = s.n
  rw [onSlot_apply]
  rfl

theorem sampleWrites_permits : Permits 0 1 sampleWrites ([], start) := by
  refine ⟨?_, fun s1 e1 => ⟨⟨fun v => trivial, fun i s2 v hi hr hl => ?_⟩, fun s2 e2 => ⟨by decide, ?_⟩⟩⟩
  · show 3 ≤ 2 ^ 30; decide
  · have n1 : s1.2.n = 1 := by
      have h : (Mach.exec 0 (.declSize 3) (start : Mach Int)).2.n = 1 := by decide +kernel
      have h' : (Mach.exec 0 (.declSize 3) (start : Mach Int)).2 = s1.2 :=
        congrArg (fun z => z.2.2) (Option.some.inj e1)
      rw [← h', h]
    have : s2.2.n = 1 := by
      clear hi hl
      induction hr with
      | first => exact n1
      | next hr hl hb ih =>
        have := congrArg (fun z => z.2.2.n) (Option.some.inj hb)
        exact (this.symm.trans setElem_n).trans ih
    show 0 < s2.2.n
    omega
  · have n2 : s2.2.n = 1 := by
      have h : (((Prog.seq (.cmd (.declSize 3)) (.forVec 0 fun v => .cmd (.setElem 0 2 (v + 1)))).run 0 1
          ([], (start : Mach Int))).map (fun z => z.2.2.n)) = some 1 := by decide +kernel
      have h' : (Prog.seq (.cmd (.declSize 3)) (.forVec 0 fun v => .cmd (.setElem 0 2 (v + 1)))).run 0 1
          ([], (start : Mach Int)) = some (.ok (), s2) := by
        show Prog.andThen (Prog.run 0 1 _ _) _ = _
        rw [e1]
        exact e2
      rw [h'] at h
      exact Option.some.inj h
    intro l s0 i s3 v e3 hr hl
    have n3 : s0.2.n = 1 := by
      have h := range_mach (m := colonI 1 3) (s := s2)
      rw [e3] at h
      have h : s0.2 = s2.2 := h
      rw [h, n2]
    have : s3.2.n = 1 := by
      clear hl
      induction hr with
      | first => exact n3
      | next hr hl hb ih =>
        have := congrArg (fun z => z.2.2.n) (Option.some.inj hb)
        exact (this.symm.trans setElem_n).trans ih
    show 0 < s3.2.n
    omega

/-- The theorems applied: the program ends, in a reachable state with the elements 1, 2, 3. -/
example : ∃ s', sampleWrites.run 0 1 ([], start) = some (.ok (), s') ∧ Reach 0 s'.2 ∧
    (s'.2.st (0, false)).iterate s'.2.heap = .ok [1, 2, 3] := by
  have h : (sampleWrites.run 0 1 ([], start)).map (fun z => (z.1, (z.2.2.st (0, false)).iterate z.2.2.heap))
      = some (.ok (), .ok [1, 2, 3]) := by decide +kernel
  match e : sampleWrites.run 0 1 ([], start) with
  | none => rw [e] at h; cases h
  | some (o, s') =>
    rw [e] at h
    have h1 : o = .ok () := congrArg Prod.fst (Option.some.inj h)
    subst h1
    refine ⟨s', rfl, ?_, congrArg Prod.snd (Option.some.inj h)⟩
    exact C91_reach_partial 0 1 sampleWrites ([], start) s' (.ok ()) ⟨[], trivial, rfl⟩ sampleWrites_permits e (by simp)

/-- `x = vector(2); try { y = vector(3); x[5] = 1; } catch (...) { { z = vector(4); } x[1] = 7; }`. -/
def sampleTry : Prog Int :=
  .seq (.cmd (.declSize 2)) (.tryCatch (.seq (.cmd (.declSize 3)) (.cmd (.setElem 0 5 1)))
    (fun _ => .seq (.block (.cmd (.declSize 4))) (.cmd (.setElem 0 1 7))))

theorem run_declSize_n {s : Prog.St Int} {n : Nat} {s1 : Prog.St Int} (h : Mach.Inv s.2) (hn : n ≤ 2 ^ 30)
    (e : (Prog.cmd (.declSize n)).run 0 1 s = some (.ok (), s1)) : Mach.Inv s1.2 ∧ s.2.n ≤ s1.2.n := by
  have hs := prog_safe (zero := 0) (fuel := 1) (.cmd (.declSize n)) s h (show n ≤ 2 ^ 30 from hn)
  rw [e] at hs
  have e2 : (Mach.exec 0 (.declSize n) s.2).2 = s1.2 := congrArg (fun z => z.2.2) (Option.some.inj e)
  have e1 : (Mach.exec 0 (.declSize n) s.2).1 = .ok () := congrArg (fun z => z.1) (Option.some.inj e)
  have g := exec_grown (zero := (0 : Int)) (.declSize n) s.2 (show Grown s.2.n s.2 from le_refl _)
  rw [show Mach.exec 0 (.declSize n) s.2 = (.ok (), s1.2) from Prod.ext e1 e2] at g
  exact ⟨hs, g⟩

theorem sampleTry_permits : Permits 0 1 sampleTry ([], start) := by
  refine ⟨by show 2 ≤ 2 ^ 30; decide, fun s1 e1 => ?_⟩
  have n1 : s1.2.n = 1 := by
    have h : (Mach.exec 0 (.declSize 2) (start : Mach Int)).2.n = 1 := by decide +kernel
    have h' : (Mach.exec 0 (.declSize 2) (start : Mach Int)).2 = s1.2 := congrArg (fun z => z.2.2) (Option.some.inj e1)
    rw [← h', h]
  have i1 := (run_declSize_n (Inv.start) (by decide) e1).1
  refine ⟨⟨by show 3 ≤ 2 ^ 30; decide, fun s2 e2 => ?_⟩, fun m s2 e2 => ⟨by show 4 ≤ 2 ^ 30; decide, fun s3 e3 => ?_⟩⟩
  · show 0 < s2.2.n
    have := (run_declSize_n i1 (by decide) e2).2
    omega
  · show 0 < s3.2.n
    have t2 := prog_trace (zero := (0 : Int)) (fuel := 1) (k := 0)
      (.block (.seq (.cmd (.declSize 3)) (.cmd (.setElem 0 5 1)))) s1 (by omega) _ _ e2
    obtain ⟨_, _, _, a1, a2, _⟩ := t2
    have g2 := runAll_grown _ _ _ (Trace.quiet (by simp) a1 a2)
    obtain ⟨_, _, _, b1, b2, _⟩ := prog_trace (zero := (0 : Int)) (fuel := 1) (k := 0) (.block (.cmd (.declSize 4))) s2 (by omega) _ _ e3
    have g3 := runAll_grown _ _ _ (Trace.quiet (by simp) b1 b2)
    omega

/-- The theorems applied: the assignment throws, the handler runs, and only the memory of `x` is left. -/
example : ∃ s', sampleTry.run 0 1 ([], start) = some (.ok (), s') ∧ Reach 0 s'.2 ∧
    (s'.2.st (0, false)).iterate s'.2.heap = .ok [0, 7] ∧
    (List.range s'.2.heap.next).map (fun b => (s'.2.heap.blk b).live) = [true, false, false] := by
  have h : (sampleTry.run 0 1 ([], start)).map (fun z => (z.1, (z.2.2.st (0, false)).iterate z.2.2.heap,
      (List.range z.2.2.heap.next).map (fun b => (z.2.2.heap.blk b).live)))
      = some (.ok (), .ok [0, 7], [true, false, false]) := by decide +kernel
  match e : sampleTry.run 0 1 ([], start) with
  | none => rw [e] at h; cases h
  | some (o, s') =>
    rw [e] at h
    have h1 : o = .ok () := congrArg Prod.fst (Option.some.inj h)
    subst h1
    refine ⟨s', rfl, ?_, congrArg (fun z => z.2.1) (Option.some.inj h), congrArg (fun z => z.2.2) (Option.some.inj h)⟩
    exact C91_reach_partial 0 1 sampleTry ([], start) s' (.ok ()) ⟨[], trivial, rfl⟩ sampleTry_permits e (by simp)

/-- The condition on loops over a vector is needed: a body that extends the vector lets the loop read released memory. -/
theorem C91_false : (appendSelf.run 0 1 ([], start)).map Prod.fst = some (.ub .useAfterFree) :=
  C77_false.2

theorem sampleTry_run : ∃ s', sampleTry.run 0 1 ([], start) = some (.ok (), s') := by
  have h : (sampleTry.run 0 1 ([], start)).map Prod.fst = some (.ok ()) := by decide +kernel
  match e : sampleTry.run 0 1 ([], start) with
  | none => rw [e] at h; cases h
  | some (o, s') =>
    rw [e] at h
    have h1 : o = .ok () := Option.some.inj h
    exact ⟨s', by rw [h1]⟩

/-- `C91_trace` applied: the final memory is that of a list of the operations written in the program. -/
example : ∃ s' cs, sampleTry.run 0 1 ([], start) = some (.ok (), s') ∧ (runAll 0 cs start).2 = s'.2 := by
  obtain ⟨s', e⟩ := sampleTry_run
  obtain ⟨cs, _, h, _⟩ := C91_trace 0 1 sampleTry _ _ _ e
  exact ⟨s', cs, e, h⟩

/-- `C91_no_leak_partial` applied: the program ends without a leak. -/
example : ∃ s' t, sampleTry.run 0 1 ([], start) = some (.ok (), s') ∧ runAll 0 s'.2.destroyAll s'.2 = (none, t) ∧ NoLeak t := by
  obtain ⟨s', e⟩ := sampleTry_run
  obtain ⟨t, h1, h2⟩ := C91_no_leak_partial 0 1 sampleTry _ _ _ ⟨[], trivial, rfl⟩ sampleTry_permits e (by simp)
  exact ⟨s', t, e, h1, h2⟩

/-- `C91_stops` applied: `{ x = vector(2); x[5] = 1; }` stops at the write. -/
example : ∃ m s' cs ds, (Prog.block (.seq (.cmd (.declSize 2)) (.cmd (.setElem 0 5 1)))).run (0 : Int) 1 ([], start) = some (.thr m, s') ∧
    (∀ c ∈ ds, ∃ y, c = Cmd.destroy y) ∧ (runAll (0 : Int) (cs ++ ds) start).2 = s'.2 := by
  have h : ((Prog.block (.seq (.cmd (.declSize 2)) (.cmd (.setElem 0 5 1)))).run (0 : Int) 1 ([], start)).map Prod.fst =
      some (.thr "Error: out of boundaries --> value beyond size of vector") := by decide +kernel
  match e : (Prog.block (.seq (.cmd (.declSize 2)) (.cmd (.setElem 0 5 1)))).run (0 : Int) 1 ([], start) with
  | none => rw [e] at h; cases h
  | some (o, s') =>
    rw [e] at h
    have h1 : o = _ := Option.some.inj h
    subst h1
    obtain ⟨cs, ds, _, h2, _, h3, _⟩ := C91_stops (0 : Int) 1 (.block (.seq (.cmd (.declSize 2)) (.cmd (.setElem 0 5 1)))) ⟨trivial, trivial⟩ _ _ _ e
    exact ⟨_, s', cs, ds, rfl, h2, h3⟩

/-- `C91_no_memory_error_partial` applied: with an empty operand the remainder by zero is undefined, but no memory error. -/
example : ∃ u s', (Prog.cmd (.assign .ok 0 (.bin (fun a b => .ok (a + b)) (.leaf 0) (.leaf 1)))).run (0 : Int) 1
      ([], (runAll 0 [.declSize 2, .declDefault] start).2) = some (.ub u, s') ∧ u.memory = false := by
  have h : ((Prog.cmd (.assign .ok 0 (.bin (fun a b => .ok (a + b)) (.leaf 0) (.leaf 1)))).run (0 : Int) 1
      ([], (runAll 0 [.declSize 2, .declDefault] start).2)).map Prod.fst = some (.ub .modZero) := by decide +kernel
  match e : (Prog.cmd (.assign .ok 0 (.bin (fun a b => .ok (a + b)) (.leaf 0) (.leaf 1)))).run (0 : Int) 1
      ([], (runAll 0 [.declSize 2, .declDefault] start).2) with
  | none => rw [e] at h; cases h
  | some (o, s') =>
    rw [e] at h
    have h1 : o = _ := Option.some.inj h
    subst h1
    refine ⟨_, s', rfl, C91_no_memory_error_partial (0 : Int) 1 _ _ _ _
      ⟨[.declSize 2, .declDefault], .cons (by show _ ≤ _; decide) (.cons trivial trivial), Prod.ext (by decide +kernel) rfl⟩ ?_ e⟩
    exact ⟨by decide +kernel, fun v => Out.NoMem.ok v, ⟨fun _ _ => Out.NoMem.ok _, trivial, trivial⟩, by decide +kernel⟩

end ETR
