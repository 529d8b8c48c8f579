import Verif.Spec.Control
import Verif.Lemmas.Fails
import Verif.Props.Program
import Verif.Props.Frame
import Verif.Props.Helper
import Verif.Props.AllocSeq

/-! # Lemmas about programs with control flow -/

namespace ETR
open Spec Mach
variable {V : Type}

/-- A declaration makes a new variable. -/
theorem step_next {zero : V} {p p' : PState V} {c : Cmd V} (h : Spec.step zero p c = some p') (hd : c.isDecl = true) : p.next < p'.next := by
  unfold Spec.step at h
  cases h1 : Spec.stepOwn zero p c with
  | some q =>
    rw [h1] at h
    simp only [Option.some.injEq] at h
    subst h
    cases c <;> simp only [Cmd.isDecl, Bool.false_eq_true] at hd <;> simp only [Spec.stepOwn, Option.bind_eq_bind, Option.bind_eq_some_iff, Option.pure_def, Option.some.injEq, reduceCtorEq,
      Option.ite_none_right_eq_some, PState.new] at h1 <;> grind
  | none =>
    rw [h1] at h
    simp only at h
    cases c with
    | declBorrow q n =>
      cases q with
      | none => simp [Spec.stepBor] at h
      | some a =>
        simp only [Spec.stepBor, Option.bind_eq_bind, Option.bind_eq_some_iff, Option.ite_none_right_eq_some, Option.some.injEq] at h
        obtain ⟨l, _, _, rfl⟩ := h
        simp [PState.newBor]
    | declPtr q n =>
      cases q with
      | none => simp [Spec.stepBor] at h
      | some a =>
        simp only [Spec.stepBor, Option.bind_eq_bind, Option.bind_eq_some_iff, Option.ite_none_right_eq_some, Option.pure_def, Option.some.injEq] at h
        obtain ⟨l, _, _, l', _, rfl⟩ := h
        simp [PState.new]
    | declCopy y =>
      simp only [Spec.stepBor, Option.bind_eq_bind, Option.bind_eq_some_iff, Option.pure_def, Option.some.injEq] at h
      obtain ⟨β, _, rfl⟩ := h
      simp [PState.newBor]
    | _ =>
      first
      | (simp [Cmd.isDecl] at hd; done)
      | (simp [Spec.stepBor] at h; done)

/-- A step of the naive semantics changes the target only. -/
theorem step_vars {zero : V} {p p' : PState V} {c : Cmd V} (h : Spec.step zero p c = some p') {y : Nat}
    (hy : y < p.next) (ht : c.target ≠ some y) : p'.vars y = p.vars y ∧ p'.bors y = p.bors y := by
  have new : ∀ (k : Nat) (v : Var V), (p.new k v).vars y = p.vars y ∧ (p.new k v).bors y = p.bors y := by
    intro k v
    simp only [PState.new]
    rw [if_neg (by omega)]
    simp
  have newB : ∀ β, (p.newBor β).vars y = p.vars y ∧ (p.newBor β).bors y = p.bors y := by
    intro β
    simp only [PState.newBor]
    rw [if_neg (by omega)]
    simp
  have put : ∀ (x : Nat) (v : Option (Var V)), x ≠ y → (p.put x v).vars y = p.vars y ∧ (p.put x v).bors y = p.bors y := by
    intro x v hx
    simp only [PState.put]
    rw [if_neg (by omega)]
    simp
  have write : ∀ (x : Nat) (β : Bor) (a l : List V), x ≠ y → (p.write x β a l).vars y = p.vars y ∧ (p.write x β a l).bors y = p.bors y := by
    intro x β a l hx
    simp only [PState.write]
    rw [if_neg (by omega)]
    simp
  unfold Spec.step at h
  cases h1 : Spec.stepOwn zero p c with
  | some q =>
    rw [h1] at h
    simp only [Option.some.injEq] at h
    subst h
    clear newB write
    cases c <;> simp only [Spec.stepOwn, Option.bind_eq_bind, Option.bind_eq_some_iff, Option.pure_def, Option.some.injEq, reduceCtorEq,
      Option.ite_none_right_eq_some] at h1 <;>
      (simp only [Cmd.target, ne_eq, Option.some.injEq] at ht) <;> grind
  | none =>
    rw [h1] at h
    simp only at h
    cases c with
    | declBorrow q n =>
      cases q with
      | none => simp [Spec.stepBor] at h
      | some a =>
        simp only [Spec.stepBor, Option.bind_eq_bind, Option.bind_eq_some_iff, Option.ite_none_right_eq_some, Option.some.injEq] at h
        obtain ⟨l, _, _, rfl⟩ := h
        exact newB _
    | declPtr q n =>
      cases q with
      | none => simp [Spec.stepBor] at h
      | some a =>
        simp only [Spec.stepBor, Option.bind_eq_bind, Option.bind_eq_some_iff, Option.ite_none_right_eq_some, Option.pure_def,
          Option.some.injEq] at h
        obtain ⟨l, _, _, l', _, rfl⟩ := h
        exact new _ _
    | fillVec x z =>
      simp only [Cmd.target, ne_eq, Option.some.injEq] at ht
      simp only [Spec.stepBor, Option.bind_eq_bind, Option.bind_eq_some_iff] at h
      obtain ⟨u, _, h⟩ := h
      split at h
      · simp only [Option.ite_none_right_eq_some, Option.some.injEq] at h
        obtain ⟨_, rfl⟩ := h
        exact put _ _ ht
      · simp only [Option.bind_eq_some_iff, Option.ite_none_right_eq_some, Option.pure_def, Option.some.injEq] at h
        obtain ⟨r, _, _, rfl⟩ := h
        exact write _ _ _ _ ht
    | destroy x =>
      simp only [Cmd.target, ne_eq, Option.some.injEq] at ht
      simp only [Spec.stepBor, Option.bind_eq_bind, Option.bind_eq_some_iff, Option.pure_def, Option.some.injEq] at h
      obtain ⟨_, _, rfl⟩ := h
      exact ⟨rfl, by simp only; rw [if_neg (fun hh => ht hh.symm)]⟩
    | subAssign conv same x ind e =>
      simp only [Cmd.target, ne_eq, Option.some.injEq] at ht
      simp only [Spec.stepBor, Option.bind_eq_bind, Option.bind_eq_some_iff, Option.pure_def, Option.ite_none_right_eq_some,
        Option.some.injEq] at h
      obtain ⟨r, _, _, _, L, _, _, _, _, w, _, rfl⟩ := h
      exact write x r.1 r.2 w ht
    | _ =>
      simp only [Spec.stepBor, Option.bind_eq_bind, Option.bind_eq_some_iff, Option.pure_def, Option.some.injEq, reduceCtorEq,
        Option.ite_none_right_eq_some] at h
      try simp only [Cmd.target, ne_eq, Option.some.injEq] at ht
      try grind

/-- A step of the naive semantics is an allowed operation. -/
theorem Mach.Rep.allowedOwn {zero : V} {s : Mach V} {p p' : PState V} (R : Rep s p) {c : Cmd V} (h : Spec.stepOwn zero p c = some p')
    (hv : ValueOnly c) : s.Allowed c := by
  have hlt : ∀ x v, p.vars x = some v → x < s.n := fun x v hx => (R.vars x v hx).lt
  cases c with
  | callerArray l => trivial
  | declDefault => trivial
  | declSize n =>
    simp only [Spec.stepOwn, Option.bind_eq_bind, Option.bind_eq_some_iff, Option.pure_def, Option.some.injEq] at h
    obtain ⟨l, hl, rfl⟩ := h
    obtain ⟨rfl, h1, h2⟩ := lim_eq hl
    simp only [List.length_replicate] at h2
    exact h2
  | declScalar v => trivial
  | declMat r c =>
    simp only [Spec.stepOwn, Option.bind_eq_bind, Option.bind_eq_some_iff, Option.pure_def, Option.some.injEq] at h
    obtain ⟨l, hl, rfl⟩ := h
    obtain ⟨rfl, h1, h2⟩ := lim_eq hl
    simp only [List.length_replicate] at h2
    exact h2
  | declMatVal r c v =>
    simp only [Spec.stepOwn, Option.bind_eq_bind, Option.bind_eq_some_iff, Option.pure_def, Option.some.injEq] at h
    obtain ⟨l, hl, rfl⟩ := h
    obtain ⟨rfl, h1, h2⟩ := lim_eq hl
    simp only [List.length_replicate] at h2
    exact h2
  | declCopy y =>
    simp only [Spec.stepOwn, Option.bind_eq_bind, Option.bind_eq_some_iff] at h
    obtain ⟨v, hv, h⟩ := h
    split at h
    · rename_i hk
      refine ⟨hlt y v hv, fun _ => ?_⟩
      have := (R.vars y v hv).kind
      rw [hk] at this
      exact this.2.1
    · simp at h
  | declExpr conv e =>
    simp only [Spec.stepOwn, Option.bind_eq_bind, Option.bind_eq_some_iff, Option.pure_def, Option.some.injEq] at h
    obtain ⟨l, h1, L, h2, L', h3, rfl⟩ := h
    obtain ⟨rfl, h4, h5⟩ := lim_eq h3
    refine ⟨hv.1, hv.2, ?_⟩
    rw [(conv_el R.agrees h1 h2).1]
    exact h5
  | declTemp l mp =>
    simp only [Spec.stepOwn, Option.bind_eq_bind, Option.bind_eq_some_iff, Option.pure_def, Option.some.injEq] at h
    obtain ⟨L, h3, rfl⟩ := h
    exact (lim_eq h3).2.2
  | declPtr q n => simp [Spec.stepOwn] at h
  | declBorrow q n => simp [Spec.stepOwn] at h
  | assign conv x e =>
    simp only [Spec.stepOwn, Option.bind_eq_bind, Option.bind_eq_some_iff, Option.pure_def, Option.some.injEq] at h
    obtain ⟨v, hx, l, h1, L, h2, L', h3, k, hk, rfl⟩ := h
    obtain ⟨rfl, h4, h5⟩ := lim_eq h3
    refine ⟨hlt x v hx, hv.1, hv.2, ?_⟩
    rw [(conv_el R.agrees h1 h2).1]
    exact h5
  | assignScalar x v =>
    simp only [Spec.stepOwn, Option.bind_eq_bind, Option.bind_eq_some_iff, Option.pure_def, Option.some.injEq] at h
    obtain ⟨w, hx, rfl⟩ := h
    exact hlt x w hx
  | subAssign conv same x ind e =>
    simp only [Spec.stepOwn, Option.bind_eq_bind, Option.bind_eq_some_iff, Option.pure_def] at h
    obtain ⟨w, hx, l, h1, L, h2, L', h3, h⟩ := h
    obtain ⟨rfl, h4, h5⟩ := lim_eq h3
    split at h
    · rename_i hc
      exact ⟨hlt x w hx, hv.1, hv.2, by omega⟩
    · simp at h
  | subAssignScalar x ind v =>
    simp only [Spec.stepOwn, Option.bind_eq_bind, Option.bind_eq_some_iff, Option.pure_def] at h
    obtain ⟨w, hx, h⟩ := h
    exact hlt x w hx
  | setElem x i v =>
    simp only [Spec.stepOwn, Option.bind_eq_bind, Option.bind_eq_some_iff, Option.pure_def] at h
    obtain ⟨w, hx, h⟩ := h
    exact hlt x w hx
  | resize x n =>
    simp only [Spec.stepOwn, Option.bind_eq_bind, Option.bind_eq_some_iff, Option.pure_def] at h
    obtain ⟨w, hx, h⟩ := h
    split at h
    · rename_i hc
      have L := R.vars x w hx
      have h1 := L.shows.1
      have h2 := (R.inv.d x L.bor).sz
      exact ⟨L.lt, by omega⟩
    · simp at h
  | fill x v =>
    simp only [Spec.stepOwn, Option.bind_eq_bind, Option.bind_eq_some_iff, Option.pure_def, Option.some.injEq] at h
    obtain ⟨w, hx, rfl⟩ := h
    exact hlt x w hx
  | fillVec x y =>
    simp only [Spec.stepOwn, Option.bind_eq_bind, Option.bind_eq_some_iff, Option.pure_def] at h
    obtain ⟨w, hx, u, hu, h⟩ := h
    split at h
    · exact hlt x w hx
    · simp at h
  | pushBack x v =>
    simp only [Spec.stepOwn, Option.bind_eq_bind, Option.bind_eq_some_iff, Option.pure_def] at h
    obtain ⟨w, hx, h⟩ := h
    split at h
    · rename_i hc
      have L := R.vars x w hx
      exact ⟨L.lt, L.bor, by rw [L.shows.1]; exact hc.2⟩
    · simp at h
  | storeAssign x y => simp [Spec.stepOwn] at h
  | destroy x =>
    simp only [Spec.stepOwn, Option.bind_eq_bind, Option.bind_eq_some_iff, Option.pure_def, Option.some.injEq] at h
    obtain ⟨w, hx, rfl⟩ := h
    exact hlt x w hx

/-- So is a step on a variable that borrows, except for `resize` (no size limit) and `fill` (from the same array). -/
theorem Mach.Rep.allowedBor {s : Mach V} {p p' : PState V} (R : Rep s p) {c : Cmd V} (h : Spec.stepBor p c = some p')
    (hv : ValueOnly c) : s.Allowed c ∨ (∃ x n, c = .resize x n) ∨ ∃ x y, c = .fillVec x y := by
  have hlt : ∀ {x : Nat} {r : Bor × List V}, p.view x = some r → x < s.n := fun hx =>
    (R.liveB (PState.view_eq hx).1 (PState.view_eq hx).2).1.lt
  cases c with
  | declBorrow q n =>
    cases q with
    | none => simp [Spec.stepBor] at h
    | some a =>
      simp only [Spec.stepBor, Option.bind_eq_bind, Option.bind_eq_some_iff, Option.ite_none_right_eq_some, Option.some.injEq] at h
      obtain ⟨l, hl, ⟨h1, h2⟩, rfl⟩ := h
      obtain ⟨k1, k2⟩ := R.b.arrays a l hl
      refine Or.inl ⟨h1, ⟨a, rfl, k1, by rw [k2]; rfl, by rw [k2]; exact h2⟩, fun b hb => ?_⟩
      cases hb
      rw [k2]; rfl
  | declPtr q n =>
    cases q with
    | none => simp [Spec.stepBor] at h
    | some a =>
      simp only [Spec.stepBor, Option.bind_eq_bind, Option.bind_eq_some_iff, Option.ite_none_right_eq_some, Option.pure_def,
        Option.some.injEq] at h
      obtain ⟨l, hl, h1, l', hl', rfl⟩ := h
      obtain ⟨k1, k2⟩ := R.b.arrays a l hl
      have := (lim_eq hl').2.2
      rw [List.length_take] at this
      exact Or.inl ⟨by omega, a, rfl, k1, by rw [k2]; rfl, by rw [k2]; exact h1⟩
  | declCopy y =>
    simp only [Spec.stepBor, Option.bind_eq_bind, Option.bind_eq_some_iff, Option.pure_def, Option.some.injEq] at h
    obtain ⟨β, hβ, rfl⟩ := h
    obtain ⟨a, _, K⟩ := R.b.bors y β hβ
    exact Or.inl ⟨K.lt, fun hb => by rw [K.bor] at hb; simp at hb⟩
  | assign conv x e =>
    simp only [Spec.stepBor, Option.bind_eq_bind, Option.bind_eq_some_iff, Option.pure_def, Option.ite_none_right_eq_some,
      Option.some.injEq] at h
    obtain ⟨r, hr, l, h1, L, h2, L', h3, _, rfl⟩ := h
    obtain ⟨rfl, h4, h5⟩ := lim_eq h3
    refine Or.inl ⟨hlt hr, hv.1, hv.2, ?_⟩
    rw [(conv_el R.agrees h1 h2).1]
    exact h5
  | assignScalar x v =>
    simp only [Spec.stepBor, Option.bind_eq_bind, Option.bind_eq_some_iff, Option.pure_def, Option.some.injEq] at h
    obtain ⟨r, hr, rfl⟩ := h
    exact Or.inl (hlt hr)
  | subAssign conv same x ind e =>
    simp only [Spec.stepBor, Option.bind_eq_bind, Option.bind_eq_some_iff, Option.pure_def, Option.ite_none_right_eq_some,
      Option.some.injEq] at h
    obtain ⟨r, hr, l, h1, L, h2, L', h3, ⟨hc, _⟩, _⟩ := h
    obtain ⟨rfl, h4, h5⟩ := lim_eq h3
    exact Or.inl ⟨hlt hr, hv.1, hv.2, by omega⟩
  | subAssignScalar x ind v =>
    simp only [Spec.stepBor, Option.bind_eq_bind, Option.bind_eq_some_iff] at h
    obtain ⟨r, hr, _⟩ := h
    exact Or.inl (hlt hr)
  | setElem x i v =>
    simp only [Spec.stepBor, Option.bind_eq_bind, Option.bind_eq_some_iff] at h
    obtain ⟨r, hr, _⟩ := h
    exact Or.inl (hlt hr)
  | resize x n => exact Or.inr (Or.inl ⟨x, n, rfl⟩)
  | fill x v =>
    simp only [Spec.stepBor, Option.bind_eq_bind, Option.bind_eq_some_iff] at h
    obtain ⟨r, hr, _⟩ := h
    exact Or.inl (hlt hr)
  | fillVec x y => exact Or.inr (Or.inr ⟨x, y, rfl⟩)
  | destroy x =>
    simp only [Spec.stepBor, Option.bind_eq_bind, Option.bind_eq_some_iff] at h
    obtain ⟨β, hβ, _⟩ := h
    obtain ⟨a, _, K⟩ := R.b.bors x β hβ
    exact Or.inl K.lt
  | _ => simp [Spec.stepBor] at h

/-- A step leaves the data of an owning variable that is not the target where it is. -/
theorem Mach.Rep.step_st {zero : V} {s s' : Mach V} {p p' : PState V} (R : Rep s p) {c : Cmd V} (h : Spec.step zero p c = some p')
    (hv : ValueOnly c) (e : Mach.exec zero c s = (.ok (), s')) {y : Nat} {v : Var V} (hy : p.vars y = some v) (hne : v.val ≠ [])
    (ht : c.target ≠ some y) : s'.st (y, false) = s.st (y, false) := by
  have L := R.vars y v hy
  have hp : ∃ b, (s.st (y, false)).p = some b := by
    cases hq : (s.st (y, false)).p with
    | some b => exact ⟨b, rfl⟩
    | none =>
      have := (R.inv.d y L.bor).wf.null hq
      rw [L.shows.1] at this
      exact absurd (List.length_eq_zero_iff.mp this.1) hne
  obtain ⟨b, hb⟩ := hp
  have hal : s.Allowed c ∨ (∃ x n, c = .resize x n) ∨ ∃ x y, c = .fillVec x y := by
    unfold Spec.step at h
    cases h1 : Spec.stepOwn zero p c with
    | some q => exact Or.inl (Mach.Rep.allowedOwn R h1 hv)
    | none => rw [h1] at h; exact Mach.Rep.allowedBor R h hv
  have slot : ∀ (x : Nat) (m : SM V Unit), x ≠ y → onSlot (x, false) m s = (.ok (), s') → s'.st (y, false) = s.st (y, false) := by
    intro x m hx he
    rw [onSlot_apply] at he
    simp only [Prod.mk.injEq] at he
    rw [← he.2, put_ne _ _ (by simpa using fun h => hx h.symm)]
  rcases hal with ha | ⟨x, n, rfl⟩ | ⟨x, z, rfl⟩
  · exact (exec_same R.inv ha L.lt L.bor hb ht e (by simp)).1
  · simp only [Cmd.target, ne_eq, Option.some.injEq] at ht
    have e : Mach.resize zero x n s = (.ok (), s') := e
    unfold Mach.resize at e
    rw [M.bind_ok (M.get_apply _)] at e
    split at e
    · exact slot x _ ht e
    · exact slot x _ ht e
  · simp only [Cmd.target, ne_eq, Option.some.injEq] at ht
    have e : Mach.fillVec x z s = (.ok (), s') := e
    unfold Mach.fillVec at e
    rw [M.bind_ok (M.get_apply _)] at e
    exact slot x _ ht e

/-- The variables in `Y` have kept value and memory; those that borrow have kept array and size. -/
def KeepsVars (Y : Nat → Prop) (s : Mach V) (p : PState V) (s' : Mach V) (p' : PState V) : Prop :=
  ∀ y, Y y → (∀ v, p.vars y = some v → v.val ≠ [] → p'.vars y = some v ∧ s'.st (y, false) = s.st (y, false)) ∧
    ∀ β, p.bors y = some β → p'.bors y = some β

theorem KeepsVars.refl (Y : Nat → Prop) (s : Mach V) (p : PState V) : KeepsVars Y s p s p := fun _ _ => ⟨fun _ h _ => ⟨h, rfl⟩, fun _ h => h⟩

theorem KeepsVars.trans {Y : Nat → Prop} {s1 s2 s3 : Mach V} {p1 p2 p3 : PState V} (h : KeepsVars Y s1 p1 s2 p2)
    (h' : KeepsVars Y s2 p2 s3 p3) : KeepsVars Y s1 p1 s3 p3 := by
  intro y hy
  refine ⟨fun v hv hne => ?_, fun β hβ => (h' y hy).2 β ((h y hy).2 β hβ)⟩
  obtain ⟨a1, a2⟩ := (h y hy).1 v hv hne
  obtain ⟨b1, b2⟩ := (h' y hy).1 v a1 hne
  exact ⟨b1, b2.trans a2⟩

/-- The result `o` of the library agrees with the result `r` of naive semantics. -/
def Sim (Y : Nat → Prop) (s : Mach V) (p : PState V) : Res V → Option (Out Unit × Prog.St V) → Prop
  | .done p', o => ∃ ws' s', o = some (.ok (), (ws', s')) ∧ Rep s' p' ∧ KeepsVars Y s p s' p'
  | .threw m p', o => ∃ ws' s', o = some (.thr m, (ws', s')) ∧ Rep s' p' ∧ KeepsVars Y s p s' p'
  | .more, o => o = none
  | .stuck, _ => True

theorem Sim.mono {Y Y' : Nat → Prop} (hY : ∀ y, Y' y → Y y) {s : Mach V} {p : PState V} {r : Res V}
    {o : Option (Out Unit × Prog.St V)} (h : Sim Y s p r o) : Sim Y' s p r o := by
  cases r with
  | done p' =>
    obtain ⟨ws', s', e, R, K⟩ := h
    exact ⟨ws', s', e, R, fun y hy => K y (hY y hy)⟩
  | threw m p' =>
    obtain ⟨ws', s', e, R, K⟩ := h
    exact ⟨ws', s', e, R, fun y hy => K y (hY y hy)⟩
  | more => exact h
  | stuck => trivial

/-- A variable that does not exist at the beginning cannot change. -/
theorem Sim.extend {Y Y' : Nat → Prop} {s : Mach V} {p : PState V} {r : Res V} {o : Option (Out Unit × Prog.St V)}
    (hY : ∀ y, Y' y → Y y ∨ (p.vars y = none ∧ p.bors y = none)) (h : Sim Y s p r o) : Sim Y' s p r o := by
  have key : ∀ {s' : Mach V} {p' : PState V}, KeepsVars Y s p s' p' → KeepsVars Y' s p s' p' := by
    intro s' p' K y hy
    rcases hY y hy with h | ⟨h1, h2⟩
    · exact K y h
    · exact ⟨fun v hv => by rw [h1] at hv; (cases hv), fun β hβ => by rw [h2] at hβ; (cases hβ)⟩
  cases r with
  | done p' =>
    obtain ⟨ws', s', e, R, K⟩ := h
    exact ⟨ws', s', e, R, key K⟩
  | threw m p' =>
    obtain ⟨ws', s', e, R, K⟩ := h
    exact ⟨ws', s', e, R, key K⟩
  | more => exact h
  | stuck => trivial

theorem Sim.before {Y : Nat → Prop} {s0 s : Mach V} {p0 p : PState V} (K : KeepsVars Y s0 p0 s p) {r : Res V}
    {o : Option (Out Unit × Prog.St V)} (h : Sim Y s p r o) : Sim Y s0 p0 r o := by
  cases r with
  | done p' =>
    obtain ⟨ws', s', e, R, K'⟩ := h
    exact ⟨ws', s', e, R, K.trans K'⟩
  | threw m p' =>
    obtain ⟨ws', s', e, R, K'⟩ := h
    exact ⟨ws', s', e, R, K.trans K'⟩
  | more => exact h
  | stuck => trivial

theorem Sim.andThen {Y : Nat → Prop} {s : Mach V} {p : PState V} {r : Res V} {o : Option (Out Unit × Prog.St V)}
    (h : Sim Y s p r o) {k : PState V → Res V} {k' : Prog.St V → Option (Out Unit × Prog.St V)}
    (hk : ∀ p' ws' s', Rep s' p' → KeepsVars Y s p s' p' → Sim Y s' p' (k p') (k' (ws', s'))) :
    Sim Y s p (r.andThen k) (Prog.andThen o k') := by
  cases r with
  | done p' =>
    obtain ⟨ws', s', rfl, R, K⟩ := h
    exact (hk p' ws' s' R K).before K
  | threw m p' =>
    obtain ⟨ws', s', rfl, R, K⟩ := h
    exact ⟨ws', s', rfl, R, K⟩
  | more =>
    have h : o = none := h
    subst h
    rfl
  | stuck => trivial

/-- The first element of an expression that denotes a list. -/
theorem first_eval {p : PState V} {e : Expr V} {v : V} {l : List V} (h : eval p.lists e = some (v :: l)) : Spec.first p e = some v := by
  unfold Spec.first
  rw [cells_eval e h]
  rfl

/-- The first element. -/
theorem Mach.Rep.first {s : Mach V} {p : PState V} (R : Rep s p) {e : Expr V} {v : V} (h : Spec.first p e = some v) (bool : Bool)
    (ws : List String) : ∃ ws', toScalar bool s.env e ws = (.ok v, ws') := by
  simp only [Spec.first, Option.bind_eq_bind, Option.bind_eq_some_iff] at h
  obtain ⟨C, hC, c, hc, hv⟩ := h
  obtain ⟨h1, h2, h3⟩ := cells_sound R.agreesX e hC
  have h0 := List.length_pos_of_ne_nil h1
  have he : e.el s.env 0 = .ok v := by
    rw [h3 0 h0, ← val_eq_some.mp hv]
    rw [List.head?_eq_getElem?, List.getElem?_eq_getElem h0, Option.some.injEq] at hc
    exact hc
  unfold toScalar
  rw [he]
  cases bool with
  | false => exact ⟨ws, rfl⟩
  | true =>
    rw [if_pos rfl]
    obtain ⟨ws', hw⟩ := warn_ok (decide (e.size s.env = 1)) ifMsg ws
    exact ⟨ws', by rw [M.bind_ok hw]; rfl⟩

theorem dblSeq_eq {a b : F64} {l : List F64} (h : dblSeq a b = some l) : ∃ m n : Int, a = .fin m ∧ b = .fin n ∧
    -2 ^ 29 ≤ m ∧ m ≤ 2 ^ 29 ∧ -2 ^ 29 ≤ n ∧ n ≤ 2 ^ 29 ∧ l = (intSeq m n).map (fun (k : Int) => .fin k) := by
  cases a with
  | fin x =>
    cases b with
    | fin y =>
      simp only [dblSeq, Option.ite_none_right_eq_some, Option.some.injEq] at h
      obtain ⟨⟨h1, h2, h3, h4, h5, h6⟩, rfl⟩ := h
      have hx : ((x.num : Int) : ℚ) = x := Rat.coe_int_num_of_den_eq_one h1
      have hy : ((y.num : Int) : ℚ) = y := Rat.coe_int_num_of_den_eq_one h2
      refine ⟨x.num, y.num, by rw [hx], by rw [hy], ?_, ?_, ?_, ?_, rfl⟩
      · rw [← hx] at h3; exact_mod_cast h3
      · rw [← hx] at h4; exact_mod_cast h4
      · rw [← hy] at h5; exact_mod_cast h5
      · rw [← hy] at h6; exact_mod_cast h6
    | _ => simp [dblSeq] at h
  | _ => simp [dblSeq] at h

theorem range_returns {W : Type} {m : AM W Unit} {l : List W} {s : Prog.St V} {ws' : List String}
    (h : Returns m Heap.empty s.1 ws' l {}) : Prog.range m s = (.ok l, (ws', s.2)) := by
  obtain ⟨h', d, e, sh, _⟩ := h
  unfold Prog.range
  rw [e]
  simp only
  rw [C69_vector_partial sh]

/-- The loop over the integers. -/
theorem range_int {a b : Int} (h : -2 ^ 29 ≤ a ∧ a ≤ 2 ^ 29 ∧ -2 ^ 29 ≤ b ∧ b ≤ 2 ^ 29) (s : Prog.St V) :
    ∃ ws', Prog.range (colonI a b) s = (.ok (intSeq a b), (ws', s.2)) := by
  refine ⟨_, range_returns (C48_partial ?_ ?_ ?_ rfl s.1)⟩
  · unfold InI32; omega
  · unfold InI32; omega
  · unfold ColonFits
    refine ⟨?_, ?_, ?_⟩
    · rcases abs_cases (b - a) with ⟨e, _⟩ | ⟨e, _⟩ <;> omega
    all_goals intros; omega

/-- The loop over doubles. -/
theorem range_dbl {a b : F64} {l : List F64} (h : dblSeq a b = some l) (s : Prog.St V) :
    ∃ ws', Prog.range (colonD a b) s = (.ok l, (ws', s.2)) := by
  obtain ⟨m, n, rfl, rfl, h1, h2, h3, h4, rfl⟩ := dblSeq_eq h
  have hm : |m| ≤ 2 ^ 29 := by rw [abs_le]; omega
  have hn : |n| ≤ 2 ^ 29 := by rw [abs_le]; omega
  have hd : |n - m| ≤ 2 ^ 30 := by rw [abs_le]; omega
  have hc : |(n : ℚ) - m| = ((|n - m| : Int) : ℚ) := by push_cast; rfl
  obtain ⟨ws', l, hr, hl, he, _⟩ := C49_partial (m := m) (n := n) (p := 0) (by norm_num) (by norm_num; omega) (by norm_num; omega)
    (by norm_num; omega) (a := m) (b := n) (by simp) (by simp)
    (by rw [hc]; have : ((|n - m| : Int) : ℚ) ≤ 2 ^ 30 := by exact_mod_cast hd
        linarith) (h := Heap.empty) rfl s.1
  have hl' : l = (intSeq m n).map (fun (k : Int) => .fin k) := by
    rw [hc, show ((|n - m| : Int) : ℚ) + 1 = ((|n - m| + 1 : Int) : ℚ) by push_cast; rfl, Int.floor_intCast] at hl
    have hlen : l.length = (intSeq m n).length := by
      rw [hl]
      unfold intSeq
      split
      · rw [List.length_map, List.length_range, abs_of_nonneg (by omega)]
      · rw [List.length_map, List.length_range, abs_of_neg (by omega)]
        congr 1
        ring
    apply List.ext_getElem
    · rw [List.length_map]; exact hlen
    · intro i i1 i2
      have := he i i1
      rw [List.getElem?_eq_getElem i1, Option.some.injEq] at this
      rw [this, List.getElem_map]
      unfold intSeq
      by_cases hmn : m ≤ n
      · rw [if_pos (by exact_mod_cast hmn)]
        simp [hmn]
      · rw [if_neg (by exact_mod_cast hmn)]
        simp [hmn]
  subst hl'
  exact ⟨ws', range_returns hr⟩

end ETR
