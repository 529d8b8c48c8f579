import Verif.Lemmas.MachAssign

/-! # Commands on variables that own their memory follow naive semantics -/

namespace ETR
namespace Mach
variable {V : Type}
open Store Spec

theorem Rep.start : Rep (start : Mach V) PState.empty :=
  ⟨Inv.start, rfl, fun x v h => by simp [PState.empty] at h, fun a l h => by simp [PState.empty] at h,
    fun x β h => by simp [PState.empty] at h⟩

theorem lim_eq {l L : List V} (h : lim l = some L) : L = l ∧ l ≠ [] ∧ l.length ≤ 2 ^ 30 := by
  unfold lim at h
  split at h
  · simp only [Option.some.injEq] at h
    exact ⟨h.symm, by assumption⟩
  · simp at h

theorem Rep.callerArray {s : Mach V} {p : PState V} (R : Rep s p) (l : List V) :
    Rep { s with heap := (s.heap.foreign l).1 } p := by
  have hblk : ∀ b, b < s.heap.next → (s.heap.foreign l).1.blk b = s.heap.blk b := by
    intro b hb
    simp [Heap.foreign, Heap.setBlk, show b ≠ s.heap.next by omega]
  refine ⟨R.inv.callerArray l, R.n, fun x v hv => ?_, R.b.keep (le_refl _) (by simp [Heap.foreign])
    (fun _ _ _ => ⟨rfl, rfl, rfl⟩) (fun b hb _ => hblk b hb)⟩
  have L := R.vars x v hv
  refine ⟨L.lt, L.bor, shows_frame (fun b hb => ?_) L.shows, L.kind⟩
  exact hblk b ((R.inv.d x L.bor).wf.ptr b hb).1

/-- One command of the library follows the naive semantics. -/
theorem Rep.stepOwn {zero : V} {s : Mach V} {p p' : PState V} (R : Rep s p) {c : Cmd V}
    (h : Spec.stepOwn zero p c = some p') :
    ∃ s', exec zero c s = (.ok (), s') ∧ Rep s' p' := by
  cases c with
  | callerArray l =>
    simp only [Spec.stepOwn, Option.some.injEq] at h
    subst h
    exact ⟨_, rfl, R.callerArray l⟩
  | declDefault =>
    simp only [Spec.stepOwn, Option.some.injEq] at h
    subst h
    exact ⟨s.bump, rfl, R.declDefault⟩
  | declSize n =>
    simp only [Spec.stepOwn, Option.bind_eq_bind, Option.bind_eq_some_iff, Option.pure_def,
      Option.some.injEq] at h
    obtain ⟨l, hl, rfl⟩ := h
    obtain ⟨rfl, h1, h2⟩ := lim_eq hl
    simp only [List.length_replicate] at h2
    have : 1 ≤ n := by
      rcases Nat.eq_zero_or_pos n with h0 | h0
      · subst h0; simp at h1
      · exact h0
    exact R.declSize this h2
  | declScalar v =>
    simp only [Spec.stepOwn, Option.some.injEq] at h
    subst h
    exact R.declScalar v
  | declMat r c =>
    simp only [Spec.stepOwn, Option.bind_eq_bind, Option.bind_eq_some_iff, Option.pure_def,
      Option.some.injEq] at h
    obtain ⟨l, hl, rfl⟩ := h
    obtain ⟨rfl, h1, h2⟩ := lim_eq hl
    simp only [List.length_replicate] at h2
    have : 1 ≤ r * c := by
      rcases Nat.eq_zero_or_pos (r * c) with h0 | h0
      · rw [h0] at h1; simp at h1
      · exact h0
    obtain ⟨s', e, R', _⟩ := R.declMat (zero := zero) this h2
    exact ⟨s', e, R'⟩
  | declMatVal r c v =>
    simp only [Spec.stepOwn, Option.bind_eq_bind, Option.bind_eq_some_iff, Option.pure_def,
      Option.some.injEq] at h
    obtain ⟨l, hl, rfl⟩ := h
    obtain ⟨rfl, h1, h2⟩ := lim_eq hl
    simp only [List.length_replicate] at h2
    have : 1 ≤ r * c := by
      rcases Nat.eq_zero_or_pos (r * c) with h0 | h0
      · rw [h0] at h1; simp at h1
      · exact h0
    obtain ⟨s', e, R', _⟩ := R.declMatVal (zero := zero) this h2 v
    exact ⟨s', e, R'⟩
  | declCopy y =>
    simp only [Spec.stepOwn, Option.bind_eq_bind, Option.bind_eq_some_iff] at h
    obtain ⟨v, hv, h⟩ := h
    split at h
    · simp only [Option.some.injEq] at h
      subst h
      exact R.declCopy hv (by assumption)
    · simp at h
  | declExpr conv e =>
    simp only [Spec.stepOwn, Option.bind_eq_bind, Option.bind_eq_some_iff, Option.pure_def,
      Option.some.injEq] at h
    obtain ⟨l, h1, L, h2, L', h3, rfl⟩ := h
    obtain ⟨rfl, h4, h5⟩ := lim_eq h3
    exact R.declExpr h1 h2 h4 h5
  | declTemp l mp =>
    simp only [Spec.stepOwn, Option.bind_eq_bind, Option.bind_eq_some_iff, Option.pure_def,
      Option.some.injEq] at h
    obtain ⟨L, h3, rfl⟩ := h
    obtain ⟨rfl, h4, h5⟩ := lim_eq h3
    obtain ⟨s', q1, q2, _⟩ := R.declTemp (zero := zero) (mp := mp) h4 h5
    exact ⟨s', q1, q2⟩
  | declPtr q n => simp [Spec.stepOwn] at h
  | declBorrow q n => simp [Spec.stepOwn] at h
  | assign conv x e =>
    simp only [Spec.stepOwn, Option.bind_eq_bind, Option.bind_eq_some_iff, Option.pure_def,
      Option.some.injEq] at h
    obtain ⟨v, hv, l, h1, L, h2, L', h3, k, hk, rfl⟩ := h
    obtain ⟨rfl, h4, h5⟩ := lim_eq h3
    obtain ⟨hsz, hel⟩ := conv_el R.agrees h1 h2
    exact R.assign hv hsz hel h4 h5 hk
  | assignScalar x v =>
    simp only [Spec.stepOwn, Option.bind_eq_bind, Option.bind_eq_some_iff, Option.pure_def,
      Option.some.injEq] at h
    obtain ⟨w, hv, rfl⟩ := h
    exact R.assignScalar hv v
  | subAssign conv same x ind e =>
    simp only [Spec.stepOwn, Option.bind_eq_bind, Option.bind_eq_some_iff, Option.pure_def] at h
    obtain ⟨w, hv, l, h1, L, h2, L', h3, h⟩ := h
    obtain ⟨rfl, h4, h5⟩ := lim_eq h3
    split at h
    · rename_i hc
      simp only [Option.bind_eq_some_iff, Option.some.injEq] at h
      obtain ⟨r, hr, rfl⟩ := h
      exact R.subAssign hv hc.2 h1 h2 h4 h5 hc.1 hr
    · simp at h
  | subAssignScalar x ind v =>
    simp only [Spec.stepOwn, Option.bind_eq_bind, Option.bind_eq_some_iff, Option.pure_def] at h
    obtain ⟨w, hv, h⟩ := h
    split at h
    · rename_i hc
      simp only [Option.bind_eq_some_iff, Option.some.injEq] at h
      obtain ⟨r, hr, rfl⟩ := h
      exact R.subAssignScalar hv hc hr
    · simp at h
  | setElem x i v =>
    simp only [Spec.stepOwn, Option.bind_eq_bind, Option.bind_eq_some_iff, Option.pure_def] at h
    obtain ⟨w, hv, h⟩ := h
    split at h
    · rename_i hc
      simp only [Option.some.injEq] at h
      subst h
      obtain ⟨h', e, R', _⟩ := R.setElem hv hc v
      exact ⟨_, e, R'⟩
    · simp at h
  | resize x n =>
    simp only [Spec.stepOwn, Option.bind_eq_bind, Option.bind_eq_some_iff, Option.pure_def] at h
    obtain ⟨w, hv, h⟩ := h
    split at h
    · rename_i hc
      simp only [Option.some.injEq] at h
      subst h
      exact R.shrink hv hc.1 hc.2.1 hc.2.2
    · simp at h
  | fill x v =>
    simp only [Spec.stepOwn, Option.bind_eq_bind, Option.bind_eq_some_iff, Option.pure_def,
      Option.some.injEq] at h
    obtain ⟨w, hv, rfl⟩ := h
    exact R.fill hv v
  | fillVec x y =>
    simp only [Spec.stepOwn, Option.bind_eq_bind, Option.bind_eq_some_iff, Option.pure_def] at h
    obtain ⟨w, hv, u, hu, h⟩ := h
    split at h
    · rename_i hc
      simp only [Option.some.injEq] at h
      subst h
      exact R.fillVec hv hu hc
    · simp at h
  | pushBack x v =>
    simp only [Spec.stepOwn, Option.bind_eq_bind, Option.bind_eq_some_iff, Option.pure_def] at h
    obtain ⟨w, hv, h⟩ := h
    split at h
    · rename_i hc
      simp only [Option.some.injEq] at h
      subst h
      exact R.pushBack hv hc.1 hc.2 v
    · simp at h
  | storeAssign x y => simp [Spec.stepOwn] at h
  | destroy x =>
    simp only [Spec.stepOwn, Option.bind_eq_bind, Option.bind_eq_some_iff, Option.pure_def,
      Option.some.injEq] at h
    obtain ⟨w, hv, rfl⟩ := h
    have L := R.vars x w hv
    exact R.destroy L.lt L.bor

theorem Live.showsVar {s : Mach V} {x : Nat} {v : Var V} (L : Live s x v) : ShowsVar s x v.val :=
  L.shows

end Mach
end ETR
