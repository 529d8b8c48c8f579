import Verif.Lemmas.ControlSafe
import Verif.Lemmas.ProgBor
import Verif.Spec.Control

/-! # Lemmas on the end of a block -/

namespace ETR
namespace Mach
open Spec Store
variable {V α : Type}

/-! ## Destruction -/

/-- Without the variable `x`. -/
def _root_.ETR.Spec.PState.drop (x : Nat) (p : PState V) : PState V :=
  { p with
    vars := fun y => if y = x then none else p.vars y
    bors := fun y => if y = x then none else p.bors y }

/-- Destruction of any vector. -/
theorem Rep.drop {s : Mach V} {p : PState V} (R : Rep s p) {x : Nat} (hx : x < s.n) :
    ∃ s', Mach.destroy x s = (.ok (), s') ∧ Rep s' (p.drop x) ∧ s'.n = s.n ∧ ∀ y, y.1 ≠ x → s'.st y = s.st y := by
  obtain ⟨s', e, I, hn, hs1, hs2, hb, hnx, hf, hc⟩ := safe_destroy R.inv hx
  have hfr : ∀ b, (s.heap.blk b).newed = false → s'.heap.blk b = s.heap.blk b := by
    intro b hw
    refine hf b (fun y _ ho hyb => ?_)
    have := ((R.inv.ownOf ho).ptr b hyb).2.2.1
    rw [hw] at this; exact absurd this (by decide)
  refine ⟨s', e, ⟨I, by rw [hn]; exact R.n, fun y v hv => ?_, fun c l hl => ?_, fun y γ hγ => ?_⟩, hn, hs2⟩
  · simp only [PState.drop] at hv
    by_cases hyx : y = x
    · rw [if_pos hyx] at hv; simp at hv
    rw [if_neg hyx] at hv
    have L := R.vars y v hv
    have e1 : s'.st (y, false) = s.st (y, false) := hs2 _ hyx
    have e2 : s'.st (y, true) = s.st (y, true) := hs2 _ hyx
    refine ⟨by rw [hn]; exact L.lt, by rw [hb]; simp only [hyx, if_false]; exact L.bor, ?_, ?_⟩
    · rw [e1]
      refine shows_frame (fun b hb' => hf b ?_) L.shows
      intro z hz ho hzb
      have := R.inv.inj z (y, false) b ho (Or.inr L.bor) hzb hb'
      subst this
      exact hyx hz
    · rw [e1, e2]; exact L.kind
  · obtain ⟨k1, k2⟩ := R.b.arrays c l hl
    exact ⟨by omega, by rw [hfr c (by rw [k2]; rfl)]; exact k2⟩
  · simp only [PState.drop] at hγ
    by_cases hyx : y = x
    · rw [if_pos hyx] at hγ; simp at hγ
    · rw [if_neg hyx] at hγ
      obtain ⟨l, hl, L⟩ := R.b.bors y γ hγ
      exact ⟨l, hl, L.keep (by rw [hn]) (hs2 _ hyx) (hs2 _ hyx) (by rw [hb]; simp [hyx])⟩

/-- The end of a block, on the side of naive semantics. -/
theorem Rep.leaveN {lo : Nat} : ∀ (j : Nat) (s : Mach V) (p : PState V), Rep s p → lo + j ≤ s.n →
    ∃ s', leave lo j s = (.ok (), s') ∧ s'.n = s.n ∧ (∀ y : Slot, y.1 < lo → s'.st y = s.st y) ∧
      Rep s' { p with
        vars := fun y => if y < lo ∨ lo + j ≤ y then p.vars y else none
        bors := fun y => if y < lo ∨ lo + j ≤ y then p.bors y else none }
  | 0, s, p, R, _ => by
    refine ⟨s, rfl, rfl, fun _ _ => rfl, ?_⟩
    have : { p with
        vars := fun y => if y < lo ∨ lo + 0 ≤ y then p.vars y else none
        bors := fun y => if y < lo ∨ lo + 0 ≤ y then p.bors y else none } = p := by
      have h : ∀ y, (y < lo ∨ lo + 0 ≤ y) := fun y => by omega
      simp only [h, if_true]
    rw [this]
    exact R
  | j + 1, s, p, R, hj => by
    obtain ⟨s1, e1, R1, n1, o1⟩ := R.drop (x := lo + j) (by omega)
    obtain ⟨s2, e2, n2, o2, R2⟩ := Rep.leaveN (lo := lo) j s1 _ R1 (by omega)
    refine ⟨s2, by rw [leave, M.bind_ok e1]; exact e2, by rw [n2, n1], fun y hy => ?_, ?_⟩
    · rw [o2 y hy, o1 y (by omega)]
    · convert R2 using 1
      unfold PState.drop
      congr 1
      all_goals
        funext y
        simp only []
        by_cases h : y = lo + j
        · subst h; simp
        · by_cases h' : y < lo ∨ lo + j ≤ y
          · rw [if_pos h', if_neg h, if_pos (by omega)]
          · rw [if_neg h', if_neg (by omega)]

theorem Rep.leave {lo : Nat} {s : Mach V} {p : PState V} (R : Rep s p) :
    ∃ s', Mach.leave lo (s.n - lo) s = (.ok (), s') ∧ (∀ y : Slot, y.1 < lo → s'.st y = s.st y) ∧ Rep s' (p.leave lo) := by
  have key : ∀ y, lo ≤ y → s.n ≤ y → p.vars y = none ∧ p.bors y = none := by
    intro y _ h
    constructor
    · cases hv : p.vars y with
      | none => rfl
      | some v => have := (R.vars y v hv).lt; omega
    · cases hv : p.bors y with
      | none => rfl
      | some v => obtain ⟨_, _, L⟩ := R.b.bors y v hv; have := L.lt; omega
  by_cases h : lo ≤ s.n
  · obtain ⟨s', e, _, o, R'⟩ := Rep.leaveN (lo := lo) (s.n - lo) s p R (by omega)
    refine ⟨s', e, o, ?_⟩
    convert R' using 1
    unfold PState.leave
    congr 1
    all_goals
      funext y
      by_cases h1 : y < lo
      · simp [h1]
      · by_cases h2 : s.n ≤ y
        · obtain ⟨a, b⟩ := key y (by omega) h2
          simp [a, b]
        · rw [if_neg h1, if_neg (by omega)]
  · refine ⟨s, by rw [show s.n - lo = 0 by omega]; rfl, fun _ _ => rfl, ?_⟩
    convert R using 1
    cases p with
    | mk a b c d =>
      unfold PState.leave
      simp only [PState.mk.injEq, true_and, and_true]
      have key' := fun y hy => key y hy (by omega)
      constructor
      all_goals
        funext y
        by_cases h1 : y < lo
        · rw [if_pos h1]
        · rw [if_neg h1]
          first | exact (key' y (by omega)).1.symm | exact (key' y (by omega)).2.symm

/-- The end of a block: nothing fails. -/
theorem leave_ok {lo : Nat} : ∀ (n : Nat) (s : Mach V), Inv s → lo + n ≤ s.n →
    ∃ s', leave lo n s = (.ok (), s') ∧ Inv s' ∧ s'.n = s.n ∧
      (∀ y : Slot, lo ≤ y.1 → y.1 < lo + n → s'.st y = {}) ∧ (∀ y : Slot, s.st y = {} → s'.st y = {})
  | 0, s, I, _ => ⟨s, rfl, I, rfl, fun _ h h' => absurd h (by omega), fun _ h => h⟩
  | n + 1, s, I, hn => by
    obtain ⟨s1, e1, I1, n1, z1, o1, _⟩ := safe_destroy I (x := lo + n) (by omega)
    obtain ⟨s2, e2, I2, n2, z2, o2⟩ := leave_ok (lo := lo) n s1 I1 (by omega)
    refine ⟨s2, ?_, I2, by rw [n2, n1], fun y hy hy' => ?_, fun y hy => o2 y ?_⟩
    · rw [leave, M.bind_ok e1]; exact e2
    · by_cases h : y.1 = lo + n
      · exact o2 y (z1 y h)
      · exact z2 y hy (by omega)
    · by_cases h : y.1 = lo + n
      · exact z1 y h
      · rw [o1 y h]; exact hy

theorem leave_inv {lo : Nat} {s : Mach V} (I : Inv s) : ∃ s', leave lo (s.n - lo) s = (.ok (), s') ∧ Inv s' ∧ s'.n = s.n := by
  by_cases h : lo ≤ s.n
  · obtain ⟨s', e, I', n, _⟩ := leave_ok (lo := lo) (s.n - lo) s I (by omega)
    exact ⟨s', e, I', n⟩
  · exact ⟨s, by rw [show s.n - lo = 0 by omega]; rfl, I, rfl⟩

theorem DK.leave {x : Nat} {bo : Bool} {d : Store} {lo : Nat} (h : x < lo) :
    ∀ n, MPres (DK x bo d) (Mach.leave lo n : M (Mach V) Unit)
  | 0 => MPres.pure ()
  | n + 1 => MPres.bind (DK.destroy (by omega)) (fun _ => DK.leave h n)

/-! ## Identifiers are not reused -/

/-- At least `k` identifiers are in use. -/
def Grown (k : Nat) (s : Mach V) : Prop := k ≤ s.n

theorem Grown.slot {k : Nat} {y : Slot} {m : SM V α} : MPres (Grown k) (Mach.onSlot y m) := by
  intro s h
  rw [onSlot_apply]
  rcases m (s.heap, s.st y) with ⟨o, st'⟩
  cases o <;> first | exact h | trivial

theorem Grown.destroy {k y : Nat} : MPres (Grown k) (Mach.destroy y : M (Mach V) Unit) := by
  unfold Mach.destroy
  exact MPres.bind Grown.slot (fun _ => MPres.bind MPres.get (fun s => MPres.ite
    (fun _ => MPres.bind Grown.slot (fun _ => fun _ h => h)) (fun _ => fun _ h => h)))

theorem Grown.decl {k : Nat} {body : Nat → M (Mach V) Unit} (h : ∀ x, MPres (Grown k) (body x)) :
    MPres (Grown k) (Mach.decl body) := by
  intro s hs
  have h := h s.n s.bump (Nat.le_succ_of_le hs)
  rcases hm : body s.n s.bump with ⟨o, s'⟩
  rw [hm] at h
  cases o with
  | ub k => rw [decl_ub hm]; trivial
  | ok u => rw [decl_ok hm]; exact h
  | thr e => rw [decl_thr hm]; exact kept_thr (Grown.destroy s' h)

theorem Grown.withTmp {k : Nat} {body : Nat → M (Mach V) Unit} (h : ∀ x, MPres (Grown k) (body x)) :
    MPres (Grown k) (Mach.withTmp body) := by
  intro s hs
  have h := h s.n s.bump (Nat.le_succ_of_le hs)
  rcases hm : body s.n s.bump with ⟨o, s'⟩
  rw [hm] at h
  cases o with
  | ub k => rw [withTmp_ub hm]; trivial
  | ok u => rw [withTmp_ok hm]; exact Grown.destroy s' h
  | thr e => rw [withTmp_thr hm]; exact kept_thr (Grown.destroy s' h)

theorem Grown.fillTemp {k : Nat} {zero : V} {conv : V → Out V} {t : Nat} {e : Expr V} :
    MPres (Grown k) (Mach.fillTemp zero conv t e) := by
  unfold Mach.fillTemp
  exact MPres.bind MPres.get (fun s => MPres.bind Grown.slot (fun _ => MPres.forN _ (fun i =>
    MPres.bind (MPres.reads _) (fun v => MPres.bind (MPres.lift _) (fun w => Grown.slot)))))

theorem Grown.setDims {k y : Nat} {e : Expr V} : MPres (Grown k) (Mach.setDims y e) := by
  unfold Mach.setDims
  exact MPres.bind MPres.get (fun s => MPres.ite (fun _ => MPres.bind (MPres.lift _) (fun r =>
    MPres.bind (MPres.lift _) (fun c => Grown.slot))) (fun _ => MPres.pure ()))

theorem Grown.resize {k : Nat} {zero : V} {y n : Nat} : MPres (Grown k) (Mach.resize zero y n) := by
  unfold Mach.resize
  exact MPres.bind MPres.get (fun s => MPres.ite (fun _ => Grown.slot) (fun _ => Grown.slot))

theorem Grown.subSet {k y : Nat} {ind : List Nat} {pos : Nat} {v : V} :
    MPres (Grown k) (Mach.subSet y ind pos v) := by
  unfold Mach.subSet
  exact MPres.bind MPres.get (fun s => MPres.bind (MPres.lift _) (fun _ => MPres.bind (MPres.lift _)
    (fun _ => Grown.slot)))

theorem exec_grown {k : Nat} {zero : V} (c : Cmd V) : MPres (Grown k) (exec zero c) := by
  have N : ∀ {α : Type} {y : Slot} {m : SM V α}, MPres (Grown k) (Mach.onSlot y m) := Grown.slot
  have W : ∀ {f : Mach V → Mach V}, (∀ s, (f s).n = s.n) → MPres (Grown k) (M.modify f) := by
    intro f hf s h
    show k ≤ (f s).n
    rw [hf]; exact h
  cases c with
  | callerArray l => intro s h; exact h
  | declDefault =>
    unfold exec Mach.declDefault
    exact Grown.decl (fun _ => MPres.pure ())
  | declSize n =>
    unfold exec Mach.declSize
    exact Grown.decl (fun _ => N)
  | declScalar v =>
    unfold exec Mach.declScalar
    exact Grown.decl (fun _ => MPres.bind N (fun _ => N))
  | declMat r c =>
    unfold exec Mach.declMat
    exact Grown.decl (fun _ => MPres.bind N (fun _ => N))
  | declMatVal r c v =>
    unfold exec Mach.declMatVal
    exact Grown.decl (fun _ => MPres.bind N (fun _ => MPres.bind N (fun _ => N)))
  | declCopy y =>
    unfold exec Mach.declCopy
    exact Grown.decl (fun _ => MPres.bind MPres.get (fun s => MPres.ite
      (fun _ => MPres.bind (W (fun _ => rfl)) (fun _ => N)) (fun _ => MPres.bind N (fun _ => N))))
  | declExpr conv e =>
    unfold exec Mach.declExpr
    refine Grown.decl (fun x => MPres.bind MPres.get (fun s1 => ?_))
    have hl : MPres (Grown k) (do
        let s' ← M.get
        M.forN (s'.st (x, false)).sz (fun i => do
          let v ← M.reads (fun s => e.el s.env i)
          let w ← M.lift (conv v)
          Mach.onSlot (x, false) (Store.set i w))
        Mach.setDims x e : M (Mach V) Unit) :=
      MPres.bind MPres.get (fun s' => MPres.bind (MPres.forN _ (fun i => MPres.bind (MPres.reads _)
        (fun v => MPres.bind (MPres.lift _) (fun w => N)))) (fun _ => Grown.setDims))
    exact MPres.ite (fun _ => MPres.bind N (fun _ => hl)) (fun _ => MPres.bind N (fun _ => hl))
  | declTemp l mp =>
    unfold exec Mach.declTemp
    refine Grown.withTmp (fun x => MPres.bind (MPres.bind N (fun _ => MPres.bind (MPres.forN _ (fun i =>
        MPres.bind (MPres.lift _) (fun v => N))) (fun _ => N))) (fun _ => Grown.decl (fun y => ?_)))
    exact W (fun _ => rfl)
  | declPtr p n =>
    unfold exec Mach.declPtr
    exact Grown.decl (fun _ => MPres.bind N (fun _ => MPres.bind
      (MPres.forN _ (fun i => MPres.bind (MPres.reads _) (fun v => N)))
      (fun _ => N)))
  | declBorrow p n =>
    unfold exec Mach.declBorrow
    exact Grown.decl (fun _ => W (fun _ => rfl))
  | assign conv y e =>
    unfold exec Mach.assign
    refine MPres.bind (P := Grown k) MPres.get (fun s => MPres.ite (fun _ => ?_) (fun _ => ?_))
    · unfold assignBorrow
      exact MPres.bind MPres.get (fun s => MPres.bind (MPres.ass _ _) (fun _ => MPres.bind
        Grown.fillTemp (fun _ => MPres.bind MPres.get (fun s => MPres.bind (MPres.ass _ _) (fun _ =>
        MPres.bind N (fun _ => MPres.bind MPres.get (fun s =>
        MPres.bind (MPres.forN _ (fun i => MPres.bind (MPres.reads _) (fun v => N)))
        (fun _ => Grown.setDims))))))))
    · unfold assignBuffer
      exact MPres.bind Grown.fillTemp (fun _ => MPres.bind (W (fun _ => rfl)) (fun _ => Grown.setDims))
  | assignScalar y v =>
    exact MPres.bind (P := Grown k) MPres.get (fun s => MPres.ite
      (fun _ => MPres.bind N (fun _ => N)) (fun _ => MPres.bind N (fun _ => N)))
  | subAssign conv same y ind e =>
    unfold exec Mach.subAssign
    refine Grown.withTmp (fun x => ?_)
    have hl : ∀ t, MPres (Grown k) (M.forN ind.length (fun i => do
        let v ← M.reads (fun s : Mach V => (s.st (t, true)).get s.heap i)
        Mach.subSet y ind (i % ind.length) v)) := fun t =>
      MPres.forN _ (fun i => MPres.bind (MPres.reads _) (fun v => Grown.subSet))
    unfold Mach.subAssignBody
    exact MPres.bind MPres.get (fun s => MPres.bind (MPres.ass _ _) (fun _ => MPres.bind
      Grown.fillTemp (fun _ => MPres.bind MPres.get (fun s => MPres.ite
      (fun _ => MPres.bind Grown.resize (fun _ => hl _)) (fun _ => hl _)))))
  | subAssignScalar y ind v => exact MPres.forN (P := Grown k) _ (fun i => Grown.subSet)
  | setElem y i v => exact N
  | resize y n => exact Grown.resize
  | fill y v => exact N
  | fillVec y z => exact MPres.bind (P := Grown k) MPres.get (fun s => N)
  | pushBack y v => exact N
  | storeAssign y z => exact MPres.bind (P := Grown k) MPres.get (fun s => N)
  | destroy y => exact Grown.destroy

theorem runAll_grown {zero : V} : ∀ (cs : List (Cmd V)) (s s' : Mach V), runAll zero cs s = (none, s') → s.n ≤ s'.n := by
  intro cs
  induction cs with
  | nil => intro s s' h; cases h; exact le_refl _
  | cons c cs ih =>
    intro s s' h
    rw [runAll] at h
    have g := exec_grown (zero := zero) c s (show Grown s.n s from le_refl _)
    rcases hc : exec zero c s with ⟨o, s1⟩
    rw [hc] at h g
    cases o with
    | ok a => exact Nat.le_trans g (ih s1 s' h)
    | thr m => exact Nat.le_trans g (ih s1 s' h)
    | ub u => simp at h

end Mach
end ETR
