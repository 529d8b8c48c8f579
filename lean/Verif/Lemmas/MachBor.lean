import Verif.Lemmas.MachReady

/-! Existing objects keep their kind (owning or borrowing). -/

namespace ETR
namespace Mach
open Store
variable {V : Type} {α : Type} {x : Nat}

/-- The vector `x` exists and owns its memory. -/
def NB (x : Nat) (s : Mach V) : Prop := x < s.n ∧ s.bor x = false

theorem NB.slot {y : Slot} {m : SM V α} : MPres (NB x) (Mach.onSlot y m) := by
  intro s h
  rw [onSlot_apply]
  rcases m (s.heap, s.st y) with ⟨o, st'⟩
  have : NB x (s.put y st') := h
  cases o <;> first | exact this | trivial

theorem NB.reset {y : Nat} : MPres (NB x) (M.modify (fun s => { s with
      st := fun z => if z.1 = y then {} else s.st z
      bor := fun z => if z = y then false else s.bor z }) : M (Mach V) Unit) := by
  intro s h
  refine ⟨h.1, ?_⟩
  show (if x = y then false else s.bor x) = false
  split
  · rfl
  · exact h.2

theorem NB.destroy {y : Nat} : MPres (NB x) (Mach.destroy y : M (Mach V) Unit) := by
  unfold Mach.destroy
  exact MPres.bind NB.slot (fun _ => MPres.bind MPres.get (fun s => MPres.ite
    (fun _ => MPres.bind NB.slot (fun _ => NB.reset)) (fun _ => NB.reset)))

theorem NB.decl {body : Nat → M (Mach V) Unit} {s : Mach V} (h : Kept (NB x) (body s.n s.bump)) :
    Kept (NB x) (Mach.decl body s) := by
  rcases hm : body s.n s.bump with ⟨o, s'⟩
  rw [hm] at h
  cases o with
  | ub k => rw [decl_ub hm]; trivial
  | ok u => rw [decl_ok hm]; exact h
  | thr e => rw [decl_thr hm]; exact kept_thr (NB.destroy s' h)

theorem NB.withTmp {body : Nat → M (Mach V) Unit} {s : Mach V} (h : Kept (NB x) (body s.n s.bump)) :
    Kept (NB x) (Mach.withTmp body s) := by
  rcases hm : body s.n s.bump with ⟨o, s'⟩
  rw [hm] at h
  cases o with
  | ub k => rw [withTmp_ub hm]; trivial
  | ok u => rw [withTmp_ok hm]; exact NB.destroy s' h
  | thr e => rw [withTmp_thr hm]; exact kept_thr (NB.destroy s' h)

theorem NB.bump {s : Mach V} (h : NB x s) : NB x s.bump := ⟨Nat.lt_succ_of_lt h.1, h.2⟩

theorem NB.decl' {body : Nat → M (Mach V) Unit} {s : Mach V} (h : NB x s)
    (hb : MPres (NB x) (body s.n)) : Kept (NB x) (Mach.decl body s) := NB.decl (hb _ h.bump)

theorem NB.fillTemp {zero : V} {conv : V → Out V} {t : Nat} {e : Expr V} :
    MPres (NB x) (Mach.fillTemp zero conv t e) := by
  unfold Mach.fillTemp
  exact MPres.bind MPres.get (fun s => MPres.bind NB.slot (fun _ => MPres.forN _ (fun i =>
    MPres.bind (MPres.reads _) (fun v => MPres.bind (MPres.lift _) (fun w => NB.slot)))))

theorem NB.setDims {y : Nat} {e : Expr V} : MPres (NB x) (Mach.setDims y e) := by
  unfold Mach.setDims
  exact MPres.bind MPres.get (fun s => MPres.ite (fun _ => MPres.bind (MPres.lift _) (fun r =>
    MPres.bind (MPres.lift _) (fun c => NB.slot))) (fun _ => MPres.pure ()))

theorem NB.resize {zero : V} {y n : Nat} : MPres (NB x) (Mach.resize zero y n) := by
  unfold Mach.resize
  exact MPres.bind MPres.get (fun s => MPres.ite (fun _ => NB.slot) (fun _ => NB.slot))

theorem NB.subSet {y : Nat} {ind : List Nat} {pos : Nat} {v : V} :
    MPres (NB x) (Mach.subSet y ind pos v) := by
  unfold Mach.subSet
  exact MPres.bind MPres.get (fun s => MPres.bind (MPres.lift _) (fun _ => MPres.bind (MPres.lift _)
    (fun _ => NB.slot)))

theorem exec_nb {zero : V} {c : Cmd V} {s : Mach V} (h : NB x s) : Kept (NB x) (exec zero c s) := by
  cases c with
  | callerArray l => exact h
  | declDefault =>
    unfold exec Mach.declDefault
    exact NB.decl' h (MPres.pure ())
  | declSize n =>
    unfold exec Mach.declSize
    exact NB.decl' h NB.slot
  | declScalar v =>
    unfold exec Mach.declScalar
    exact NB.decl' h (MPres.bind NB.slot (fun _ => NB.slot))
  | declMat r c =>
    unfold exec Mach.declMat
    exact NB.decl' h (MPres.bind NB.slot (fun _ => NB.slot))
  | declMatVal r c v =>
    unfold exec Mach.declMatVal
    exact NB.decl' h (MPres.bind NB.slot (fun _ => MPres.bind NB.slot (fun _ => NB.slot)))
  | declCopy y =>
    unfold exec Mach.declCopy
    refine NB.decl ?_
    rw [M.bind_ok (M.get_apply _)]
    by_cases hb : s.bump.bor y = true
    · rw [if_pos hb, M.bind_ok (M.modify_apply _ _)]
      refine NB.slot _ ⟨Nat.lt_succ_of_lt h.1, ?_⟩
      show (if x = s.n then true else s.bor x) = false
      rw [if_neg (Nat.ne_of_lt h.1)]; exact h.2
    · rw [if_neg hb]
      exact MPres.bind NB.slot (fun _ => NB.slot) _ h.bump
  | declExpr conv e =>
    unfold exec Mach.declExpr
    refine NB.decl' h (MPres.bind MPres.get (fun s1 => ?_))
    have hl : MPres (NB x) (do
        let s' ← M.get
        M.forN (s'.st (s.n, false)).sz (fun i => do
          let v ← M.reads (fun s => e.el s.env i)
          let w ← M.lift (conv v)
          Mach.onSlot (s.n, false) (Store.set i w))
        Mach.setDims s.n e : M (Mach V) Unit) :=
      MPres.bind MPres.get (fun s' => MPres.bind (MPres.forN _ (fun i => MPres.bind (MPres.reads _)
        (fun v => MPres.bind (MPres.lift _) (fun w => NB.slot)))) (fun _ => NB.setDims))
    exact MPres.ite (fun _ => MPres.bind NB.slot (fun _ => hl))
      (fun _ => MPres.bind NB.slot (fun _ => hl))
  | declTemp l mp =>
    unfold exec Mach.declTemp
    refine NB.withTmp ?_
    refine MPres.bind (P := NB x) (MPres.bind NB.slot (fun _ => MPres.bind (MPres.forN _ (fun i =>
        MPres.bind (MPres.lift _) (fun v => NB.slot))) (fun _ => NB.slot))) (fun _ => ?_) _ h.bump
    intro s1 h1
    refine NB.decl ?_
    exact ⟨Nat.lt_succ_of_lt h1.1, h1.2⟩
  | declPtr p n =>
    unfold exec Mach.declPtr
    exact NB.decl' h (MPres.bind NB.slot (fun _ => MPres.bind
      (MPres.forN _ (fun i => MPres.bind (MPres.reads _) (fun v => NB.slot)))
      (fun _ => NB.slot)))
  | declBorrow p n =>
    unfold exec Mach.declBorrow
    refine NB.decl ⟨Nat.lt_succ_of_lt h.1, ?_⟩
    show (if x = s.n then true else s.bor x) = false
    rw [if_neg (Nat.ne_of_lt h.1)]; exact h.2
  | assign conv y e =>
    unfold exec Mach.assign
    refine MPres.bind (P := NB x) MPres.get (fun s => MPres.ite (fun _ => ?_) (fun _ => ?_)) s h
    · unfold assignBorrow
      exact MPres.bind MPres.get (fun s => MPres.bind (MPres.ass _ _) (fun _ => MPres.bind
        NB.fillTemp (fun _ => MPres.bind MPres.get (fun s => MPres.bind (MPres.ass _ _) (fun _ =>
        MPres.bind NB.slot (fun _ => MPres.bind MPres.get (fun s =>
        MPres.bind (MPres.forN _ (fun i => MPres.bind (MPres.reads _) (fun v => NB.slot)))
        (fun _ => NB.setDims))))))))
    · unfold assignBuffer
      exact MPres.bind NB.fillTemp (fun _ => MPres.bind (fun s hs => hs) (fun _ => NB.setDims))
  | assignScalar y v =>
    exact MPres.bind (P := NB x) MPres.get (fun s => MPres.ite
      (fun _ => MPres.bind NB.slot (fun _ => NB.slot))
      (fun _ => MPres.bind NB.slot (fun _ => NB.slot))) s h
  | subAssign conv same y ind e =>
    unfold exec Mach.subAssign
    refine NB.withTmp ?_
    have hl : ∀ t, MPres (NB x) (M.forN ind.length (fun i => do
        let v ← M.reads (fun s : Mach V => (s.st (t, true)).get s.heap i)
        Mach.subSet y ind (i % ind.length) v)) := fun t =>
      MPres.forN _ (fun i => MPres.bind (MPres.reads _) (fun v => NB.subSet))
    refine (?_ : MPres (NB x) (Mach.subAssignBody zero conv same y ind e s.n)) _ h.bump
    unfold Mach.subAssignBody
    exact MPres.bind MPres.get (fun s => MPres.bind (MPres.ass _ _) (fun _ => MPres.bind
      NB.fillTemp (fun _ => MPres.bind MPres.get (fun s => MPres.ite
      (fun _ => MPres.bind NB.resize (fun _ => hl _)) (fun _ => hl _)))))
  | subAssignScalar y ind v =>
    exact MPres.forN (P := NB x) _ (fun i => NB.subSet) s h
  | setElem y i v => exact NB.slot s h
  | resize y n => exact NB.resize s h
  | fill y v => exact NB.slot s h
  | fillVec y z => exact MPres.bind (P := NB x) MPres.get (fun s => NB.slot) s h
  | pushBack y v => exact NB.slot s h
  | storeAssign y z => exact MPres.bind (P := NB x) MPres.get (fun s => NB.slot) s h
  | destroy y => exact NB.destroy s h

theorem runAll_nb {zero : V} : ∀ (cs : List (Cmd V)) (s s' : Mach V), NB x s →
    runAll zero cs s = (none, s') → NB x s' := by
  intro cs
  induction cs with
  | nil => intro s s' h e; simp only [runAll, Prod.mk.injEq, true_and] at e; rw [← e]; exact h
  | cons c cs ih =>
    intro s s' h e
    have h1 := exec_nb (zero := zero) (c := c) h
    rw [runAll] at e
    rcases hm : exec zero c s with ⟨o, s1⟩
    rw [hm] at e h1
    cases o with
    | ub k => simp at e
    | ok u => exact ih s1 s' h1 e
    | thr m => exact ih s1 s' h1 e

end Mach
end ETR
