import Verif.Lemmas.Names

/-! The data member of a vector that an operation is not applied to: no condition on the state or the operation. -/

namespace ETR
namespace Mach
variable {V α : Type} {y : Nat} {S : Store}

/-- The vector `y` has been declared and has the data member `S`. -/
def KS (y : Nat) (S : Store) (s : Mach V) : Prop := s.st (y, false) = S ∧ y < s.n

theorem KS.slot {z : Slot} {m : SM V α} (hz : z ≠ (y, false)) : KP (KS y S) (Mach.onSlot z m) := by
  intro s hs
  rw [onSlot_apply]
  rcases hm : m (s.heap, s.st z) with ⟨o, st'⟩
  have key : KS y S (s.put z st') := ⟨by rw [put_ne _ _ (Ne.symm hz)]; exact hs.1, hs.2⟩
  cases o with
  | ok a => exact key
  | thr e => exact key
  | ub k => trivial

theorem slot_ne {x : Nat} {k : Bool} (hx : x ≠ y) : ((x, k) : Slot) ≠ (y, false) := fun e => hx (Prod.mk.inj e).1

theorem KS.fillTemp {zero : V} {conv : V → Out V} {t : Nat} {e : Expr V} (ht : t ≠ y) : KP (KS y S) (Mach.fillTemp zero conv t e) := by
  unfold Mach.fillTemp
  exact KP.getB (fun s _ => KP.bind (KS.slot (slot_ne ht)) (fun _ => KP.forN _ (fun i _ =>
    KP.bind (KP.reads _) (fun v => KP.bind (KP.lift _) (fun w => KS.slot (slot_ne ht))))))

theorem KS.setDims {x : Nat} (hx : x ≠ y) {e : Expr V} : KP (KS y S) (Mach.setDims x e) := by
  unfold Mach.setDims
  exact KP.getB (fun s _ => KP.ite (fun _ => KP.bind (KP.lift _) (fun r => KP.bind (KP.lift _)
    (fun c => KS.slot (slot_ne hx)))) (fun _ => KP.pure ()))

theorem KS.assign {zero : V} {conv : V → Out V} {x : Nat} {e : Expr V} (hx : x ≠ y) : KP (KS y S) (Mach.assign zero conv x e) := by
  unfold Mach.assign
  refine KP.getB (fun s _ => KP.ite (fun _ => ?_) (fun _ => ?_))
  · unfold assignBorrow
    exact KP.getB (fun s _ => KP.bind (KP.ass _ _) (fun _ => KP.bind (KS.fillTemp hx) (fun _ => KP.getB (fun s _ =>
      KP.bind (KP.ass _ _) (fun _ => KP.bind (KS.slot (slot_ne hx)) (fun _ => KP.getB (fun s _ => KP.bind
        (KP.forN _ (fun i _ => KP.bind (KP.reads _) (fun v => KS.slot (slot_ne hx)))) (fun _ => KS.setDims hx))))))))
  · unfold assignBuffer
    refine KP.bind (KS.fillTemp hx) (fun _ => KP.bind (KP.modify (fun s hs => ⟨?_, hs.2⟩)) (fun _ => KS.setDims hx))
    simp only []
    rw [if_neg (slot_ne hx).symm, if_neg (slot_ne hx).symm]
    exact hs.1

theorem KS.resize {zero : V} {x n : Nat} (hx : x ≠ y) : KP (KS y S) (Mach.resize zero x n) := by
  unfold Mach.resize
  exact KP.getB (fun s _ => KP.ite (fun _ => KS.slot (slot_ne hx)) (fun _ => KS.slot (slot_ne hx)))

theorem KS.subSet {x : Nat} {ind : List Nat} {pos : Nat} {v : V} (hx : x ≠ y) : KP (KS y S) (Mach.subSet x ind pos v) := by
  unfold Mach.subSet
  exact KP.getB (fun s _ => KP.bind (KP.lift _) (fun k => KP.bind (KP.lift _) (fun j => KS.slot (slot_ne hx))))

theorem KS.subAssignBody {zero : V} {conv : V → Out V} {same : Bool} {x t : Nat} {ind : List Nat} {e : Expr V}
    (hx : x ≠ y) (ht : t ≠ y) : KP (KS y S) (Mach.subAssignBody zero conv same x ind e t) := by
  unfold Mach.subAssignBody
  have loop : KP (KS y S) (M.forN ind.length (fun i => do
    let v ← M.reads (fun s => (s.st (t, true)).get s.heap i)
    Mach.subSet x ind (i % ind.length) v) : M (Mach V) Unit) :=
    KP.forN _ (fun i _ => KP.bind (KP.reads _) (fun v => KS.subSet hx))
  exact KP.getB (fun s _ => KP.bind (KP.ass _ _) (fun _ => KP.bind (KS.fillTemp ht) (fun _ => KP.getB (fun s _ =>
    KP.ite (fun _ => KP.bind (KS.resize hx) (fun _ => loop)) (fun _ => loop)))))

theorem KS.destroy {x : Nat} (hx : x ≠ y) : KP (KS y S) (Mach.destroy x : M (Mach V) Unit) := by
  unfold Mach.destroy
  have fin : KP (KS y S) (M.modify (fun s : Mach V => { s with
      st := fun z => if z.1 = x then {} else s.st z
      bor := fun z => if z = x then false else s.bor z })) := by
    refine KP.modify (fun s h => ⟨?_, h.2⟩)
    show (if y = x then {} else s.st (y, false)) = S
    rw [if_neg (Ne.symm hx)]; exact h.1
  exact KP.bind (KS.slot (slot_ne hx)) (fun _ => KP.getB (fun s _ => KP.ite
    (fun _ => KP.bind (KS.slot (slot_ne hx)) (fun _ => fin)) (fun _ => fin)))

theorem KS.failed {x : Nat} {e : String} (hx : x ≠ y) : KP (KS y S) (Mach.destroy x >>= fun _ => M.lift (.thr e) : M (Mach V) Unit) :=
  KP.bind (KS.destroy hx) (fun _ => KP.lift _)

theorem KS.decl {body : Nat → M (Mach V) Unit} (h : ∀ x, x ≠ y → KP (KS y S) (body x)) : KP (KS y S) (Mach.decl body) := by
  intro s hs
  have hn : s.n ≠ y := by have := hs.2; omega
  have h := h s.n hn { s with n := s.n + 1 } ⟨hs.1, Nat.lt_succ_of_lt hs.2⟩
  unfold Mach.decl
  rcases hm : body s.n { s with n := s.n + 1 } with ⟨o, s'⟩
  rw [hm] at h
  cases o with
  | ub k => trivial
  | ok u => exact h
  | thr e => exact KS.failed hn s' h

theorem KS.withTmp {body : Nat → M (Mach V) Unit} (h : ∀ x, x ≠ y → KP (KS y S) (body x)) : KP (KS y S) (Mach.withTmp body) := by
  intro s hs
  have hn : s.n ≠ y := by have := hs.2; omega
  have h := h s.n hn { s with n := s.n + 1 } ⟨hs.1, Nat.lt_succ_of_lt hs.2⟩
  unfold Mach.withTmp
  rcases hm : body s.n { s with n := s.n + 1 } with ⟨o, s'⟩
  rw [hm] at h
  cases o with
  | ub k => trivial
  | ok u => exact KS.destroy hn s' h
  | thr e => exact KS.failed hn s' h

theorem exec_KS {zero : V} {c : Cmd V} (ht : c.target ≠ some y) : KP (KS y S) (exec zero c) := by
  have N : ∀ {β : Type} {x : Nat} {k : Bool} {m : SM V β}, x ≠ y → KP (KS y S) (Mach.onSlot (x, k) m) := fun hx => KS.slot (slot_ne hx)
  have T : ∀ {x : Nat}, c.target = some x → x ≠ y := fun h e => ht (by rw [h, e])
  cases c with
  | callerArray l => exact KP.modify (fun s hs => hs)
  | declDefault => unfold exec Mach.declDefault; exact KS.decl (fun _ _ => KP.pure ())
  | declSize n => unfold exec Mach.declSize; exact KS.decl (fun _ hx => N hx)
  | declScalar v => unfold exec Mach.declScalar; exact KS.decl (fun _ hx => KP.bind (N hx) (fun _ => N hx))
  | declMat r c => unfold exec Mach.declMat; exact KS.decl (fun _ hx => KP.bind (N hx) (fun _ => N hx))
  | declMatVal r c v => unfold exec Mach.declMatVal; exact KS.decl (fun _ hx => KP.bind (N hx) (fun _ => KP.bind (N hx) (fun _ => N hx)))
  | declCopy z =>
    unfold exec Mach.declCopy
    refine KS.decl (fun x hx => KP.getB (fun s1 _ => ?_))
    refine KP.ite (fun _ => KP.bind (KP.modify (fun s2 h2 => ⟨?_, h2.2⟩)) (fun _ => N hx)) (fun _ => KP.bind (N hx) (fun _ => N hx))
    simp only []
    rw [if_neg (slot_ne hx).symm]
    exact h2.1
  | declExpr conv e =>
    unfold exec Mach.declExpr
    refine KS.decl (fun x hx => KP.getB (fun s1 _ => ?_))
    have hl : KP (KS y S) (do
        let s' ← M.get
        M.forN (s'.st (x, false)).sz (fun i => do
          let v ← M.reads (fun s => e.el s.env i)
          let w ← M.lift (conv v)
          Mach.onSlot (x, false) (Store.set i w))
        Mach.setDims x e : M (Mach V) Unit) :=
      KP.getB (fun s' _ => KP.bind (KP.forN _ (fun i _ => KP.bind (KP.reads _)
        (fun v => KP.bind (KP.lift _) (fun w => N hx)))) (fun _ => KS.setDims hx))
    exact KP.ite (fun _ => KP.bind (N hx) (fun _ => hl)) (fun _ => KP.bind (N hx) (fun _ => hl))
  | declTemp l mp =>
    unfold exec Mach.declTemp
    refine KS.withTmp (fun t ht => ?_)
    have hmk : KP (KS y S) (makeTemp zero l mp t) :=
      KP.bind (N ht) (fun _ => KP.bind (KP.forN _ (fun i _ => KP.bind (KP.lift _) (fun v => N ht))) (fun _ => N ht))
    refine KP.bind hmk (fun _ => KS.decl (fun x hx => KP.modify (fun s hs => ⟨?_, hs.2⟩)))
    show (if (y, false) = (x, false) then _ else if (y, false) = (t, false) then _ else s.st (y, false)) = _
    rw [if_neg (slot_ne hx).symm, if_neg (slot_ne ht).symm]
    exact hs.1
  | declPtr p n =>
    unfold exec Mach.declPtr
    exact KS.decl (fun _ hx => KP.bind (N hx) (fun _ => KP.bind (KP.forN _ (fun i _ => KP.bind (KP.reads _) (fun v => N hx))) (fun _ => N hx)))
  | declBorrow p n =>
    unfold exec Mach.declBorrow
    refine KS.decl (fun x hx => KP.modify (fun s2 h2 => ⟨?_, h2.2⟩))
    simp only []
    rw [if_neg (slot_ne hx).symm]
    exact h2.1
  | assign conv x e => exact KS.assign (T rfl)
  | assignScalar x v =>
    have hx : x ≠ y := T rfl
    unfold exec Mach.assignScalar
    exact KP.getB (fun s _ => KP.ite (fun _ => KP.bind (N hx) (fun _ => N hx)) (fun _ => KP.bind (N hx) (fun _ => N hx)))
  | subAssign conv same x ind e =>
    have hx : x ≠ y := T rfl
    unfold exec Mach.subAssign
    exact KS.withTmp (fun t ht => KS.subAssignBody hx ht)
  | subAssignScalar x ind v => exact KP.forN _ (fun i _ => KS.subSet (T rfl))
  | setElem x i v => exact N (T rfl)
  | resize x n => exact KS.resize (T rfl)
  | fill x v => exact N (T rfl)
  | fillVec x z => exact KP.getB (fun s _ => N (T rfl))
  | pushBack x v => exact N (T rfl)
  | storeAssign x z => exact KP.getB (fun s _ => N (T rfl))
  | destroy x => exact KS.destroy (T rfl)

theorem runAll_KS {zero : V} : ∀ (cs : List (Cmd V)) {s s' : Mach V}, (∀ c ∈ cs, c.target ≠ some y) → KS y S s →
    runAll zero cs s = (none, s') → KS y S s' := by
  intro cs
  induction cs with
  | nil => intro s s' _ h e; cases e; exact h
  | cons c cs ih =>
    intro s s' hc h e
    have k := exec_KS (zero := zero) (S := S) (hc c (by simp)) s h
    rw [runAll] at e
    rcases hm : exec zero c s with ⟨o, s1⟩
    rw [hm] at e k
    cases o with
    | ub u => cases e
    | ok u => exact ih (fun c h => hc c (by simp [h])) k e
    | thr m => exact ih (fun c h => hc c (by simp [h])) k e

end Mach
end ETR
