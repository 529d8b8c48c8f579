import Verif.Lemmas.MachExec
import Verif.Lemmas.MachBor
import Verif.Spec.ControlSafe

/-! Lemmas on the memory safety of programs with control flow. -/

namespace ETR
namespace Mach
open Store
variable {V : Type} {α : Type} {x : Nat} {bo : Bool} {d : Store}

/-! ## Operations on other vectors leave a vector where it is -/

/-- The vector `x` exists, is of the kind `bo` and has the data member `d`. -/
def DK (x : Nat) (bo : Bool) (d : Store) (s : Mach V) : Prop := x < s.n ∧ s.bor x = bo ∧ s.st (x, false) = d

theorem DK.slot {y : Slot} {m : SM V α} (hy : y ≠ (x, false)) : MPres (DK x bo d) (Mach.onSlot y m) := by
  intro s h
  rw [onSlot_apply]
  rcases m (s.heap, s.st y) with ⟨o, st'⟩
  have : DK x bo d (s.put y st') := ⟨h.1, h.2.1, by rw [put_ne _ _ hy.symm]; exact h.2.2⟩
  cases o <;> first | exact this | trivial

/-- The operation writes memory and leaves the members alone. -/
def HeapOnly (m : SM V α) : Prop := ∀ st, (m st).2.2 = st.2

theorem HeapOnly.bind {β : Type} {m : SM V α} {f : α → SM V β} (h : HeapOnly m) (h' : ∀ a, HeapOnly (f a)) :
    HeapOnly (m >>= f) := by
  intro st
  rw [M.bind_apply]
  have := h st
  rcases hm : m st with ⟨o, st'⟩
  rw [hm] at this
  cases o with
  | ok a => exact (h' a st').trans this
  | thr e => exact this
  | ub k => exact this

theorem HeapOnly.set {i : Nat} {v : V} : HeapOnly (Store.set i v) :=
  HeapOnly.bind (fun _ => rfl) (fun _ => HeapOnly.bind (fun _ => rfl) (fun _ => fun _ => rfl))

theorem HeapOnly.fill {v : V} : HeapOnly (Store.fillScalar v) :=
  HeapOnly.bind (fun _ => rfl) (fun _ => fun _ => rfl)

theorem DK.write {y : Slot} {m : SM V α} (hm : HeapOnly m) : MPres (DK x bo d) (Mach.onSlot y m) := by
  intro s h
  rw [onSlot_apply]
  have := hm (s.heap, s.st y)
  rcases hr : m (s.heap, s.st y) with ⟨o, st'⟩
  rw [hr] at this
  have : DK x bo d (s.put y st') := by
    refine ⟨h.1, h.2.1, ?_⟩
    by_cases hy : (x, false) = y
    · subst hy
      rw [put_same]
      exact (this : st'.2 = _).trans h.2.2
    · rw [put_ne _ _ hy]; exact h.2.2
  cases o <;> first | exact this | trivial

theorem DK.other {y : Nat} {b : Bool} (h : y ≠ x) : ((y, b) : Slot) ≠ (x, false) := by
  intro e; exact h (congrArg Prod.fst e)

theorem DK.tmp {y : Nat} : ((y, true) : Slot) ≠ (x, false) := by
  intro e; exact absurd (congrArg Prod.snd e) (by simp)

theorem DK.reset {y : Nat} (hy : y ≠ x) : MPres (DK x bo d) (M.modify (fun s => { s with
      st := fun z => if z.1 = y then {} else s.st z
      bor := fun z => if z = y then false else s.bor z }) : M (Mach V) Unit) := by
  intro s h
  refine ⟨h.1, ?_, ?_⟩
  · show (if x = y then false else s.bor x) = bo
    rw [if_neg hy.symm]; exact h.2.1
  · show (if x = y then {} else s.st (x, false)) = d
    rw [if_neg hy.symm]; exact h.2.2

theorem DK.destroy {y : Nat} (hy : y ≠ x) : MPres (DK x bo d) (Mach.destroy y : M (Mach V) Unit) := by
  unfold Mach.destroy
  exact MPres.bind (DK.slot DK.tmp) (fun _ => MPres.bind MPres.get (fun s => MPres.ite
    (fun _ => MPres.bind (DK.slot (DK.other hy)) (fun _ => DK.reset hy)) (fun _ => DK.reset hy)))

theorem DK.decl {body : Nat → M (Mach V) Unit} {s : Mach V} (hx : x < s.n) (h : Kept (DK x bo d) (body s.n s.bump)) :
    Kept (DK x bo d) (Mach.decl body s) := by
  rcases hm : body s.n s.bump with ⟨o, s'⟩
  rw [hm] at h
  cases o with
  | ub k => rw [decl_ub hm]; trivial
  | ok u => rw [decl_ok hm]; exact h
  | thr e => rw [decl_thr hm]; exact kept_thr (DK.destroy (Nat.ne_of_gt hx) s' h)

theorem DK.withTmp {body : Nat → M (Mach V) Unit} {s : Mach V} (hx : x < s.n)
    (h : Kept (DK x bo d) (body s.n s.bump)) : Kept (DK x bo d) (Mach.withTmp body s) := by
  rcases hm : body s.n s.bump with ⟨o, s'⟩
  rw [hm] at h
  cases o with
  | ub k => rw [withTmp_ub hm]; trivial
  | ok u => rw [withTmp_ok hm]; exact DK.destroy (Nat.ne_of_gt hx) s' h
  | thr e => rw [withTmp_thr hm]; exact kept_thr (DK.destroy (Nat.ne_of_gt hx) s' h)

theorem DK.bump {s : Mach V} (h : DK x bo d s) : DK x bo d s.bump := ⟨Nat.lt_succ_of_lt h.1, h.2⟩

theorem DK.decl' {body : Nat → M (Mach V) Unit} {s : Mach V} (h : DK x bo d s)
    (hb : MPres (DK x bo d) (body s.n)) : Kept (DK x bo d) (Mach.decl body s) := DK.decl h.1 (hb _ h.bump)

theorem DK.fillTemp {zero : V} {conv : V → Out V} {t : Nat} {e : Expr V} :
    MPres (DK x bo d) (Mach.fillTemp zero conv t e) := by
  unfold Mach.fillTemp
  exact MPres.bind MPres.get (fun s => MPres.bind (DK.slot DK.tmp) (fun _ => MPres.forN _ (fun i =>
    MPres.bind (MPres.reads _) (fun v => MPres.bind (MPres.lift _) (fun w => DK.slot DK.tmp)))))

theorem DK.setDims {y : Nat} {e : Expr V} (hy : y ≠ x) : MPres (DK x bo d) (Mach.setDims y e) := by
  unfold Mach.setDims
  exact MPres.bind MPres.get (fun s => MPres.ite (fun _ => MPres.bind (MPres.lift _) (fun r =>
    MPres.bind (MPres.lift _) (fun c => DK.slot (DK.other hy)))) (fun _ => MPres.pure ()))

theorem DK.resize {zero : V} {y n : Nat} (hy : y ≠ x) : MPres (DK x bo d) (Mach.resize zero y n) := by
  unfold Mach.resize
  exact MPres.bind MPres.get (fun s => MPres.ite (fun _ => DK.slot (DK.other hy)) (fun _ => DK.slot (DK.other hy)))

theorem DK.subSet {y : Nat} {ind : List Nat} {pos : Nat} {v : V} :
    MPres (DK x bo d) (Mach.subSet y ind pos v) := by
  unfold Mach.subSet
  exact MPres.bind MPres.get (fun s => MPres.bind (MPres.lift _) (fun _ => MPres.bind (MPres.lift _)
    (fun _ => DK.write HeapOnly.set)))

theorem exec_dk {zero : V} {c : Cmd V} {s : Mach V} (h : DK x bo d s) (hc : Spec.Stays x c) :
    Kept (DK x bo d) (exec zero c s) := by
  have hn : s.n ≠ x := Nat.ne_of_gt h.1
  have N : ∀ {α : Type} {m : SM V α}, MPres (DK x bo d) (Mach.onSlot (s.n, false) m) := DK.slot (DK.other hn)
  have T : ∀ {y : Nat}, some y ≠ some x → y ≠ x := fun e h => e (by rw [h])
  cases c with
  | callerArray l => exact h
  | declDefault =>
    unfold exec Mach.declDefault
    exact DK.decl' h (MPres.pure ())
  | declSize n =>
    unfold exec Mach.declSize
    exact DK.decl' h N
  | declScalar v =>
    unfold exec Mach.declScalar
    exact DK.decl' h (MPres.bind N (fun _ => N))
  | declMat r c =>
    unfold exec Mach.declMat
    exact DK.decl' h (MPres.bind N (fun _ => N))
  | declMatVal r c v =>
    unfold exec Mach.declMatVal
    exact DK.decl' h (MPres.bind N (fun _ => MPres.bind N (fun _ => N)))
  | declCopy y =>
    unfold exec Mach.declCopy
    refine DK.decl h.1 ?_
    rw [M.bind_ok (M.get_apply _)]
    by_cases hb : s.bump.bor y = true
    · rw [if_pos hb, M.bind_ok (M.modify_apply _ _)]
      refine DK.slot DK.tmp _ ⟨Nat.lt_succ_of_lt h.1, ?_, ?_⟩
      · show (if x = s.n then true else s.bor x) = bo
        rw [if_neg hn.symm]; exact h.2.1
      · show (if ((x, false) : Slot) = (s.n, false) then _ else s.st (x, false)) = d
        rw [if_neg (DK.other hn).symm]; exact h.2.2
    · rw [if_neg hb]
      exact MPres.bind N (fun _ => DK.slot DK.tmp) _ h.bump
  | declExpr conv e =>
    unfold exec Mach.declExpr
    refine DK.decl' h (MPres.bind MPres.get (fun s1 => ?_))
    have hl : MPres (DK x bo d) (do
        let s' ← M.get
        M.forN (s'.st (s.n, false)).sz (fun i => do
          let v ← M.reads (fun s => e.el s.env i)
          let w ← M.lift (conv v)
          Mach.onSlot (s.n, false) (Store.set i w))
        Mach.setDims s.n e : M (Mach V) Unit) :=
      MPres.bind MPres.get (fun s' => MPres.bind (MPres.forN _ (fun i => MPres.bind (MPres.reads _)
        (fun v => MPres.bind (MPres.lift _) (fun w => N)))) (fun _ => DK.setDims hn))
    exact MPres.ite (fun _ => MPres.bind N (fun _ => hl))
      (fun _ => MPres.bind N (fun _ => hl))
  | declTemp l mp =>
    unfold exec Mach.declTemp
    refine DK.withTmp h.1 ?_
    refine MPres.bind (P := DK x bo d) (MPres.bind N (fun _ => MPres.bind (MPres.forN _ (fun i =>
        MPres.bind (MPres.lift _) (fun v => N))) (fun _ => N))) (fun _ => ?_) _ h.bump
    intro s1 h1
    refine DK.decl h1.1 ⟨Nat.lt_succ_of_lt h1.1, h1.2.1, ?_⟩
    show (if ((x, false) : Slot) = (s1.n, false) then _ else if ((x, false) : Slot) = (s.n, false) then _ else
      s1.st (x, false)) = d
    rw [if_neg (DK.other (Nat.ne_of_gt h1.1)).symm, if_neg (DK.other hn).symm]
    exact h1.2.2
  | declPtr p n =>
    unfold exec Mach.declPtr
    exact DK.decl' h (MPres.bind N (fun _ => MPres.bind
      (MPres.forN _ (fun i => MPres.bind (MPres.reads _) (fun v => N)))
      (fun _ => N)))
  | declBorrow p n =>
    unfold exec Mach.declBorrow
    refine DK.decl h.1 ⟨Nat.lt_succ_of_lt h.1, ?_, ?_⟩
    · show (if x = s.n then true else s.bor x) = bo
      rw [if_neg hn.symm]; exact h.2.1
    · show (if ((x, false) : Slot) = (s.n, false) then _ else s.st (x, false)) = d
      rw [if_neg (DK.other hn).symm]; exact h.2.2
  | assign conv y e =>
    have hy : y ≠ x := T hc
    unfold exec Mach.assign
    refine MPres.bind (P := DK x bo d) MPres.get (fun s => MPres.ite (fun _ => ?_) (fun _ => ?_)) s h
    · unfold assignBorrow
      exact MPres.bind MPres.get (fun s => MPres.bind (MPres.ass _ _) (fun _ => MPres.bind
        DK.fillTemp (fun _ => MPres.bind MPres.get (fun s => MPres.bind (MPres.ass _ _) (fun _ =>
        MPres.bind (DK.slot (DK.other hy)) (fun _ => MPres.bind MPres.get (fun s =>
        MPres.bind (MPres.forN _ (fun i => MPres.bind (MPres.reads _) (fun v => DK.slot (DK.other hy))))
        (fun _ => DK.setDims hy))))))))
    · unfold assignBuffer
      refine MPres.bind DK.fillTemp (fun _ => MPres.bind (fun s hs => ?_) (fun _ => DK.setDims hy))
      refine ⟨hs.1, hs.2.1, ?_⟩
      show (if ((x, false) : Slot) = (y, false) then _ else if ((x, false) : Slot) = (y, true) then _ else
        s.st (x, false)) = d
      rw [if_neg (DK.other hy).symm, if_neg DK.tmp.symm]
      exact hs.2.2
  | assignScalar y v =>
    have hy : y ≠ x := T hc
    exact MPres.bind (P := DK x bo d) MPres.get (fun s => MPres.ite
      (fun _ => MPres.bind (DK.slot (DK.other hy)) (fun _ => DK.slot (DK.other hy)))
      (fun _ => MPres.bind (DK.slot (DK.other hy)) (fun _ => DK.slot (DK.other hy)))) s h
  | subAssign conv same y ind e =>
    have hy : y ≠ x := T hc
    unfold exec Mach.subAssign
    refine DK.withTmp h.1 ?_
    have hl : ∀ t, MPres (DK x bo d) (M.forN ind.length (fun i => do
        let v ← M.reads (fun s : Mach V => (s.st (t, true)).get s.heap i)
        Mach.subSet y ind (i % ind.length) v)) := fun t =>
      MPres.forN _ (fun i => MPres.bind (MPres.reads _) (fun v => DK.subSet))
    refine (?_ : MPres (DK x bo d) (Mach.subAssignBody zero conv same y ind e s.n)) _ h.bump
    unfold Mach.subAssignBody
    exact MPres.bind MPres.get (fun s => MPres.bind (MPres.ass _ _) (fun _ => MPres.bind
      DK.fillTemp (fun _ => MPres.bind MPres.get (fun s => MPres.ite
      (fun _ => MPres.bind (DK.resize hy) (fun _ => hl _)) (fun _ => hl _)))))
  | subAssignScalar y ind v =>
    exact MPres.forN (P := DK x bo d) _ (fun i => DK.subSet) s h
  | setElem y i v => exact DK.write HeapOnly.set s h
  | resize y n => exact DK.resize (T hc) s h
  | fill y v => exact DK.write HeapOnly.fill s h
  | fillVec y z => exact MPres.bind (P := DK x bo d) MPres.get (fun s => DK.slot (DK.other (T hc))) s h
  | pushBack y v => exact DK.slot (DK.other (T hc)) s h
  | storeAssign y z => exact MPres.bind (P := DK x bo d) MPres.get (fun s => DK.slot (DK.other (T hc))) s h
  | destroy y => exact DK.destroy (T hc) s h

end Mach

/-! ## Parts that do not touch the memory of vectors -/

/-- No memory error, whatever was printed before. -/
def NoMemL {α : Type} (m : L α) : Prop := ∀ ws, (m ws).1.NoMem

section
variable {α β V : Type}

theorem NoMemL.bind {m : L α} {f : α → L β} (h : NoMemL m) (h' : ∀ a, NoMemL (f a)) : NoMemL (m >>= f) := by
  intro ws k e
  rw [M.bind_apply] at e
  have := h ws
  rcases hm : m ws with ⟨o, ws1⟩
  rw [hm] at e this
  cases o with
  | ok a => exact h' a ws1 k e
  | thr m => simp at e
  | ub u => exact this k (by simpa using e)

theorem NoMemL.pure (a : α) : NoMemL (Pure.pure a : L α) := by intro ws k e; cases e

theorem NoMemL.ass {c : Prop} [Decidable c] {msg : String} : NoMemL (M.ass c msg : L Unit) := by
  intro ws k e
  unfold M.ass Out.ass at e
  rw [M.lift_apply] at e
  split at e <;> cases e

theorem NoMemL.lift {o : Out α} (h : o.NoMem) : NoMemL (M.lift o : L α) := by
  intro ws k e
  exact h k e

theorem NoMemL.warn (b : Bool) (m : String) : NoMemL (warn b m) := by
  intro ws k e
  unfold ETR.warn at e
  split at e <;> cases e

theorem NoMemL.ite {c : Prop} [Decidable c] {m m' : L α} (h : NoMemL m) (h' : NoMemL m') :
    NoMemL (if c then m else m') := by split <;> assumption

theorem Out.NoMem.all : ∀ (l : List (Out α)), (∀ o ∈ l, o.NoMem) → (Out.all l).NoMem
  | [], _ => Out.NoMem.ok _
  | o :: l, h => Out.NoMem.bind (h o (by simp)) (fun a => Out.NoMem.bind
      (Out.NoMem.all l (fun o ho => h o (by simp [ho]))) (fun as => Out.NoMem.ok _))

theorem ckI32_noMem (n : Int) : (ckI32 n).NoMem := by
  intro k e
  unfold ckI32 at e
  split at e <;> cases e
  rfl

theorem toSizeT_noMem (x : F64) : x.toSizeT.NoMem := by
  intro k e
  unfold F64.toSizeT at e
  split at e
  · split at e <;> cases e
    rfl
  · cases e; rfl

theorem toI32_noMem (x : F64) : x.toI32.NoMem := by
  intro k e
  unfold F64.toI32 at e
  split at e
  · split at e <;> cases e
    rfl
  · cases e; rfl

theorem isDoubleInt_noMem (x : F64) : (isDoubleInt x).NoMem :=
  Out.NoMem.bind (toI32_noMem x) (fun _ => Out.NoMem.ok _)

theorem convertSizeD_noMem (x : F64) : NoMemL (convertSizeD x) :=
  NoMemL.bind (NoMemL.lift (isDoubleInt_noMem x)) (fun _ => NoMemL.bind (NoMemL.warn _ _) (fun _ =>
    NoMemL.bind NoMemL.ass (fun _ => NoMemL.lift (toSizeT_noMem x))))

theorem convertSize_noMem (n : Num) : NoMemL (convertSize n) := by
  match n with
  | .n k => exact NoMemL.bind NoMemL.ass (fun _ => NoMemL.pure _)
  | .s (.d x) => exact convertSizeD_noMem x
  | .s (.i k) => exact NoMemL.bind NoMemL.ass (fun _ => NoMemL.pure _)
  | .s (.b v) => exact NoMemL.bind NoMemL.ass (fun _ => NoMemL.pure _)

theorem intPos_noMem (s : Scal) : (intPos s).NoMem := by
  cases s with
  | d x => exact toSizeT_noMem _
  | i n => exact Out.NoMem.bind (ckI32_noMem _) (fun _ => Out.NoMem.ok _)
  | b v => exact Out.NoMem.bind (ckI32_noMem _) (fun _ => Out.NoMem.ok _)

theorem dblPos_noMem (x : F64) : (dblPos x).NoMem := Out.NoMem.bind (toSizeT_noMem x) (fun _ => Out.NoMem.ok _)

theorem maskPos_noMem (n : Nat) (l : List Bool) : (maskPos n l).NoMem := by
  refine Out.NoMem.bind (Out.NoMem.all _ (fun o ho => ?_)) (fun _ => Out.NoMem.ok _)
  obtain ⟨i, _, rfl⟩ := List.mem_map.mp ho
  exact Out.NoMem.bind (modz_noMem _ _) (fun k => getL_noMem _ _)

theorem calcIndVector_noMem (n : Nat) (i : Index) : NoMemL (calcIndVector n i) := by
  cases i with
  | lgl b =>
    refine NoMemL.ite (NoMemL.bind NoMemL.ass (fun _ => NoMemL.pure _)) (NoMemL.lift ?_)
    intro k e; cases e
  | int k => exact NoMemL.bind NoMemL.ass (fun _ => NoMemL.bind (NoMemL.lift (intPos_noMem _)) (fun _ =>
      NoMemL.bind NoMemL.ass (fun _ => NoMemL.pure _)))
  | dbl x => exact NoMemL.bind NoMemL.ass (fun _ => NoMemL.bind (NoMemL.bind (NoMemL.lift (isDoubleInt_noMem x))
      (fun _ => NoMemL.bind (NoMemL.warn _ _) (fun _ => NoMemL.bind NoMemL.ass (fun _ =>
        NoMemL.lift (toSizeT_noMem x))))) (fun _ => NoMemL.pure _))
  | vlgl l => exact NoMemL.bind (NoMemL.lift (maskPos_noMem n l)) (fun _ => NoMemL.bind NoMemL.ass (fun _ => NoMemL.pure _))
  | vint l =>
    refine NoMemL.bind NoMemL.ass (fun _ => NoMemL.lift (Out.NoMem.all _ (fun o ho => ?_)))
    obtain ⟨i, _, rfl⟩ := List.mem_map.mp ho
    exact intPos_noMem i
  | vdbl l =>
    refine NoMemL.bind NoMemL.ass (fun _ => NoMemL.lift (Out.NoMem.all _ (fun o ho => ?_)))
    obtain ⟨i, _, rfl⟩ := List.mem_map.mp ho
    exact dblPos_noMem i

theorem toScalar_noMem {bool : Bool} {s : Mach V} {e : Expr V} (I : Mach.Inv s) (h : e.FunSafe) :
    NoMemL (toScalar bool s.env e) := by
  unfold toScalar
  exact NoMemL.ite (NoMemL.bind (NoMemL.warn _ _) (fun _ => NoMemL.lift (I.el_noMem h 0)))
    (NoMemL.lift (I.el_noMem h 0))

/-! ## Ranges -/

/-- The result is a vector with its own memory. -/
def RetOK (st : List String × (Heap V × Store)) : Prop := Store.DInv st.2.1 st.2.2

theorem safe_sayM {P : List String × (Heap V × Store) → Prop} {m : L α}
    (h : NoMemL m) (hP : ∀ ws ws' r, P (ws, r) → P (ws', r)) :
    M.Safe P (sayM m) (fun a st => P st ∧ ∃ ws ws', m ws = (.ok a, ws')) (fun _ => True) := by
  rintro ⟨ws, r⟩ hp
  have := h ws
  have e : sayM m (ws, r) = ((m ws).1, ((m ws).2, r)) := rfl
  rw [e]
  rcases hm : m ws with ⟨o, ws'⟩
  rw [hm] at this
  cases o with
  | ok a => exact ⟨hP _ _ _ hp, ws, ws', hm⟩
  | thr e => trivial
  | ub k => exact this k rfl

theorem safe_seqLoop {T : Type} (go : T → Bool) (step : T → Out T) (hs : ∀ t, (step t).NoMem) :
    ∀ (fuel : Nat) (start : T) (c : Nat), M.Safe (fun st : Heap T × Store => Store.DInv st.1 st.2)
      (seqLoop go step fuel start c) (fun _ st => Store.DInv st.1 st.2) (fun _ => True)
  | 0, _, _ => by
    intro st h
    trivial
  | f + 1, start, c => by
    unfold seqLoop
    refine M.Safe.ite (fun _ => ?_) (fun _ => fun st h => h)
    refine M.Safe.bind (R := fun _ st => Store.DInv st.1 st.2) ?_ (fun _ => ?_)
    · rintro ⟨h, s⟩ hd
      have := Store.set_safe (j := c) (v := start) hd (h, s) rfl
      rcases hm : Store.set c start (h, s) with ⟨o, st'⟩
      rw [hm] at this
      cases o with
      | ok a => exact this.1.1
      | thr e => trivial
      | ub k => exact this
    · refine M.Safe.bind (R := fun _ st => Store.DInv st.1 st.2) ?_ (fun t => safe_seqLoop go step hs f t (c + 1))
      intro st hd
      have := hs start
      rw [M.lift_apply]
      cases ho : step start with
      | ok a => exact hd
      | thr e => trivial
      | ub k => exact this k ho

theorem safe_retM {P Q : Heap V × Store → Prop} {m : SM V α} (h : M.Safe P m (fun _ => Q) (fun _ => True)) :
    M.Safe (fun st : List String × (Heap V × Store) => P st.2) (retM m) (fun _ st => Q st.2) (fun _ => True) := by
  rintro ⟨ws, r⟩ hp
  have := h r hp
  have e : retM m (ws, r) = ((m r).1, (ws, (m r).2)) := rfl
  rw [e]
  rcases hm : m r with ⟨o, r'⟩
  rw [hm] at this
  cases o with
  | ok a => exact this
  | thr e => trivial
  | ub k => exact this

/-- The state in which `colon` is called. -/
def Blank (st : List String × (Heap V × Store)) : Prop := st.2 = (Heap.empty, {})

theorem safe_ctorSize {zero : V} {n : Nat} (hn : n ≤ 2 ^ 30) :
    M.Safe (Blank (V := V)) (retM (Store.ctorSize zero n)) (fun _ => RetOK) (fun _ => True) := by
  have := safe_retM (P := fun r : Heap V × Store => r = (Heap.empty, {})) (Q := fun r => Store.DInv r.1 r.2)
    (m := Store.ctorSize zero n) (M.Safe.conseq (Store.ctorSize_safe (zero := zero) (h := Heap.empty) rfl hn)
      (fun _ h => h) (fun _ _ h => h.1.1) (fun _ _ => trivial))
  exact this

theorem safe_colonPart {T : Type} {zero : T} {m : L Nat} (hm : NoMemL m)
    (hl : ∀ ws n ws', m ws = (.ok n, ws') → n ≤ 2 ^ 30) (go : T → Bool) (step : T → Out T)
    (hs : ∀ t, (step t).NoMem) (start : T) :
    M.Safe (Blank (V := T)) (do
      let length ← sayM m
      retM (Store.ctorSize zero length)
      retM (seqLoop go step (length + 1) start 0)) (fun _ => RetOK) (fun _ => True) := by
  refine M.Safe.bind (safe_sayM hm (fun _ _ _ h => h)) (fun n => ?_)
  intro st h
  obtain ⟨hb, ws, ws', e⟩ := h
  exact (M.Safe.bind (safe_ctorSize (hl _ _ _ e)) (fun _ => safe_retM (safe_seqLoop go step hs _ _ _))) st hb

theorem safe_lift_blank {o : Out α} (h : o.NoMem) {P : List String × (Heap V × Store) → Prop} :
    M.Safe P (M.lift o) (fun a st => P st ∧ o = .ok a) (fun _ => True) := by
  intro st hp
  rw [M.lift_apply]
  cases ho : o with
  | ok a => exact ⟨hp, rfl⟩
  | thr e => trivial
  | ub k => exact h k ho

theorem convertSize_i {k : Int} {ws ws' : List String} {n : Nat} (h : convertSize (.s (.i k)) ws = (.ok n, ws')) :
    1 ≤ k ∧ n = wrap64 k := by
  have h : ((M.ass (1 ≤ k) "invalid times argument" : L Unit) >>= fun _ => (pure (wrap64 k) : L Nat)) ws = (.ok n, ws') := h
  rw [M.bind_apply] at h
  unfold M.ass at h
  by_cases hk : 1 ≤ k
  · simp only [hk] at h
    refine ⟨hk, ?_⟩
    cases h
    rfl
  · simp only [hk] at h
    cases h

theorem safe_colonI {a b : Int} (h : |b - a| < 2 ^ 30) :
    M.Safe (Blank (V := Int)) (colonI a b) (fun _ => RetOK) (fun _ => True) := by
  have hlen : ∀ d d' : Int, |d| < 2 ^ 30 → ckI32 d = .ok d' → ∀ d'', ckI32 (d' + 1) = .ok d'' →
      ∀ ws n ws', convertSize (.s (.i d'')) ws = (.ok n, ws') → n ≤ 2 ^ 30 := by
    intro d d' hd e1 d'' e2 ws n ws' e3
    obtain ⟨h1, h2⟩ := convertSize_i e3
    unfold ckI32 at e1 e2
    split at e1 <;> cases e1
    split at e2 <;> cases e2
    have : d < 2 ^ 30 := (abs_lt.mp hd).2
    rw [h2]
    unfold wrap64
    have h3 : (d + 1) % (two64 : Int) = d + 1 := Int.emod_eq_of_lt (by omega) (by unfold two64; omega)
    rw [h3]; omega
  unfold colonI
  refine M.Safe.ite (fun _ => ?_) (fun _ => ?_)
  · refine M.Safe.bind (safe_lift_blank (ckI32_noMem _)) (fun d => M.Safe.bind (R := fun d' st => Blank st ∧
      ckI32 (b - a) = .ok d ∧ ckI32 (d + 1) = .ok d') ?_ (fun d' => ?_))
    · refine M.Safe.conseq (safe_lift_blank (P := fun st => Blank st ∧ ckI32 (b - a) = .ok d) (ckI32_noMem _))
        (fun _ h => h) (fun _ _ h => ⟨h.1.1, h.1.2, h.2⟩) (fun _ _ => trivial)
    · rintro st ⟨hb, e1, e2⟩
      exact safe_colonPart (convertSize_noMem _) (hlen _ _ h e1 _ e2) _ _ (fun _ => ckI32_noMem _) _ st hb
  · have h : |a - b| < 2 ^ 30 := by rw [abs_sub_comm]; exact h
    refine M.Safe.bind (safe_lift_blank (ckI32_noMem _)) (fun d => M.Safe.bind (R := fun d' st => Blank st ∧
      ckI32 (a - b) = .ok d ∧ ckI32 (d + 1) = .ok d') ?_ (fun d' => ?_))
    · refine M.Safe.conseq (safe_lift_blank (P := fun st => Blank st ∧ ckI32 (a - b) = .ok d) (ckI32_noMem _))
        (fun _ h => h) (fun _ _ h => ⟨h.1.1, h.1.2, h.2⟩) (fun _ _ => trivial)
    · rintro st ⟨hb, e1, e2⟩
      exact safe_colonPart (convertSize_noMem _) (hlen _ _ h e1 _ e2) _ _ (fun _ => ckI32_noMem _) _ st hb

theorem safe_colonD {a b : F64}
    (h1 : ∀ ws n ws', convertSizeD (F64.add (F64.sub b a) (.fin 1)) ws = (.ok n, ws') → n ≤ 2 ^ 30)
    (h2 : ∀ ws n ws', convertSizeD (F64.add (F64.sub a b) (.fin 1)) ws = (.ok n, ws') → n ≤ 2 ^ 30) :
    M.Safe (Blank (V := F64)) (colonD a b) (fun _ => RetOK) (fun _ => True) := by
  unfold colonD
  refine M.Safe.ite (fun _ => ?_) (fun _ => ?_)
  · exact safe_colonPart (convertSizeD_noMem _) h1 _ _ (fun _ => Out.NoMem.ok _) _
  · exact safe_colonPart (convertSizeD_noMem _) h2 _ _ (fun _ => Out.NoMem.ok _) _

theorem DInv.load_noMem {h : Heap V} {s : Store} (w : Store.DInv h s) {i : Nat} (hi : i < s.sz) : (h.load s.p i).NoMem := by
  obtain ⟨b, hp, e1, _⟩ := Store.get_spec_lt w.wf hi
  intro k e
  refine Store.get_no_memory w.wf i k ?_
  rw [e1, ← hp]
  exact e

theorem range_noMem {T : Type} {m : AM T Unit} (h : M.Safe (Blank (V := T)) m (fun _ => RetOK) (fun _ => True))
    (s : Prog.St V) : (Prog.range m s).1.NoMem ∧ (Prog.range m s).2.2 = s.2 := by
  have := h (s.1, (Heap.empty, {})) rfl
  unfold Prog.range
  rcases hm : m (s.1, (Heap.empty, {})) with ⟨o, ws, hp, d⟩
  rw [hm] at this
  cases o with
  | ok a =>
    refine ⟨?_, rfl⟩
    refine Out.NoMem.all _ (fun o ho => ?_)
    obtain ⟨i, hi, rfl⟩ := List.mem_map.mp ho
    exact DInv.load_noMem (w := this) (by simpa using hi)
  | thr e => exact ⟨(fun k e => by cases e), rfl⟩
  | ub k =>
    refine ⟨fun k' e => ?_, rfl⟩
    cases e
    exact this

end
end ETR
