import Verif.Lemmas.Strong

/-! Vectors that do not exist (any more) have no memory. -/

namespace ETR
namespace Mach
open Store
variable {V α : Type}

/-- Only vectors in `A` have members that differ from the default ones. -/
def Z (A : Nat → Prop) (s : Mach V) : Prop := ∀ z : Slot, ¬ A z.1 → s.st z = {}

variable {A : Nat → Prop}

theorem Z.mono {B : Nat → Prop} {s : Mach V} (h : Z A s) (hs : ∀ x, A x → B x) : Z B s :=
  fun z hz => h z (fun ha => hz (hs _ ha))

theorem Z.slot {z : Slot} {m : SM V α} (hz : A z.1) : KP (Z A) (Mach.onSlot z m) := by
  intro s hs
  rw [onSlot_apply]
  rcases hm : m (s.heap, s.st z) with ⟨o, st'⟩
  have key : Z A (s.put z st') := by
    intro w hw
    rw [put_ne _ _ (by rintro rfl; exact hw hz)]
    exact hs w hw
  cases o with
  | ok a => exact key
  | thr e => exact key
  | ub k => trivial

theorem Z.fillTemp {zero : V} {conv : V → Out V} {t : Nat} {e : Expr V} (ht : A t) :
    KP (Z A) (Mach.fillTemp zero conv t e) := by
  unfold Mach.fillTemp
  exact KP.getB (fun s _ => KP.bind (Z.slot ht) (fun _ => KP.forN _ (fun i _ =>
    KP.bind (KP.reads _) (fun v => KP.bind (KP.lift _) (fun w => Z.slot ht)))))

theorem Z.setDims {x : Nat} (hx : A x) {e : Expr V} : KP (Z A) (Mach.setDims x e) := by
  unfold Mach.setDims
  exact KP.getB (fun s _ => KP.ite (fun _ => KP.bind (KP.lift _) (fun r => KP.bind (KP.lift _)
    (fun c => Z.slot hx))) (fun _ => KP.pure ()))

theorem Z.assign {zero : V} {conv : V → Out V} {x : Nat} {e : Expr V} (hx : A x) :
    KP (Z A) (Mach.assign zero conv x e) := by
  unfold Mach.assign
  refine KP.getB (fun s _ => KP.ite (fun _ => ?_) (fun _ => ?_))
  · unfold assignBorrow
    exact KP.getB (fun s _ => KP.bind (KP.ass _ _) (fun _ => KP.bind (Z.fillTemp hx) (fun _ => KP.getB (fun s _ =>
      KP.bind (KP.ass _ _) (fun _ => KP.bind (Z.slot hx) (fun _ => KP.getB (fun s _ => KP.bind
        (KP.forN _ (fun i _ => KP.bind (KP.reads _) (fun v => Z.slot hx))) (fun _ => Z.setDims hx))))))))
  · unfold assignBuffer
    refine KP.bind (Z.fillTemp hx) (fun _ => KP.bind (KP.modify (fun s hs z hz => ?_)) (fun _ => Z.setDims hx))
    simp only []
    rw [if_neg (by rintro rfl; exact hz hx), if_neg (by rintro rfl; exact hz hx)]
    exact hs z hz

theorem Z.resize {zero : V} {x n : Nat} (hx : A x) : KP (Z A) (Mach.resize zero x n) := by
  unfold Mach.resize
  exact KP.getB (fun s _ => KP.ite (fun _ => Z.slot hx) (fun _ => Z.slot hx))

theorem Z.subSet {x : Nat} {ind : List Nat} {pos : Nat} {v : V} (hx : A x) : KP (Z A) (Mach.subSet x ind pos v) := by
  unfold Mach.subSet
  exact KP.getB (fun s _ => KP.bind (KP.lift _) (fun k => KP.bind (KP.lift _) (fun j => Z.slot hx)))

theorem Z.subAssignBody {zero : V} {conv : V → Out V} {same : Bool} {x t : Nat} {ind : List Nat} {e : Expr V}
    (hx : A x) (ht : A t) : KP (Z A) (Mach.subAssignBody zero conv same x ind e t) := by
  unfold Mach.subAssignBody
  have loop : KP (Z A) (M.forN ind.length (fun i => do
    let v ← M.reads (fun s => (s.st (t, true)).get s.heap i)
    Mach.subSet x ind (i % ind.length) v) : M (Mach V) Unit) :=
    KP.forN _ (fun i _ => KP.bind (KP.reads _) (fun v => Z.subSet hx))
  exact KP.getB (fun s _ => KP.bind (KP.ass _ _) (fun _ => KP.bind (Z.fillTemp ht) (fun _ => KP.getB (fun s _ =>
    KP.ite (fun _ => KP.bind (Z.resize hx) (fun _ => loop)) (fun _ => loop)))))

theorem dtor_no_thr {P : Heap V × Store → Prop} : NT P (Store.dtor : SM V Unit) (fun _ _ => True) := by
  intro st _
  unfold Store.dtor
  rw [M.bind_ok (self_apply _)]
  by_cases h1 : st.2.p ≠ none
  · rw [if_pos h1]
    by_cases h2 : st.2.allocated = true
    · rw [if_pos h2]
      refine NT.bind (R := fun _ _ => True) (P := fun _ => True) (heap_no_thr (fun h e h' => ?_)) (fun _ => fun _ _ => trivial)
        _ trivial
      unfold Heap.delete
      intro hd
      revert hd
      cases st.2.p with
      | none => simp
      | some b => simp only []; split <;> (try split) <;> simp
    · rw [if_neg h2]; trivial
  · rw [if_neg h1]; trivial

theorem slot_no_thr {z : Slot} {m : SM V Unit} (h : NT (fun _ => True) m (fun _ _ => True)) :
    NT (fun _ : Mach V => True) (Mach.onSlot z m) (fun _ _ => True) := by
  intro s _
  have := h (s.heap, s.st z) trivial
  rw [onSlot_apply]
  rcases hm : m (s.heap, s.st z) with ⟨o, st'⟩
  rw [hm] at this
  cases o with
  | ok a => trivial
  | thr e => exact this
  | ub k => trivial

theorem destroy_no_thr {x : Nat} : NT (fun _ : Mach V => True) (Mach.destroy x) (fun _ _ => True) := by
  unfold Mach.destroy
  refine NT.bind (R := fun _ _ => True) (slot_no_thr dtor_no_thr) (fun _ => NT.get (fun s _ => ?_))
  intro s' e
  subst e
  by_cases h : ¬ s'.bor x = true
  · rw [if_pos h]
    exact NT.bind (P := fun _ => True) (R := fun _ _ => True) (slot_no_thr dtor_no_thr) (fun _ => fun _ _ => trivial) _ trivial
  · rw [if_neg h]; trivial

/-- After its destruction a vector has default members. -/
theorem Z.destroy {x : Nat} {s : Mach V} (h : Z (fun y => A y ∨ y = x) s) :
    Kept (Z (fun y => A y ∧ y ≠ x)) (Mach.destroy x s) := by
  unfold Mach.destroy
  have k1 := Z.slot (A := fun y => A y ∨ y = x) (z := (x, true)) (m := (Store.dtor : SM V Unit)) (Or.inr rfl) s h
  have n1 := slot_no_thr (z := (x, true)) dtor_no_thr s trivial
  rw [M.bind_apply]
  rcases hm : Mach.onSlot (x, true) Store.dtor s with ⟨o, s1⟩
  rw [hm] at k1 n1
  have fin : ∀ s2 : Mach V, Z (fun y => A y ∨ y = x) s2 → Kept (Z (fun y => A y ∧ y ≠ x)) (M.modify (fun s => { s with
      st := fun y => if y.1 = x then {} else s.st y
      bor := fun y => if y = x then false else s.bor y }) s2 : Out Unit × Mach V) := by
    intro s2 h2 z hz
    simp only []
    by_cases hzx : z.1 = x
    · rw [if_pos hzx]
    · rw [if_neg hzx]
      exact h2 z (fun ha => by
        rcases ha with ha | ha
        · exact hz ⟨ha, hzx⟩
        · exact hzx ha)
  cases o with
  | ub k => trivial
  | thr e => exact absurd n1 id
  | ok u =>
    simp only []
    rw [M.bind_ok (M.get_apply _)]
    by_cases hb : ¬ s1.bor x = true
    · rw [if_pos hb, M.bind_apply]
      have k2 := Z.slot (A := fun y => A y ∨ y = x) (z := (x, false)) (m := (Store.dtor : SM V Unit)) (Or.inr rfl) s1 k1
      have n2 := slot_no_thr (z := (x, false)) dtor_no_thr s1 trivial
      rcases hm2 : Mach.onSlot (x, false) Store.dtor s1 with ⟨o, s2⟩
      rw [hm2] at k2 n2
      cases o with
      | ub k => trivial
      | thr e => exact absurd n2 id
      | ok u => exact fin s2 k2
    · rw [if_neg hb]; exact fin s1 k1

/-- On success `B`, after an exception `A`. -/
def ZR (A B : Nat → Prop) : Out Unit × Mach V → Prop
  | (.ok _, s) => Z B s
  | (.thr _, s) => Z A s
  | (.ub _, _) => True

theorem ZR.kept {r : Out Unit × Mach V} (h : Kept (Z A) r) : ZR A A r := by
  rcases r with ⟨o, s⟩
  cases o <;> exact h

theorem ZR.mono {B B' : Nat → Prop} {r : Out Unit × Mach V} (h : ZR A B r) (hs : ∀ x, B x → B' x) : ZR A B' r := by
  rcases r with ⟨o, s⟩
  cases o with
  | ok u => exact Z.mono (show Z B s from h) hs
  | thr e => exact h
  | ub k => trivial

theorem Z.decl {body : Nat → M (Mach V) Unit} {s : Mach V} {B : Nat → Prop} (hB : ∀ x, B x → A x ∨ x = s.n)
    (h : Kept (Z B) (body s.n s.bump)) : ZR A B (Mach.decl body s) := by
  rcases hm : body s.n s.bump with ⟨o, s'⟩
  rw [hm] at h
  cases o with
  | ub k => rw [decl_ub hm]; trivial
  | ok u => rw [decl_ok hm]; exact h
  | thr e =>
    rw [decl_thr hm]
    have hd := Z.destroy (A := A) (x := s.n) (Z.mono h hB)
    have hk := kept_thr (e := e) hd
    rw [M.bind_apply] at hk ⊢
    rcases hm2 : Mach.destroy s.n s' with ⟨o, s2⟩
    rw [hm2] at hk
    cases o with
    | ub k => trivial
    | thr e => exact Z.mono (show Z (fun y => A y ∧ y ≠ s.n) s2 from hk) (fun x hx => hx.1)
    | ok u => exact Z.mono (show Z (fun y => A y ∧ y ≠ s.n) s2 from hk) (fun x hx => hx.1)

theorem Z.withTmp {body : Nat → M (Mach V) Unit} {s : Mach V} {B C : Nat → Prop} (hC : ∀ x, C x → A x ∨ x = s.n)
    (h : ZR C B (body s.n s.bump)) : ZR A (fun x => B x ∧ x ≠ s.n) (Mach.withTmp body s) := by
  rcases hm : body s.n s.bump with ⟨o, s'⟩
  rw [hm] at h
  cases o with
  | ub k => rw [withTmp_ub hm]; trivial
  | ok u =>
    rw [withTmp_ok hm]
    have hd := Z.destroy (A := B) (x := s.n) (Z.mono h (fun x hx => Or.inl hx))
    have hn := destroy_no_thr (x := s.n) s' trivial
    rcases hm2 : Mach.destroy s.n s' with ⟨o, s2⟩
    rw [hm2] at hd hn
    cases o with
    | ub k => trivial
    | thr e => exact absurd hn id
    | ok u => exact hd
  | thr e =>
    rw [withTmp_thr hm]
    have hk := kept_thr (e := e) (Z.destroy (A := A) (x := s.n) (Z.mono h hC))
    rw [M.bind_apply] at hk ⊢
    rcases hm2 : Mach.destroy s.n s' with ⟨o, s2⟩
    rw [hm2] at hk
    cases o with
    | ub k => trivial
    | thr e => exact Z.mono (show Z (fun y => A y ∧ y ≠ s.n) s2 from hk) (fun x hx => hx.1)
    | ok u => exact Z.mono (show Z (fun y => A y ∧ y ≠ s.n) s2 from hk) (fun x hx => hx.1)

/-- The existing vectors after the operation, if it succeeds. -/
def After (A : Nat → Prop) (s : Mach V) (c : Cmd V) (x : Nat) : Prop :=
  (A x ∧ c ≠ .destroy x) ∨ (c.isDecl = true ∧ x = newId s c)

theorem exec_Z {zero : V} {c : Cmd V} {s : Mach V} (h : Z A s) (ht : ∀ x, c.target = some x → A x) :
    ZR A (After A s c) (exec zero c s) := by
  have D : ∀ {body : Nat → M (Mach V) Unit} , newId s c = s.n → c.isDecl = true →
      KP (Z (fun x => A x ∨ x = s.n)) (body s.n) → ZR A (After A s c) (Mach.decl body s) := by
    intro body hid hde hk
    have := Z.decl (B := fun x => A x ∨ x = s.n) (body := body) (fun x hx => hx)
      (hk s.bump (fun z hz => h z (fun ha => hz (Or.inl ha))))
    rcases hm : Mach.decl body s with ⟨o, s'⟩
    rw [hm] at this
    cases o with
    | ub k => trivial
    | thr e => exact this
    | ok u =>
      refine Z.mono (show Z (fun x => A x ∨ x = s.n) s' from this) (fun x hx => ?_)
      rcases hx with hx | hx
      · refine Or.inl ⟨hx, ?_⟩
        rintro rfl
        simp [Cmd.isDecl] at hde
      · exact Or.inr ⟨hde, by rw [hid]; exact hx⟩
  have O : ∀ {m : M (Mach V) Unit}, (∀ x, c ≠ .destroy x) → KP (Z A) m → ZR A (After A s c) (m s) := by
    intro m hd hk
    have := hk s h
    rcases hm : m s with ⟨o, s'⟩
    rw [hm] at this
    cases o with
    | ub k => trivial
    | thr e => exact this
    | ok u => exact Z.mono (show Z A s' from this) (fun x hx => Or.inl ⟨hx, hd x⟩)
  have N : ∀ {m : SM V Unit}, KP (Z (fun x => A x ∨ x = s.n)) (Mach.onSlot (s.n, false) m) := Z.slot (Or.inr rfl)
  have S : ∀ {i : Nat} {v : V}, KP (Z (fun x => A x ∨ x = s.n)) (Mach.onSlot (s.n, false) (Store.set i v)) :=
    Z.slot (Or.inr rfl)
  cases c with
  | callerArray l => exact O (by simp) (KP.modify (fun s hs => hs))
  | declDefault =>
    unfold exec Mach.declDefault
    exact D rfl rfl (KP.pure ())
  | declSize n =>
    unfold exec Mach.declSize
    exact D rfl rfl N
  | declScalar v =>
    unfold exec Mach.declScalar
    exact D rfl rfl (KP.bind N (fun _ => S))
  | declMat r c =>
    unfold exec Mach.declMat
    exact D rfl rfl (KP.bind N (fun _ => N))
  | declMatVal r c v =>
    unfold exec Mach.declMatVal
    exact D rfl rfl (KP.bind N (fun _ => KP.bind N (fun _ => N)))
  | declCopy y =>
    unfold exec Mach.declCopy
    refine D rfl rfl (KP.getB (fun s1 _ => ?_))
    refine KP.ite (fun _ => KP.bind (KP.modify (fun s2 h2 z hz => ?_)) (fun _ => Z.slot (Or.inr rfl)))
      (fun _ => KP.bind N (fun _ => Z.slot (Or.inr rfl)))
    simp only []
    rw [if_neg (by rintro rfl; exact hz (Or.inr rfl))]
    exact h2 z hz
  | declExpr conv e =>
    unfold exec Mach.declExpr
    refine D rfl rfl (KP.getB (fun s1 _ => ?_))
    have hl : KP (Z (fun x => A x ∨ x = s.n)) (do
        let s' ← M.get
        M.forN (s'.st (s.n, false)).sz (fun i => do
          let v ← M.reads (fun s => e.el s.env i)
          let w ← M.lift (conv v)
          Mach.onSlot (s.n, false) (Store.set i w))
        Mach.setDims s.n e : M (Mach V) Unit) :=
      KP.getB (fun s' _ => KP.bind (KP.forN _ (fun i _ => KP.bind (KP.reads _)
        (fun v => KP.bind (KP.lift _) (fun w => S)))) (fun _ => Z.setDims (Or.inr rfl)))
    exact KP.ite (fun _ => KP.bind N (fun _ => hl)) (fun _ => KP.bind N (fun _ => hl))
  | declTemp l mp =>
    unfold exec Mach.declTemp
    have hmk : KP (Z (fun x => A x ∨ x = s.n)) (makeTemp zero l mp s.n) :=
      KP.bind N (fun _ => KP.bind (KP.forN _ (fun i _ => KP.bind (KP.lift _) (fun v => S))) (fun _ => N))
    have hnn : KP (fun s1 : Mach V => s1.n = s.n + 1) (makeTemp zero l mp s.n) := by
      have ho : ∀ {α : Type} (m : SM V α) , KP (fun s1 : Mach V => s1.n = s.n + 1)
          (Mach.onSlot (s.n, false) m) := by
        intro α m s1 hs1
        rw [onSlot_apply]
        rcases m (s1.heap, s1.st (s.n, false)) with ⟨o, st'⟩
        cases o <;> first | exact hs1 | trivial
      exact KP.bind (ho _) (fun _ => KP.bind (KP.forN _ (fun i _ =>
        KP.bind (KP.lift _) (fun v => ho _))) (fun _ => ho _))
    have key : ZR (fun x => A x ∨ x = s.n) (fun x => (A x ∨ x = s.n) ∨ x = s.n + 1) ((makeTemp zero l mp s.n >>= fun _ =>
        Mach.decl (fun y => stealTemp s.n y)) s.bump) := by
      have k1 := hmk s.bump (fun z hz => h z (fun ha => hz (Or.inl ha)))
      have k2 := hnn s.bump rfl
      rw [M.bind_apply]
      rcases hm : makeTemp zero l mp s.n s.bump with ⟨o, s1⟩
      rw [hm] at k1 k2
      cases o with
      | ub k => trivial
      | thr e => exact k1
      | ok u =>
        have k2 : s1.n = s.n + 1 := k2
        have k1 : Z (fun x => A x ∨ x = s.n) s1 := k1
        refine Z.decl (s := s1) (fun x hx => by rw [k2]; exact hx) (fun z hz => ?_)
        show (if z = (s1.n, false) then _ else if z = (s.n, false) then _ else s1.st z) = _
        rw [if_neg (by rintro rfl; exact hz (Or.inr k2)), if_neg (by rintro rfl; exact hz (Or.inl (Or.inr rfl)))]
        exact k1 z (fun ha => hz (Or.inl ha))
    have := Z.withTmp (A := A) (s := s) (body := fun t => do makeTemp zero l mp t; decl (fun x => stealTemp t x))
      (fun x hx => hx) key
    refine ZR.mono this (fun x hx => ?_)
    rcases hx with ⟨(hx | hx) | hx, hn⟩
    · exact Or.inl ⟨hx, by simp⟩
    · exact absurd hx hn
    · exact Or.inr ⟨rfl, hx⟩
  | declPtr p n =>
    unfold exec Mach.declPtr
    exact D rfl rfl (KP.bind N (fun _ => KP.bind (KP.forN _ (fun i _ => KP.bind (KP.reads _) (fun v => S))) (fun _ => N)))
  | declBorrow p n =>
    unfold exec Mach.declBorrow
    refine D rfl rfl (KP.modify (fun s2 h2 z hz => ?_))
    simp only []
    rw [if_neg (by rintro rfl; exact hz (Or.inr rfl))]
    exact h2 z hz
  | assign conv x e => exact O (by simp) (Z.assign (ht x rfl))
  | assignScalar x v =>
    have hx := ht x rfl
    unfold exec Mach.assignScalar
    exact O (by simp) (KP.getB (fun s _ => KP.ite (fun _ => KP.bind (Z.slot hx) (fun _ => Z.slot hx))
      (fun _ => KP.bind (Z.slot hx) (fun _ => Z.slot hx))))
  | subAssign conv same x ind e =>
    have hx := ht x rfl
    have hk := Z.subAssignBody (A := fun y => A y ∨ y = s.n) (zero := zero) (conv := conv) (same := same) (ind := ind)
      (e := e) (x := x) (t := s.n) (Or.inl hx) (Or.inr rfl) s.bump (fun z hz => h z (fun ha => hz (Or.inl ha)))
    have := Z.withTmp (A := A) (s := s) (body := subAssignBody zero conv same x ind e) (fun x hx => hx) (ZR.kept hk)
    show ZR A _ (Mach.subAssign zero conv same x ind e s)
    unfold Mach.subAssign
    rcases hm : Mach.withTmp (subAssignBody zero conv same x ind e) s with ⟨o, s'⟩
    rw [hm] at this
    cases o with
    | ub k => trivial
    | thr e => exact this
    | ok u =>
      refine Z.mono (show Z (fun x => (A x ∨ x = s.n) ∧ x ≠ s.n) s' from this) (fun x hx => ?_)
      rcases hx with ⟨hx | hx, hn⟩
      · exact Or.inl ⟨hx, by simp⟩
      · exact absurd hx hn
  | subAssignScalar x ind v => exact O (by simp) (KP.forN _ (fun i _ => Z.subSet (ht x rfl)))
  | setElem x i v => exact O (by simp) (Z.slot (ht x rfl))
  | resize x n => exact O (by simp) (Z.resize (ht x rfl))
  | fill x v => exact O (by simp) (Z.slot (ht x rfl))
  | fillVec x y => exact O (by simp) (KP.getB (fun s _ => Z.slot (ht x rfl)))
  | pushBack x v => exact O (by simp) (Z.slot (ht x rfl))
  | storeAssign x y => exact O (by simp) (KP.getB (fun s _ => Z.slot (ht x rfl)))
  | destroy x =>
    have hd := Z.destroy (A := A) (x := x) (s := s) (Z.mono h (fun y hy => Or.inl hy))
    have hn := destroy_no_thr (x := x) s trivial
    show ZR A _ (Mach.destroy x s)
    rcases hm : Mach.destroy x s with ⟨o, s'⟩
    rw [hm] at hd hn
    cases o with
    | ub k => trivial
    | thr e => exact absurd hn id
    | ok u =>
      refine Z.mono (show Z (fun y => A y ∧ y ≠ x) s' from hd) (fun y hy => Or.inl ⟨hy.1, ?_⟩)
      intro e
      injection e with e
      exact hy.2 e.symm

end Mach
end ETR
