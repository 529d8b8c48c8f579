import Verif.Lemmas.Blocks

/-! # The identifiers of new vectors, and which vectors borrow -/

namespace ETR
namespace Mach
variable {V α : Type} {k N : Nat} {B B' : Nat → Bool}

/-- At least `k` identifiers are in use, and those below `k` borrow as `B` says. -/
def NE (k : Nat) (B : Nat → Bool) (s : Mach V) : Prop := k ≤ s.n ∧ ∀ x, x < k → s.bor x = B x

/-- Exactly `k` identifiers are in use. -/
def NX (k : Nat) (B : Nat → Bool) (s : Mach V) : Prop := s.n = k ∧ s.bor = B

/-- What depends on the counter and the kinds only. -/
def CB (P : Mach V → Prop) : Prop := ∀ s s' : Mach V, s'.n = s.n → s'.bor = s.bor → P s → P s'

theorem NE.cb : CB (NE k B : Mach V → Prop) := fun s s' h1 h2 h => ⟨by rw [h1]; exact h.1, by rw [h2]; exact h.2⟩
theorem NX.cb : CB (NX k B : Mach V → Prop) := fun s s' h1 h2 h => ⟨by rw [h1]; exact h.1, by rw [h2]; exact h.2⟩

section
variable {P : Mach V → Prop} (hP : CB P)
include hP

theorem CB.slot {y : Slot} {m : SM V α} : KP P (Mach.onSlot y m) := by
  intro s h
  rw [onSlot_apply]
  rcases m (s.heap, s.st y) with ⟨o, st'⟩
  have : P (s.put y st') := hP s _ rfl rfl h
  cases o <;> first | exact this | trivial

theorem CB.fillTemp {zero : V} {conv : V → Out V} {t : Nat} {e : Expr V} : KP P (Mach.fillTemp zero conv t e) := by
  unfold Mach.fillTemp
  exact KP.getB (fun s _ => KP.bind (CB.slot hP) (fun _ => KP.forN _ (fun i _ =>
    KP.bind (KP.reads _) (fun v => KP.bind (KP.lift _) (fun w => CB.slot hP)))))

theorem CB.setDims {y : Nat} {e : Expr V} : KP P (Mach.setDims y e) := by
  unfold Mach.setDims
  exact KP.getB (fun s _ => KP.ite (fun _ => KP.bind (KP.lift _) (fun r => KP.bind (KP.lift _) (fun c => CB.slot hP))) (fun _ => KP.pure ()))

theorem CB.resize {zero : V} {y n : Nat} : KP P (Mach.resize zero y n) := by
  unfold Mach.resize
  exact KP.getB (fun s _ => KP.ite (fun _ => CB.slot hP) (fun _ => CB.slot hP))

theorem CB.subSet {y : Nat} {ind : List Nat} {pos : Nat} {v : V} : KP P (Mach.subSet y ind pos v) := by
  unfold Mach.subSet
  exact KP.getB (fun s _ => KP.bind (KP.lift _) (fun _ => KP.bind (KP.lift _) (fun _ => CB.slot hP)))

theorem CB.makeTemp {zero : V} {l : List V} {mp : MP} {t : Nat} : KP P (Mach.makeTemp zero l mp t) := by
  unfold Mach.makeTemp
  exact KP.bind (CB.slot hP) (fun _ => KP.bind (KP.forN _ (fun i _ => KP.bind (KP.lift _) (fun v => CB.slot hP))) (fun _ => CB.slot hP))

/-- The body of the constructor from an expression. -/
theorem CB.exprBody {conv : V → Out V} {zero : V} {e : Expr V} {x : Nat} : KP P (do
    let s ← M.get
    if (s.st (x, false)).sz < e.size s.env then
      onSlot (x, false) (Store.resize zero (e.size s.env))
    else
      onSlot (x, false) (Store.upd (fun d => { d with sz := e.size s.env }))
    let s ← M.get
    M.forN (s.st (x, false)).sz (fun i => do
      let v ← M.reads (fun s => e.el s.env i)
      let w ← M.lift (conv v)
      onSlot (x, false) (Store.set i w))
    Mach.setDims x e : M (Mach V) Unit) := by
  refine KP.getB (fun s _ => ?_)
  have tail : KP P (do
      let s ← M.get
      M.forN (s.st (x, false)).sz (fun i => do
        let v ← M.reads (fun s => e.el s.env i)
        let w ← M.lift (conv v)
        onSlot (x, false) (Store.set i w))
      Mach.setDims x e : M (Mach V) Unit) :=
    KP.getB (fun s _ => KP.bind (KP.forN _ (fun i _ => KP.bind (KP.reads _) (fun v => KP.bind (KP.lift _) (fun w => CB.slot hP))))
      (fun _ => CB.setDims hP))
  exact KP.ite (fun _ => KP.bind (CB.slot hP) (fun _ => tail)) (fun _ => KP.bind (CB.slot hP) (fun _ => tail))

/-- The operations that neither declare nor destroy. -/
theorem CB.plain {zero : V} {c : Cmd V} (hd : c.isDecl = false) (h1 : ∀ x, c ≠ .destroy x) (h2 : ∀ conv same x ind e, c ≠ .subAssign conv same x ind e) :
    KP P (exec zero c) := by
  cases c with
  | callerArray l => intro s h; exact hP s _ rfl rfl h
  | assign conv y e =>
    unfold exec Mach.assign
    refine KP.getB (fun s _ => KP.ite (fun _ => ?_) (fun _ => ?_))
    · unfold assignBorrow
      exact KP.getB (fun s _ => KP.bind (KP.ass _ _) (fun _ => KP.bind (CB.fillTemp hP) (fun _ => KP.getB (fun s _ =>
        KP.bind (KP.ass _ _) (fun _ => KP.bind (CB.slot hP) (fun _ => KP.getB (fun s _ => KP.bind
          (KP.forN _ (fun i _ => KP.bind (KP.reads _) (fun v => CB.slot hP))) (fun _ => CB.setDims hP))))))))
    · unfold assignBuffer
      exact KP.bind (CB.fillTemp hP) (fun _ => KP.bind (KP.modify (fun s h => hP s _ rfl rfl h)) (fun _ => CB.setDims hP))
  | assignScalar y v =>
    unfold exec Mach.assignScalar
    exact KP.getB (fun s _ => KP.ite (fun _ => KP.bind (CB.slot hP) (fun _ => CB.slot hP)) (fun _ => KP.bind (CB.slot hP) (fun _ => CB.slot hP)))
  | subAssign conv same y ind e => exact absurd rfl (h2 _ _ _ _ _)
  | subAssignScalar y ind v => exact KP.forN _ (fun i _ => CB.subSet hP)
  | setElem y i v => exact CB.slot hP
  | resize y n => exact CB.resize hP
  | fill y v => exact CB.slot hP
  | fillVec y z => exact KP.getB (fun s _ => CB.slot hP)
  | pushBack y v => exact CB.slot hP
  | storeAssign y z => exact KP.getB (fun s _ => CB.slot hP)
  | destroy y => exact absurd rfl (h1 _)
  | _ => cases hd

end

theorem NE.destroy {y : Nat} (hy : y < k → B y = false) : KP (NE k B) (Mach.destroy y : M (Mach V) Unit) := by
  unfold Mach.destroy
  have fin : KP (NE k B) (M.modify (fun s : Mach V => { s with
      st := fun z => if z.1 = y then {} else s.st z
      bor := fun z => if z = y then false else s.bor z })) := by
    refine KP.modify (fun s h => ⟨h.1, fun x hx => ?_⟩)
    show (if x = y then false else s.bor x) = B x
    split
    · rename_i e; rw [e, hy (by omega)]
    · exact h.2 x hx
  exact KP.bind (CB.slot NE.cb) (fun _ => KP.getB (fun s _ => KP.ite
    (fun _ => KP.bind (CB.slot NE.cb) (fun _ => fin)) (fun _ => fin)))

theorem NX.destroy {y : Nat} (hy : B y = false) : KP (NX k B) (Mach.destroy y : M (Mach V) Unit) := by
  unfold Mach.destroy
  have fin : KP (NX k B) (M.modify (fun s : Mach V => { s with
      st := fun z => if z.1 = y then {} else s.st z
      bor := fun z => if z = y then false else s.bor z })) := by
    refine KP.modify (fun s h => ⟨h.1, funext fun x => ?_⟩)
    show (if x = y then false else s.bor x) = B x
    split
    · rename_i e; rw [e, hy]
    · rw [h.2]
  exact KP.bind (CB.slot NX.cb) (fun _ => KP.getB (fun s _ => KP.ite
    (fun _ => KP.bind (CB.slot NX.cb) (fun _ => fin)) (fun _ => fin)))

theorem NE.failed {y : Nat} {e : String} (hy : y < k → B y = false) : KP (NE k B) (Mach.destroy y >>= fun _ => M.lift (.thr e) : M (Mach V) Unit) :=
  KP.bind (NE.destroy hy) (fun _ => KP.lift _)

theorem NE.decl {body : Nat → M (Mach V) Unit} (h : ∀ x, k ≤ x → KP (NE k B) (body x)) : KP (NE k B) (Mach.decl body) := by
  intro s hs
  have h := h s.n hs.1 { s with n := s.n + 1 } ⟨Nat.le_succ_of_le hs.1, hs.2⟩
  unfold Mach.decl
  rcases hm : body s.n { s with n := s.n + 1 } with ⟨o, s'⟩
  rw [hm] at h
  cases o with
  | ub k => trivial
  | ok u => exact h
  | thr e => exact NE.failed (fun hy => absurd hs.1 (by omega)) s' h

theorem NE.withTmp {body : Nat → M (Mach V) Unit} (h : ∀ x, k ≤ x → KP (NE k B) (body x)) : KP (NE k B) (Mach.withTmp body) := by
  intro s hs
  have h := h s.n hs.1 { s with n := s.n + 1 } ⟨Nat.le_succ_of_le hs.1, hs.2⟩
  unfold Mach.withTmp
  rcases hm : body s.n { s with n := s.n + 1 } with ⟨o, s'⟩
  rw [hm] at h
  cases o with
  | ub k => trivial
  | ok u => exact NE.destroy (fun hy => absurd hs.1 (by omega)) s' h
  | thr e => exact NE.failed (fun hy => absurd hs.1 (by omega)) s' h

/-- No operation but the destruction changes whether an existing vector borrows. -/
theorem exec_NE {zero : V} {c : Cmd V} (hc : ∀ x, c = .destroy x → x < k → B x = false) : KP (NE k B) (exec zero c) := by
  have S : ∀ {α : Type} {y : Slot} {m : SM V α}, KP (NE k B) (Mach.onSlot y m) := CB.slot NE.cb
  have M1 : ∀ {f : Mach V → Mach V} {y : Nat} {b : Bool}, k ≤ y → (∀ s, (f s).n = s.n) → (∀ s z, (f s).bor z = if z = y then b else s.bor z) →
      KP (NE k B) (M.modify f) := by
    intro f y b hy h1 h2
    refine KP.modify (fun s h => ⟨by rw [h1]; exact h.1, fun x hx => ?_⟩)
    rw [h2, if_neg (by omega)]; exact h.2 x hx
  cases c with
  | declDefault =>
    unfold exec Mach.declDefault
    exact NE.decl (fun _ _ => KP.pure ())
  | declSize n =>
    unfold exec Mach.declSize
    exact NE.decl (fun _ _ => S)
  | declScalar v =>
    unfold exec Mach.declScalar
    exact NE.decl (fun _ _ => KP.bind S (fun _ => S))
  | declMat r c =>
    unfold exec Mach.declMat
    exact NE.decl (fun _ _ => KP.bind S (fun _ => S))
  | declMatVal r c v =>
    unfold exec Mach.declMatVal
    exact NE.decl (fun _ _ => KP.bind S (fun _ => KP.bind S (fun _ => S)))
  | declCopy y =>
    unfold exec Mach.declCopy
    refine NE.decl (fun x hx => KP.getB (fun s _ => KP.ite
      (fun _ => KP.bind (M1 (y := x) (b := true) hx ?_ ?_) (fun _ => S)) (fun _ => KP.bind S (fun _ => S))))
    · exact fun _ => rfl
    · exact fun _ _ => rfl
  | declExpr conv e =>
    unfold exec Mach.declExpr
    exact NE.decl (fun x _ => CB.exprBody NE.cb)
  | declTemp l mp =>
    unfold exec Mach.declTemp
    refine NE.withTmp (fun x hx => KP.bind (CB.makeTemp NE.cb) (fun _ => NE.decl (fun y hy => ?_)))
    exact KP.modify (fun s h => NE.cb s _ rfl rfl h)
  | declPtr p n =>
    unfold exec Mach.declPtr
    exact NE.decl (fun _ _ => KP.bind S (fun _ => KP.bind (KP.forN _ (fun i _ => KP.bind (KP.reads _) (fun v => S))) (fun _ => S)))
  | declBorrow p n =>
    unfold exec Mach.declBorrow
    refine NE.decl (fun x hx => M1 (y := x) (b := true) hx ?_ ?_)
    · exact fun _ => rfl
    · exact fun _ _ => rfl
  | subAssign conv same y ind e =>
    unfold exec Mach.subAssign
    refine NE.withTmp (fun x _ => ?_)
    have loop : ∀ t, KP (NE k B) (M.forN ind.length (fun i => do
        let v ← M.reads (fun s : Mach V => (s.st (t, true)).get s.heap i)
        Mach.subSet y ind (i % ind.length) v)) := fun t =>
      KP.forN _ (fun i _ => KP.bind (KP.reads _) (fun v => CB.subSet NE.cb))
    unfold Mach.subAssignBody
    exact KP.getB (fun s _ => KP.bind (KP.ass _ _) (fun _ => KP.bind (CB.fillTemp NE.cb) (fun _ => KP.getB (fun s _ => KP.ite
      (fun _ => KP.bind (CB.resize NE.cb) (fun _ => loop _)) (fun _ => loop _)))))
  | destroy y => exact NE.destroy (hc y rfl)
  | _ => exact CB.plain NE.cb rfl (fun _ => by simp) (fun _ _ _ _ _ => by simp)

/-- A new vector borrows if it is declared so, or if it is a copy of one that borrows. -/
def borrows (s : Mach V) : Cmd V → Bool
  | .declBorrow _ _ => true
  | .declCopy y => s.bor y
  | _ => false

theorem NX.decl {body : Nat → M (Mach V) Unit} {s s' : Mach V} (hs : NX (N + 1) B { s with n := s.n + 1 })
    (h : Tr (NX (N + 1) B) (body N) (fun _ => NX (N + 1) B') (fun _ => True)) (e : Mach.decl body s = (.ok (), s')) : NX (N + 1) B' s' := by
  have h := h _ hs
  have hn : s.n = N := by have := hs.1; simpa using this
  unfold Mach.decl at e
  rw [← hn] at h
  rcases hm : body s.n { s with n := s.n + 1 } with ⟨o, s1⟩
  rw [hm] at h e
  cases o with
  | ub k => cases e
  | ok u => cases e; rw [← hn]; exact h
  | thr m =>
    simp only [M.bind_apply] at e
    rcases hd : Mach.destroy s.n s1 with ⟨o, s2⟩
    rw [hd] at e
    cases o <;> cases e

/-- The number of identifiers in use. -/
def NC (k : Nat) (s : Mach V) : Prop := s.n = k

theorem NC.cb : CB (NC k : Mach V → Prop) := fun s s' h1 _ h => by unfold NC at *; rw [h1]; exact h

theorem NC.destroy {y : Nat} : KP (NC k) (Mach.destroy y : M (Mach V) Unit) := by
  unfold Mach.destroy
  exact KP.bind (CB.slot NC.cb) (fun _ => KP.getB (fun s _ => KP.ite
    (fun _ => KP.bind (CB.slot NC.cb) (fun _ => KP.modify (fun s h => h))) (fun _ => KP.modify (fun s h => h))))

theorem NC.decl {body : Nat → M (Mach V) Unit} (h : ∀ x, KP (NC (k + 1)) (body x)) :
    Tr (NC k) (Mach.decl body) (fun _ => NC (k + 1)) (fun _ => True) := by
  intro s hs
  have h := h s.n { s with n := s.n + 1 } (by show s.n + 1 = k + 1; rw [hs])
  unfold Mach.decl
  rcases hm : body s.n { s with n := s.n + 1 } with ⟨o, s'⟩
  rw [hm] at h
  cases o with
  | ub k => trivial
  | ok u => exact h
  | thr e =>
    simp only [M.bind_apply]
    rcases Mach.destroy s.n s' with ⟨o, s2⟩
    cases o <;> trivial

/-- A declaration takes a new identifier, which is the last one. -/
theorem exec_count {zero : V} {c : Cmd V} {s s' : Mach V} (hd : c.isDecl = true) (e : exec zero c s = (.ok (), s')) :
    s'.n = newId s c + 1 := by
  have S : ∀ {α : Type} {k : Nat} {y : Slot} {m : SM V α}, KP (NC k) (Mach.onSlot y m) := CB.slot NC.cb
  have D : ∀ {body : Nat → M (Mach V) Unit}, (∀ x, KP (NC (s.n + 1)) (body x)) → Mach.decl body s = (.ok (), s') → s'.n = s.n + 1 := by
    intro body h e
    have := NC.decl h s rfl
    rw [e] at this
    exact this
  cases c with
  | declDefault => exact D (fun _ => KP.pure ()) e
  | declSize n => exact D (body := fun x => onSlot (x, false) (Store.ctorSize zero n)) (fun _ => S) e
  | declScalar v => unfold exec Mach.declScalar at e; exact D (fun _ => KP.bind S (fun _ => S)) e
  | declMat r c => unfold exec Mach.declMat at e; exact D (fun _ => KP.bind S (fun _ => S)) e
  | declMatVal r c v => unfold exec Mach.declMatVal at e; exact D (fun _ => KP.bind S (fun _ => KP.bind S (fun _ => S))) e
  | declCopy y =>
    have e : Mach.declCopy y s = (.ok (), s') := e
    unfold Mach.declCopy at e
    refine D ?_ e
    exact fun _ => KP.getB (fun s _ => KP.ite (fun _ => KP.bind (KP.modify (fun s h => h)) (fun _ => S)) (fun _ => KP.bind S (fun _ => S)))
  | declExpr conv e' => unfold exec Mach.declExpr at e; exact D (fun _ => CB.exprBody NC.cb) e
  | declTemp l mp =>
    have e : Mach.declTemp zero l mp s = (.ok (), s') := e
    unfold Mach.declTemp at e
    have h1 : Tr (NC (s.n + 1)) (do Mach.makeTemp zero l mp s.n; Mach.decl (fun y => Mach.stealTemp s.n y)) (fun _ => NC (s.n + 1 + 1)) (fun _ => True) :=
      Tr.bind (R := fun _ => NC (s.n + 1)) ((CB.makeTemp NC.cb).tr.mono (fun _ h => h) (fun _ _ h => h) (fun _ _ => trivial))
        (fun _ => NC.decl (body := fun y => Mach.stealTemp s.n y) (fun _ => KP.modify (fun s h => h)))
    have h1 := h1 s.bump rfl
    rcases hm : (do Mach.makeTemp zero l mp s.n; Mach.decl (fun y => Mach.stealTemp s.n y)) s.bump with ⟨o, s1⟩
    rw [hm] at h1
    cases o with
    | ub k => rw [withTmp_ub (by exact hm)] at e; cases e
    | thr m =>
      rw [withTmp_thr (by exact hm), M.bind_apply] at e
      rcases hd : Mach.destroy s.n s1 with ⟨o, s2⟩
      rw [hd] at e
      cases o <;> cases e
    | ok a =>
      rw [withTmp_ok (by exact hm)] at e
      have h3 := NC.destroy (k := s.n + 1 + 1) (y := s.n) s1 h1
      rw [e] at h3
      exact h3
  | declPtr p n =>
    unfold exec Mach.declPtr at e
    exact D (fun _ => KP.bind S (fun _ => KP.bind (KP.forN _ (fun i _ => KP.bind (KP.reads _) (fun v => S))) (fun _ => S))) e
  | declBorrow p n =>
    have e : Mach.declBorrow p n s = (.ok (), s') := e
    unfold Mach.declBorrow at e
    refine D ?_ e
    exact fun _ => KP.modify (fun s h => h)
  | _ => cases hd

theorem newId_le {s : Mach V} {c : Cmd V} : s.n ≤ newId s c := by
  cases c <;> simp [newId]

/-- The vector that a declaration makes. -/
theorem exec_new {zero : V} {c : Cmd V} {s s' : Mach V} (hd : c.isDecl = true) (hb : ∀ x, s.n ≤ x → s.bor x = false) (e : exec zero c s = (.ok (), s')) :
    s'.n = newId s c + 1 ∧ s'.bor (newId s c) = borrows s c := by
  have S : ∀ {α : Type} {k : Nat} {B : Nat → Bool} {y : Slot} {m : SM V α}, KP (NX k B) (Mach.onSlot y m) := CB.slot NX.cb
  have h0 : NX (s.n + 1) s.bor ({ s with n := s.n + 1 } : Mach V) := ⟨rfl, rfl⟩
  have T : ∀ {m : M (Mach V) Unit}, KP (NX (s.n + 1) s.bor) m → Tr (NX (s.n + 1) s.bor) m (fun _ => NX (s.n + 1) s.bor) (fun _ => True) :=
    fun h => h.tr.mono (fun _ h => h) (fun _ _ h => h) (fun _ _ => trivial)
  have D : ∀ {body : Nat → M (Mach V) Unit}, KP (NX (s.n + 1) s.bor) (body s.n) → newId s c = s.n → borrows s c = false →
      Mach.decl body s = (.ok (), s') → s'.n = newId s c + 1 ∧ s'.bor (newId s c) = borrows s c := by
    intro body h h1 h2 e
    have := NX.decl h0 (T h) e
    rw [h1, h2]
    exact ⟨this.1, by rw [this.2]; exact hb _ (le_refl _)⟩
  cases c with
  | declDefault =>
    unfold exec Mach.declDefault at e
    exact D (KP.pure ()) rfl rfl e
  | declSize n =>
    unfold exec Mach.declSize at e
    exact D S rfl rfl e
  | declScalar v =>
    unfold exec Mach.declScalar at e
    exact D (KP.bind S (fun _ => S)) rfl rfl e
  | declMat r c =>
    unfold exec Mach.declMat at e
    exact D (KP.bind S (fun _ => S)) rfl rfl e
  | declMatVal r c v =>
    unfold exec Mach.declMatVal at e
    exact D (KP.bind S (fun _ => KP.bind S (fun _ => S))) rfl rfl e
  | declCopy y =>
    have e : Mach.declCopy y s = (.ok (), s') := e
    unfold Mach.declCopy at e
    have := NX.decl (B' := fun z => if z = s.n then s.bor y else s.bor z) h0 (fun t ht => ?_) e
    · exact ⟨this.1, by rw [this.2]; simp [newId, borrows]⟩
    · have second : ∀ (o : Store), Tr (NX (s.n + 1) fun z => if z = s.n then s.bor y else s.bor z) (onSlot (s.n, true) (Store.copyCtor o) : M (Mach V) Unit)
          (fun _ => NX (s.n + 1) fun z => if z = s.n then s.bor y else s.bor z) (fun _ => True) :=
        fun o => S.tr.mono (fun _ h => h) (fun _ _ h => h) (fun _ _ => trivial)
      rw [M.bind_ok (M.get_apply _)]
      by_cases hy : t.bor y = true
      · rw [if_pos hy, M.bind_ok (M.modify_apply _ _)]
        refine second _ _ ⟨ht.1, ?_⟩
        show (fun z => if z = s.n then true else t.bor z) = _
        rw [ht.2] at hy ⊢
        rw [hy]
      · rw [if_neg hy]
        have hB : s.bor = fun z => if z = s.n then s.bor y else s.bor z := by
          rw [ht.2] at hy
          funext z
          split
          · rename_i hz; rw [hz, hb _ (le_refl _)]; simpa using (Bool.eq_false_iff.mpr hy).symm
          · rfl
        rw [hB] at ht
        exact Tr.bind (R := fun _ => NX (s.n + 1) fun z => if z = s.n then s.bor y else s.bor z)
          (S.tr.mono (fun _ h => h) (fun _ _ h => h) (fun _ _ => trivial)) (fun _ => second _) t ht
  | declExpr conv e' =>
    unfold exec Mach.declExpr at e
    exact D (CB.exprBody NX.cb) rfl rfl e
  | declTemp l mp =>
    unfold exec Mach.declTemp Mach.withTmp at e
    have h1 : KP (NX (s.n + 1) s.bor) (Mach.makeTemp zero l mp s.n) := CB.makeTemp NX.cb
    have h1 := h1 _ h0
    simp only [M.bind_apply] at e
    rcases hm : Mach.makeTemp zero l mp s.n { s with n := s.n + 1 } with ⟨o, s1⟩
    rw [hm] at h1 e
    have bad : ∀ {m : String} {s2 : Mach V}, (Mach.destroy s.n >>= fun _ => M.lift (.thr m) : M (Mach V) Unit) s2 = (.ok (), s') → False := by
      intro m s2 e
      rw [M.bind_apply] at e
      rcases hd : Mach.destroy s.n s2 with ⟨o, s3⟩
      rw [hd] at e
      cases o <;> cases e
    cases o with
    | ub k => cases e
    | thr m => exact (bad e).elim
    | ok a =>
      simp only [] at e
      rcases hd : Mach.decl (fun y => Mach.stealTemp s.n y) s1 with ⟨o, s2⟩
      rw [hd] at e
      cases o with
      | ub k => cases e
      | thr m => exact (bad e).elim
      | ok a =>
        have h2 := NX.decl (N := s.n + 1) (B := s.bor) (B' := s.bor) (body := fun y => Mach.stealTemp s.n y) ⟨by show s1.n + 1 = _; rw [h1.1], h1.2⟩
          (fun t ht => ⟨ht.1, ht.2⟩) hd
        have h3 := NX.destroy (B := s.bor) (y := s.n) (hb _ (le_refl _)) s2 h2
        rw [show Mach.destroy s.n s2 = (.ok (), s') from e] at h3
        exact ⟨h3.1, by rw [h3.2]; exact hb _ (by simp [newId])⟩
  | declPtr p n =>
    unfold exec Mach.declPtr at e
    exact D (KP.bind S (fun _ => KP.bind (KP.forN _ (fun i _ => KP.bind (KP.reads _) (fun v => S))) (fun _ => S))) rfl rfl e
  | declBorrow p n =>
    have e : Mach.declBorrow p n s = (.ok (), s') := e
    unfold Mach.declBorrow at e
    have := NX.decl (B' := fun z => if z = s.n then true else s.bor z) h0 (fun t ht => ?_) e
    · exact ⟨this.1, by rw [this.2]; simp [newId, borrows]⟩
    · refine ⟨ht.1, ?_⟩
      show (fun x => if x = s.n then true else t.bor x) = _
      rw [ht.2]
  | _ => cases hd

end Mach
end ETR
