import Verif.Spec.DerivPlain
import Verif.Lemmas.DerivAny
import Verif.Lemmas.Alone

/-! C116: recording derivatives does not change the values. -/

namespace ETR
namespace Deriv
open Spec DExpr AV

/-- A number of type `bool` or `double`. -/
def KindIs (b : Bool) : Scal → Prop
  | .d _ => b = false
  | .b _ => b = true
  | .i _ => False

/-- The operators of `DArith.f64`, which do not depend on the functions of the C library. -/
abbrev numOp : Bool → DOp → F64 → F64 → F64 := (DArith.f64 (fun x _ => x) id id).op

theorem op_num (pow : F64 → Nat → F64) (sin cos : F64 → F64) (b : Bool) (op : DOp) (x y : F64) :
    (DArith.f64 pow sin cos).op b op x y = numOp b op x y := by cases op <;> rfl

def good (o : Out Scal) (k : Bool) (z : F64) : Bool :=
  match o with
  | .ok r => (match r with
    | .d _ => !k
    | .b _ => k
    | .i _ => false) && decide (r.toD = z)
  | _ => false

theorem good_spec {o : Out Scal} {k : Bool} {z : F64} (h : good o k z = true) : ∃ r, o = .ok r ∧ KindIs k r ∧ r.toD = z := by
  cases o with
  | ok r =>
    refine ⟨r, rfl, ?_⟩
    cases r <;> simp [good, KindIs] at h ⊢ <;> exact h
  | thr m => cases h
  | ub u => cases h

theorem ofInt_ite (v : Bool) : F64.ofInt (if v then 1 else 0) = if v then F64.ofInt 1 else F64.ofInt 0 := by
  cases v <;> simp

attribute [local irreducible] F64.ofInt F64.rnd in
theorem op_plain (pow : F64 → Nat → F64) (sin cos : F64 → F64) (op : DOp) {b c : Bool} {x y : Scal} (hx : KindIs b x) (hy : KindIs c y) :
    ∃ r, (plainOp op).f x y = .ok r ∧ KindIs (op.isCmp || (op != .div && b && c)) r ∧
      r.toD = (DArith.f64 pow sin cos).op (b && c) op x.toD y.toD := by
  rw [op_num]
  cases x with
  | i n => cases hx
  | b u =>
    obtain rfl : b = true := hx
    cases y with
    | i n => cases hy
    | b v =>
      obtain rfl : c = true := hy
      refine good_spec ?_
      cases op <;> cases u <;> cases v <;> decide +kernel
    | d w =>
      obtain rfl : c = false := hy
      cases op
      · exact ⟨_, rfl, rfl, rfl⟩
      · exact ⟨_, rfl, rfl, rfl⟩
      · exact ⟨_, rfl, rfl, rfl⟩
      · exact ⟨_, rfl, rfl, rfl⟩
      all_goals exact ⟨_, rfl, rfl, ofInt_ite _⟩
  | d z =>
    obtain rfl : b = false := hx
    cases y with
    | i n => cases hy
    | b v =>
      obtain rfl : c = true := hy
      cases op
      · exact ⟨_, rfl, rfl, rfl⟩
      · exact ⟨_, rfl, rfl, rfl⟩
      · exact ⟨_, rfl, rfl, rfl⟩
      · exact ⟨_, rfl, rfl, rfl⟩
      all_goals exact ⟨_, rfl, rfl, ofInt_ite _⟩
    | d w =>
      obtain rfl : c = false := hy
      cases op
      · exact ⟨_, rfl, rfl, rfl⟩
      · exact ⟨_, rfl, rfl, rfl⟩
      · exact ⟨_, rfl, rfl, rfl⟩
      · exact ⟨_, rfl, rfl, rfl⟩
      all_goals exact ⟨_, rfl, rfl, ofInt_ite _⟩

theorem plain_notScal (sin : F64 → F64) (E : Vals F64) (e : DExpr) : (plainOf sin E e).isScal = false := by cases e <;> rfl

theorem plain_size {s : AV F64} {E : Vals F64} (hc : ∀ c, (s.con c).Is (E.con c)) (hv : ∀ x, (s.val x).Is (E.var x)) (sin : F64 → F64)
    (e : DExpr) : (plainOf sin E e).size nowhere = e.size s := by
  induction e with
  | con c => exact (List.length_map _).trans (hc c).1.symm
  | var x => exact (List.length_map _).trans (hv x).1.symm
  | bin op l r hl hr =>
    show (if (plainOf sin E l).isScal ∧ (plainOf sin E r).isScal then 1 else if (plainOf sin E r).isScal then _ else
      if (plainOf sin E l).isScal then _ else if (plainOf sin E l).size nowhere > (plainOf sin E r).size nowhere then _ else _) = _
    rw [plain_notScal, plain_notScal, hl, hr]
    simp only [Bool.false_eq_true, and_self, if_false]
    rfl
  | sin e h => exact h

theorem plain_elem (pow : F64 → Nat → F64) (sin cos : F64 → F64) {s : AV F64} {E : Vals F64} (hc : ∀ c, (s.con c).Is (E.con c))
    (hv : ∀ x, (s.val x).Is (E.var x)) (e : DExpr) : ∀ i, i < e.size s →
    (∃ v, (plainOf sin E e).el nowhere i = .ok v ∧ KindIs e.boolAt v ∧ e.elem (DArith.f64 pow sin cos) s i = .ok v.toD) ∨
    ((plainOf sin E e).el nowhere i = .ub .modZero ∧ e.elem (DArith.f64 pow sin cos) s i = .ub .modZero) := by
  induction e with
  | con c =>
    intro i hi
    have hi : i < (E.con c).length := by rw [← (hc c).1]; exact hi
    refine .inl ⟨.d (E.con c)[i], ?_, rfl, (hc c).2 i hi⟩
    simp [plainOf, Expr.el, getL, hi]
  | var x =>
    intro i hi
    have hi : i < (E.var x).length := by rw [← (hv x).1]; exact hi
    refine .inl ⟨.d (E.var x)[i], ?_, rfl, (hv x).2 i hi⟩
    simp [plainOf, Expr.el, getL, hi]
  | bin op l r hl hr =>
    intro i _
    simp only [plainOf, Expr.el, plain_notScal, posOf, DExpr.elem, plain_size hc hv]
    simp only [Bool.false_eq_true, if_false, modz, modIdx]
    by_cases h1 : l.size s = 0
    · exact .inr (by simp [h1])
    rw [if_neg h1]
    rcases hl (i % l.size s) (Nat.mod_lt _ (Nat.pos_of_ne_zero h1)) with ⟨v, e1, k1, e2⟩ | ⟨e1, e2⟩
    · simp only [Out.ok_bind, e1, e2]
      by_cases h2 : r.size s = 0
      · exact .inr (by simp [h2])
      rw [if_neg h2]
      rcases hr (i % r.size s) (Nat.mod_lt _ (Nat.pos_of_ne_zero h2)) with ⟨w, e3, k3, e4⟩ | ⟨e3, e4⟩
      · simp only [Out.ok_bind, e3, e4]
        obtain ⟨q, q1, q2, q3⟩ := op_plain pow sin cos op k1 k3
        exact .inl ⟨q, q1, q2, by rw [q3]; rfl⟩
      · exact .inr (by simp [e3, e4])
    · exact .inr (by simp [e1, e2])
  | sin e he =>
    intro i _
    simp only [plainOf, Expr.el, plain_notScal, posOf, DExpr.elem, plain_size hc hv]
    simp only [Bool.false_eq_true, if_false, modz, modIdx]
    by_cases h1 : e.size s = 0
    · exact .inr (by simp [h1])
    rw [if_neg h1]
    rcases he (i % e.size s) (Nat.mod_lt _ (Nat.pos_of_ne_zero h1)) with ⟨v, e1, k1, e2⟩ | ⟨e1, e2⟩
    · simp only [Out.ok_bind, e1, e2]
      exact .inl ⟨_, rfl, rfl, rfl⟩
    · exact .inr (by simp [e1, e2])

/-- Values of variables and constants. -/
def vc (s : AV F64) : (DVar → Buf F64) × (Nat → Buf F64) := (s.val, s.con)

/-- `m` changes neither values nor constants. -/
def KeepsVC {α : Type} (m : M (AV F64) α) : Prop := ∀ s, vc (m s).2 = vc s

theorem KeepsVC.bind {α β : Type} {m : M (AV F64) α} {f : α → M (AV F64) β} (h : KeepsVC m) (hf : ∀ a, KeepsVC (f a)) :
    KeepsVC (m >>= f) := by
  intro s
  have h1 := h s
  show vc (M.bind m f s).2 = vc s
  unfold M.bind
  revert h1
  rcases m s with ⟨o, s1⟩
  intro h1
  cases o with
  | ok a => exact (hf a s1).trans h1
  | thr _ => exact h1
  | ub _ => exact h1

theorem KeepsVC.pure {α : Type} (a : α) : KeepsVC (Pure.pure a : M (AV F64) α) := fun _ => rfl

theorem KeepsVC.reads {α : Type} (f : AV F64 → Out α) : KeepsVC (M.reads f) := fun s => by rw [M.reads_apply]

theorem KeepsVC.forN {f : Nat → M (AV F64) Unit} (n : Nat) (h : ∀ i, KeepsVC (f i)) : KeepsVC (M.forN n f) := by
  induction n with
  | zero => exact KeepsVC.pure ()
  | succ n ih => exact KeepsVC.bind ih (fun _ => h n)

theorem andThen {α β : Type} {m : M (AV F64) α} {f : α → M (AV F64) β} {s s' : AV F64} {b : β} (h : (m >>= f) s = (.ok b, s')) :
    ∃ a s1, m s = (.ok a, s1) ∧ f a s1 = (.ok b, s') := by
  have h0 : M.bind m f s = (.ok b, s') := h
  unfold M.bind at h0
  revert h0
  rcases m s with ⟨o, s1⟩
  intro h0
  cases o with
  | ok a => exact ⟨a, s1, rfl, h0⟩
  | thr _ => cases h0
  | ub _ => cases h0

theorem pres_vc_onDer {α : Type} (x : DVar) (m : M (Buf F64) α) : KeepsVC (onDer x m) := fun _ => rfl

theorem pres_vc_varDeriv (A : DArith F64) (x : DVar) (i : Nat) : KeepsVC (varDeriv A x i) := by
  unfold varDeriv
  refine KeepsVC.bind (fun _ => rfl) fun s => ?_
  have h : KeepsVC (M.reads (fun s : AV F64 => leafVal (s.der x) i)) := KeepsVC.reads _
  split
  · refine KeepsVC.bind (pres_vc_onDer x _) fun _ => ?_
    split
    · exact KeepsVC.bind (pres_vc_onDer x _) fun _ => h
    · exact h
  · exact h

theorem pres_vc_getDeriv (A : DArith F64) (e : DExpr) : ∀ i, KeepsVC (e.getDeriv A i) := by
  induction e with
  | con c => intro i; exact KeepsVC.pure _
  | var x => intro i; exact pres_vc_varDeriv A x i
  | bin op l r hl hr =>
    intro i
    cases op with
    | add => exact KeepsVC.bind (hl i) fun _ => KeepsVC.bind (hr i) fun _ => KeepsVC.pure _
    | sub => exact KeepsVC.bind (hl i) fun _ => KeepsVC.bind (hr i) fun _ => KeepsVC.pure _
    | mul => exact KeepsVC.bind (KeepsVC.reads _) fun _ => KeepsVC.bind (KeepsVC.reads _) fun _ => KeepsVC.bind (hl i) fun _ => KeepsVC.bind (hr i) fun _ => KeepsVC.pure _
    | div =>
      refine KeepsVC.bind (KeepsVC.reads _) fun _ => KeepsVC.bind (KeepsVC.reads _) fun _ => KeepsVC.bind (hl i) fun _ => KeepsVC.bind (hr i) fun _ => ?_
      split <;> exact KeepsVC.pure _
    | _ => exact KeepsVC.bind (hl i) fun _ => KeepsVC.bind (hr i) fun _ => KeepsVC.pure _
  | sin e he =>
    intro i
    unfold getDeriv
    split
    · exact KeepsVC.bind (KeepsVC.reads _) fun _ => KeepsVC.pure _
    · exact KeepsVC.bind (he i) fun _ => KeepsVC.pure _

theorem resize_room {T : Type} {zero : T} {n : Nat} {b b' : Buf T} (h : Buf.resize zero n b = (.ok (), b')) :
    b'.Room n ∧ 1 ≤ n ∧ (b.Room n → b' = b) := by
  unfold Buf.resize at h
  by_cases h1 : n < 1
  · rw [if_pos h1] at h; cases h
  rw [if_neg h1] at h
  by_cases h2 : b.allocated = true ∧ n ≤ b.cells.length
  · rw [if_pos h2] at h
    cases h
    refine ⟨⟨h2.1, rfl, h2.2⟩, by omega, fun hr => ?_⟩
    have := hr.sz
    cases b; cases this; rfl
  · rw [if_neg h2] at h
    split at h
    · rename_i c hc
      split at h
      · cases h
      · split at h
        · cases h
        · cases h
          refine ⟨⟨rfl, rfl, ?_⟩, by omega, fun hr => absurd ⟨hr.al, hr.cap⟩ h2⟩
          simp
    · cases h
    · cases h

theorem onVal_inv {T α : Type} {s s' : AV T} {x : DVar} {m : M (Buf T) α} {a : α} (h : onVal x m s = (.ok a, s')) :
    ∃ b, m (s.val x) = (.ok a, b) ∧ s' = s.putVal x b := by
  have := onVal_put s x m (s.val x)
  rw [putVal_self, h] at this
  obtain ⟨h1, h2⟩ := Prod.mk.inj this
  exact ⟨(m (s.val x)).2, Prod.ext h1.symm rfl, h2⟩

theorem onCon_inv {T α : Type} {s s' : AV T} {x : Nat} {m : M (Buf T) α} {a : α} (h : onCon x m s = (.ok a, s')) :
    ∃ b, m (s.con x) = (.ok a, b) ∧ s' = s.putCon x b := by
  have := onCon_put s x m (s.con x)
  rw [putCon_self, h] at this
  obtain ⟨h1, h2⟩ := Prod.mk.inj this
  exact ⟨(m (s.con x)).2, Prod.ext h1.symm rfl, h2⟩

theorem is_mp {T : Type} {b : Buf T} {l : List T} (h : b.Is l) (mp : MP) : Buf.Is { b with mp := mp } l := h

/-- The variable `x` has the value `l`, all others have kept theirs. -/
structure Wrote (s s' : AV F64) (x : DVar) (l : List F64) : Prop where
  here : (s'.val x).Is l
  others : ∀ y, y ≠ x → s'.val y = s.val y
  con : s'.con = s.con

theorem Wrote.keep {s s1 s' : AV F64} {x : DVar} {l : List F64} (h : Wrote s s1 x l) (hk : vc s' = vc s1) : Wrote s s' x l := by
  obtain ⟨h1, h2⟩ := Prod.mk.inj hk
  exact ⟨by rw [show s'.val = s1.val from h1]; exact h.here, fun y hy => by rw [show s'.val = s1.val from h1]; exact h.others y hy,
    Eq.trans h2 h.con⟩

theorem Wrote.dims {s s1 s' : AV F64} {x : DVar} {l : List F64} {e : DExpr} (h : Wrote s s1 x l) (hk : setDims x e s1 = (.ok (), s')) :
    Wrote s s' x l := by
  rw [setDims, M.bind_ok (M.get_apply s1)] at hk
  split at hk
  · obtain ⟨r, s2, e2, hk2⟩ := andThen hk
    obtain ⟨c, s3, e3, hk3⟩ := andThen hk2
    have a2 : s2 = s1 := by rw [M.lift_apply] at e2; exact (Prod.mk.inj e2).2.symm
    have a3 : s3 = s2 := by rw [M.lift_apply] at e3; exact (Prod.mk.inj e3).2.symm
    subst a3 a2
    obtain ⟨b, hb, rfl⟩ := onVal_inv hk3
    cases hb
    refine ⟨?_, fun y hy => ?_, h.con⟩
    · show Buf.Is (if x = x then _ else _) l
      rw [if_pos rfl]
      exact h.here
    · rw [val_putVal_ne _ _ hy]
      exact h.others y hy
  · cases hk
    exact h

theorem is_congr_cells {b : Buf F64} {n : Nat} {f : Nat → F64} {l : List F64} (hl : l.length = n) (hr : b.Room n)
    (h : ∀ i, i < n → b.cells[i]? = some (some (f i))) (hf : ∀ i (hi : i < l.length), f i = l[i]) : b.Is l := by
  subst hl
  refine Buf.is_of_cells hr ?_
  intro i hi
  rw [h i hi, hf i hi]

theorem assignCon_plain {A : DArith F64} {s s' : AV F64} {j c : Nat} {l : List F64} (hc : (s.con c).Is l)
    (h : assignCon A (.buffer, j) c s = (.ok (), s')) : Wrote s s' (.buffer, j) l := by
  unfold assignCon at h
  rw [M.bind_ok (M.get_apply s), hc.1] at h
  obtain ⟨_, s1, e1, h1⟩ := andThen h
  obtain ⟨b, hb, rfl⟩ := onVal_inv (show onVal (.buffer, j) (Buf.resize (A.lit 0) l.length) s = _ from e1)
  obtain ⟨hr, _, _⟩ := resize_room hb
  obtain ⟨bv, ev, rv, mv, hv⟩ := loop_set (put := s.putVal (.buffer, j)) (on := onVal (.buffer, j))
    (fun m b => onVal_put s (.buffer, j) m b) (m := fun i => M.reads (fun s => (s.con c).get i))
    (f := fun i => l.getD i (A.lit 0)) hr (by
      intro i hi b _ _ _
      rw [M.reads_apply, con_putVal, hc.2 i hi, getD_lt _ _ hi])
  rw [M.bind_ok ev] at h1
  have hw : Wrote s (s.putVal (.buffer, j) bv) (.buffer, j) l :=
    ⟨by rw [val_putVal]; exact is_congr_cells rfl rv hv (fun i hi => getD_lt _ _ hi), fun y hy => val_putVal_ne _ _ hy, rfl⟩
  refine hw.keep ?_
  have hk : KeepsVC (resizeDerivs A (.buffer, j) l.length >>= fun _ => M.forN l.length fun i =>
      onDer (.buffer, j) (Buf.set i (if s.indep = j then A.lit 1 else A.lit 0))) :=
    KeepsVC.bind (pres_vc_onDer _ _) fun _ => KeepsVC.forN _ fun _ => pres_vc_onDer _ _
  have := hk (s.putVal (.buffer, j) bv)
  rw [show _ = (Out.ok (), s') from h1] at this
  exact this

theorem assignVar_plain {A : DArith F64} {s s' : AV F64} {j : Nat} {y : DVar} {l : List F64} (hy : (s.val y).Is l)
    (h : assignVar A (.buffer, j) y s = (.ok (), s')) : Wrote s s' (.buffer, j) l := by
  unfold assignVar at h
  rw [M.bind_ok (M.get_apply s), hy.1] at h
  obtain ⟨_, s1, e1, h1⟩ := andThen h
  obtain ⟨b, hb, rfl⟩ := onVal_inv (show onVal (.buffer, j) (Buf.resize (A.lit 0) l.length) s = _ from e1)
  obtain ⟨hr, hn, hself⟩ := resize_room hb
  obtain ⟨bv, ev, rv, mv, hv⟩ := loop_set (put := s.putVal (.buffer, j)) (on := onVal (.buffer, j))
    (fun m b => onVal_put s (.buffer, j) m b) (m := fun i => M.reads (fun s => DExpr.leafVal (s.val y) i))
    (f := fun i => l.getD i (A.lit 0)) hr (by
      intro i hi b1 r1 _ k1
      rw [M.reads_apply]
      by_cases hyx : y = (.buffer, j)
      · subst hyx
        rw [val_putVal, getD_lt _ _ hi]
        have hb0 : b = s.val (.buffer, j) := by
          refine hself ⟨?_, hy.1, ?_⟩
          · have := hy.2 i hi
            unfold Buf.get Buf.check at this
            revert this
            cases (s.val (.buffer, j)).allocated <;> simp
          · have := hy.2 (l.length - 1) (by omega)
            unfold Buf.get at this
            rcases Nat.lt_or_ge (l.length - 1) (s.val (.buffer, j)).cells.length with h | h
            · omega
            · rw [List.getElem?_eq_none h] at this
              cases hcd : (s.val (.buffer, j)).check (l.length - 1) <;> rw [hcd] at this <;> cases this
        unfold DExpr.leafVal
        rw [r1.sz, DExpr.modIdx_ok (by omega), Out.ok_bind, Nat.mod_eq_of_lt hi]
        have hg := hy.2 i hi
        rw [← hb0] at hg
        have : b1.get i = b.get i := by
          unfold Buf.get
          rw [Buf.check_ok r1 hi, Buf.check_ok hr hi, k1 i (Nat.le_refl i)]
        rw [this, hg]
      · rw [val_putVal_ne _ _ hyx, hy.leaf (by omega), getD_lt _ _ hi]
        simp only [Nat.mod_eq_of_lt hi])
  rw [M.bind_ok ev] at h1
  have hw : Wrote s (s.putVal (.buffer, j) bv) (.buffer, j) l :=
    ⟨by rw [val_putVal]; exact is_congr_cells rfl rv hv (fun i hi => getD_lt _ _ hi), fun y hy => val_putVal_ne _ _ hy, rfl⟩
  refine hw.keep ?_
  have hk : KeepsVC (resizeDerivs A (.buffer, j) l.length >>= fun _ => M.forN l.length fun i => do
      let d ← DExpr.varDeriv A y i
      onDer (.buffer, j) (Buf.set i d)) :=
    KeepsVC.bind (pres_vc_onDer _ _) fun _ => KeepsVC.forN _ fun i => KeepsVC.bind (pres_vc_varDeriv A y i) fun _ => pres_vc_onDer _ _
  have := hk (s.putVal (.buffer, j) bv)
  rw [show _ = (Out.ok (), s') from h1] at this
  exact this

theorem assignExpr_plain {A : DArith F64} {s s' : AV F64} {j : Nat} {e : DExpr}
    (h : assignExpr A (.buffer, j) e s = (.ok (), s')) :
    ∃ l, l.length = e.size s ∧ (∀ i (hi : i < l.length), e.elem A s i = .ok l[i]) ∧ Wrote s s' (.buffer, j) l := by
  unfold assignExpr at h
  rw [M.bind_ok (M.get_apply s)] at h
  obtain ⟨_, s1, e1, h1⟩ := andThen h
  obtain ⟨temp, s2, e2, h2⟩ := andThen h1
  have a1 : s1 = s := by
    unfold M.ass at e1
    rw [M.lift_apply] at e1; exact (Prod.mk.inj e1).2.symm
  have a2 : s2 = s1 := by rw [M.lift_apply] at e2; exact (Prod.mk.inj e2).2.symm
  subst a2 a1
  rw [M.lift_apply] at e2
  have ht := Out.all_eq_ok.1 (Prod.mk.inj e2).1
  have hlen : temp.length = e.size s2 := by
    have := congrArg List.length ht
    simpa using this.symm
  obtain ⟨_, s3, e3, h3⟩ := andThen h2
  obtain ⟨_, s4, e4, h4⟩ := andThen h3
  obtain ⟨_, s5, e5, h5⟩ := andThen h4
  have k3 : vc s3 = vc s2 := by
    have := pres_vc_onDer (.buffer, j) (Buf.resize (A.lit 0) (e.size s2)) s2
    rw [show onDer (.buffer, j) (Buf.resize (A.lit 0) (e.size s2)) s2 = _ from e3] at this
    exact this
  have k4 : vc s4 = vc s3 := by
    have hk : KeepsVC (M.forN (e.size s2) (fun i => do
        let d ← e.getDeriv A i
        onDer (.buffer, j) (Buf.set i d))) :=
      KeepsVC.forN _ fun i => KeepsVC.bind (pres_vc_getDeriv A e i) fun _ => pres_vc_onDer _ _
    have := hk s3
    rw [e4] at this
    exact this
  have k : vc s4 = vc s2 := k4.trans k3
  obtain ⟨b, hb, rfl⟩ := onVal_inv (show onVal (.buffer, j) (Buf.resize (A.lit 0) (e.size s2)) s4 = _ from e5)
  obtain ⟨hr, _, _⟩ := resize_room hb
  rw [← hlen] at hr h5
  obtain ⟨b', e', hi, hm'⟩ := loop_list (put := s4.putVal (.buffer, j)) (on := onVal (.buffer, j))
    (fun m b => onVal_put s4 (.buffer, j) m b) hr
  obtain rfl := (Prod.mk.inj (h5.symm.trans e')).2
  refine ⟨temp, hlen, fun i hi => ?_, ?_, fun y hy => ?_, ?_⟩
  · have hi' : i < e.size s2 := by omega
    have := congrArg (fun l => l[i]?) ht
    simp only [List.getElem?_map, List.getElem?_range hi', List.getElem?_eq_getElem hi, Option.map_some] at this
    exact Option.some.inj this
  · rw [val_putVal]; exact hi
  · rw [val_putVal_ne _ _ hy]
    exact congrFun (Prod.mk.inj k).1 y
  · exact (Prod.mk.inj k).2

theorem setCon_plain {A : DArith F64} {s s' : AV F64} {c : Nat} {l : List F64} (h : setCon A c l s = (.ok (), s')) :
    (s'.con c).Is l ∧ (∀ d, d ≠ c → s'.con d = s.con d) ∧ s'.val = s.val := by
  unfold setCon at h
  obtain ⟨_, s1, e1, h1⟩ := andThen h
  obtain ⟨b, hb, rfl⟩ := onCon_inv e1
  obtain ⟨hr, _, _⟩ := resize_room hb
  obtain ⟨b', e', hi, hm'⟩ := loop_list (put := s.putCon c) (on := onCon c) (fun m b => onCon_put s c m b) hr
  obtain rfl := (Prod.mk.inj (h1.symm.trans e')).2
  refine ⟨?_, fun d hd => ?_, rfl⟩
  · show Buf.Is (if c = c then _ else _) l
    rw [if_pos rfl]; exact hi
  · show (if d = c then _ else _) = _
    rw [if_neg hd]

theorem elems_plain (pow : F64 → Nat → F64) (sin cos : F64 → F64) {s : AV F64} {E : Vals F64} (hc : ∀ c, (s.con c).Is (E.con c))
    (hv : ∀ x, (s.val x).Is (E.var x)) {e : DExpr} {l : List F64} (hl : l.length = e.size s)
    (h : ∀ i (hi : i < l.length), e.elem (DArith.f64 pow sin cos) s i = .ok l[i]) : PlainValues (plainOf sin E e) l := by
  refine ⟨(plain_size hc hv sin e).trans hl.symm, fun i hi => ?_⟩
  rcases plain_elem pow sin cos hc hv e i (hl ▸ hi) with ⟨v, e1, _, e2⟩ | ⟨_, e2⟩
  · exact ⟨v, e1, Out.ok.inj (e2.symm.trans (h i hi))⟩
  · rw [h i hi] at e2; cases e2

theorem assign_plain (pow : F64 → Nat → F64) (sin cos : F64 → F64) {s s' : AV F64} {E : Vals F64} (hc : ∀ c, (s.con c).Is (E.con c))
    (hv : ∀ x, (s.val x).Is (E.var x)) {j : Nat} {e : DExpr}
    (h : assign (DArith.f64 pow sin cos) (.buffer, j) e s = (.ok (), s')) :
    ∃ l, PlainValues (plainOf sin E e) l ∧ Wrote s s' (.buffer, j) l := by
  unfold assign at h
  cases e with
  | con c =>
    obtain ⟨_, s1, e1, h1⟩ := andThen h
    exact ⟨E.con c, elems_plain pow sin cos hc hv (hc c).1.symm (hc c).2, (assignCon_plain (hc c) e1).dims h1⟩
  | var y =>
    obtain ⟨_, s1, e1, h1⟩ := andThen h
    exact ⟨E.var y, elems_plain pow sin cos hc hv (hv y).1.symm (hv y).2, (assignVar_plain (hv y) e1).dims h1⟩
  | bin op a b =>
    obtain ⟨_, s1, e1, h1⟩ := andThen h
    obtain ⟨l, hl, hw, hx⟩ := assignExpr_plain e1
    exact ⟨l, elems_plain pow sin cos hc hv hl hw, hx.dims h1⟩
  | sin a =>
    obtain ⟨_, s1, e1, h1⟩ := andThen h
    obtain ⟨l, hl, hw, hx⟩ := assignExpr_plain e1
    exact ⟨l, elems_plain pow sin cos hc hv hl hw, hx.dims h1⟩

theorem start_holds (k : Nat) (kind : VKind) : Holds (AV.start k kind) Vals.start :=
  ⟨fun _ => ⟨rfl, fun _ hi => absurd hi (by simp [Vals.start])⟩, fun _ => ⟨rfl, fun _ hi => absurd hi (by simp [Vals.start])⟩⟩

theorem exec_plain (pow : F64 → Nat → F64) (sin cos : F64 → F64) {s s' : AV F64} {E : Vals F64} (h0 : Holds s E) {p : Stmt F64}
    (hb : ∀ x e, p = .assign x e → x.1 = .buffer) {u : Unit} (h : AV.exec (DArith.f64 pow sin cos) p s = (.ok u, s')) :
    ∃ E', PlainStep sin E p E' ∧ Holds s' E' := by
  cases p with
  | setCon c l =>
    obtain ⟨q1, q2, q3⟩ := setCon_plain (show setCon _ c l s = _ from h)
    refine ⟨_, rfl, fun d => ?_, fun x => by rw [q3]; exact h0.2 x⟩
    by_cases hd : d = c
    · subst hd; simpa using q1
    · simp only [hd, if_false, q2 d hd]; exact h0.1 d
  | assign x e =>
    obtain ⟨k, j⟩ := x
    have hk : k = .buffer := hb _ e rfl
    subst hk
    obtain ⟨l, q1, q2⟩ := assign_plain pow sin cos h0.1 h0.2 (show assign _ (.buffer, j) e s = _ from h)
    refine ⟨_, ⟨l, q1, rfl⟩, fun d => by rw [q2.con]; exact h0.1 d, fun y => ?_⟩
    by_cases hd : y = (.buffer, j)
    · subst hd; simpa using q2.here
    · simp only [hd, if_false, q2.others y hd]; exact h0.2 y

theorem is_at {b : Buf F64} {l : List F64} (h : b.Is l) {i : Nat} {v : F64} (e : b.get i = .ok v) : l[i]? = some v := by
  by_cases hi : i < l.length
  · rw [h.2 i hi] at e
    rw [List.getElem?_eq_getElem hi, Out.ok.inj e]
  · exfalso
    unfold Buf.get Buf.check at e
    rw [h.1] at e
    simp only [Out.ass, hi, if_false] at e
    split at e <;> cases e

theorem number_plain {s : AV F64} {E : Vals F64} (h0 : Holds s E) {a : DRead F64} {v : F64} (e : a.get s = .ok v) : numberIn E a = some v := by
  cases a with
  | var x i => exact is_at (h0.2 x) e
  | con c i => exact is_at (h0.1 c) e
  | num w => cases e; rfl

theorem cond_plain (pow : F64 → Nat → F64) (sin cos : F64 → F64) {s : AV F64} {E : Vals F64} (h0 : Holds s E) (c : DCond F64) :
    ∀ b, c.eval (DArith.f64 pow sin cos) s = .ok b → condIn E c = some b := by
  induction c with
  | lt x y =>
    intro b e
    unfold DCond.eval at e
    cases hx : x.get s <;> rw [hx] at e <;> try cases e
    cases hy : y.get s <;> rw [hy] at e <;> try cases e
    simp only [condIn, number_plain h0 hx, number_plain h0 hy]
    rfl
  | le x y =>
    intro b e
    unfold DCond.eval at e
    cases hx : x.get s <;> rw [hx] at e <;> try cases e
    cases hy : y.get s <;> rw [hy] at e <;> try cases e
    simp only [condIn, number_plain h0 hx, number_plain h0 hy]
    rfl
  | not c ih =>
    intro b e
    unfold DCond.eval at e
    cases hx : c.eval (DArith.f64 pow sin cos) s <;> rw [hx] at e <;> try cases e
    simp only [condIn, ih _ hx]
    rfl
  | and c d ih ihd =>
    intro b e
    unfold DCond.eval at e
    cases hx : c.eval (DArith.f64 pow sin cos) s with
    | ok v =>
      rw [hx] at e
      simp only [condIn, ih _ hx]
      cases v with
      | true => exact ihd b e
      | false => cases e; rfl
    | thr m => rw [hx] at e; cases e
    | ub m => rw [hx] at e; cases e
  | or c d ih ihd =>
    intro b e
    unfold DCond.eval at e
    cases hx : c.eval (DArith.f64 pow sin cos) s with
    | ok v =>
      rw [hx] at e
      simp only [condIn, ih _ hx]
      cases v with
      | true => cases e; rfl
      | false => exact ihd b e
    | thr m => rw [hx] at e; cases e
    | ub m => rw [hx] at e; cases e

theorem goOn_inv {f : AV F64 → Option (Out Unit × AV F64)} {r : Option (Out Unit × AV F64)} {s' : AV F64}
    (h : goOn f r = some (.ok (), s')) : ∃ s1, r = some (.ok (), s1) ∧ f s1 = some (.ok (), s') := by
  rcases r with _ | ⟨_ | _ | _, s1⟩
  · cases h
  · exact ⟨s1, rfl, h⟩
  · cases h
  · cases h

theorem prog_plain (pow : F64 → Nat → F64) (sin cos : F64 → F64) (fuel : Nat) (p : DProg F64) : ToBuffers p →
    ∀ {s s' : AV F64} {E : Vals F64}, Holds s E → p.run (DArith.f64 pow sin cos) fuel s = some (.ok (), s') →
    ∃ E', PlainProg sin p E E' ∧ Holds s' E' := by
  induction p with
  | skip => intro _ s s' E h0 h; cases h; exact ⟨E, .skip E, h0⟩
  | stmt p =>
    intro hb s s' E h0 h
    obtain ⟨E', q1, q2⟩ := exec_plain pow sin cos h0 (fun x e hp => by subst hp; exact hb) (Option.some.inj h)
    exact ⟨E', .stmt q1, q2⟩
  | seq p q ihp ihq =>
    intro hb s s' E h0 h
    obtain ⟨s1, e1, e2⟩ := goOn_inv (show goOn (q.run _ fuel) (p.run _ fuel s) = _ from h)
    obtain ⟨E1, a1, a2⟩ := ihp hb.1 h0 e1
    obtain ⟨E2, b1, b2⟩ := ihq hb.2 a2 e2
    exact ⟨E2, .seq a1 b1, b2⟩
  | ite c p q ihp ihq =>
    intro hb s s' E h0 h
    unfold DProg.run at h
    split at h
    · rename_i hc
      obtain ⟨E', a1, a2⟩ := ihp hb.1 h0 h
      exact ⟨E', .ifTrue (cond_plain pow sin cos h0 c _ hc) a1, a2⟩
    · rename_i hc
      obtain ⟨E', a1, a2⟩ := ihq hb.2 h0 h
      exact ⟨E', .ifFalse (cond_plain pow sin cos h0 c _ hc) a1, a2⟩
    · cases h
    · cases h
  | rounds n body ih =>
    intro hb s s' E h0 h
    have gen : ∀ n i (s : AV F64) (E : Vals F64), Holds s E →
        forLoop (fun i => (body i).run (DArith.f64 pow sin cos) fuel) n i s = some (.ok (), s') →
        ∃ E', PlainProg sin (.rounds n (fun j => body (j + i))) E E' ∧ Holds s' E' := by
      intro n
      induction n with
      | zero => intro i s E h0 h; cases h; exact ⟨E, .noRound, h0⟩
      | succ n ihn =>
        intro i s E h0 h
        obtain ⟨s1, e1, e2⟩ := goOn_inv (show goOn (forLoop _ n (i + 1)) _ = _ from h)
        obtain ⟨E1, a1, a2⟩ := ih i (hb i) h0 e1
        obtain ⟨E2, b1, b2⟩ := ihn (i + 1) s1 E1 a2 e2
        refine ⟨E2, .round (by simpa using a1) ?_, b2⟩
        simpa only [Nat.add_assoc, Nat.add_comm 1 i] using b1
    exact gen n 0 s E h0 h
  | loop c body ih =>
    intro hb s s' E h0 h
    have gen : ∀ n (s : AV F64) (E : Vals F64), Holds s E →
        whileLoop (c.eval (DArith.f64 pow sin cos)) (body.run (DArith.f64 pow sin cos) fuel) n s = some (.ok (), s') →
        ∃ E', PlainProg sin (.loop c body) E E' ∧ Holds s' E' := by
      intro n
      induction n with
      | zero => intro s E _ h; cases h
      | succ n ihn =>
        intro s E h0 h
        unfold whileLoop at h
        split at h
        · rename_i hc
          obtain ⟨s1, e1, e2⟩ := goOn_inv h
          obtain ⟨E1, a1, a2⟩ := ih hb h0 e1
          obtain ⟨E2, b1, b2⟩ := ihn s1 E1 a2 e2
          exact ⟨E2, .more (cond_plain pow sin cos h0 c _ hc) a1 b1, b2⟩
        · rename_i hc
          cases h
          exact ⟨E, .stop (cond_plain pow sin cos h0 c _ hc), h0⟩
        · cases h
        · cases h
    exact gen fuel s E h0 h

theorem step_unique (sin : F64 → F64) {E E1 E2 : Vals F64} {p : Stmt F64} (hs : PlainStep sin E p E1) (hs' : PlainStep sin E p E2) :
    E1 = E2 := by
  cases p with
  | setCon c l => exact hs.trans hs'.symm
  | assign x e =>
    obtain ⟨l, ⟨a1, a2⟩, rfl⟩ := hs
    obtain ⟨l', ⟨b1, b2⟩, rfl⟩ := hs'
    have : l = l' := by
      refine List.ext_getElem (a1.symm.trans b1) fun i hi hi' => ?_
      obtain ⟨v, v1, v2⟩ := a2 i hi
      obtain ⟨w, w1, w2⟩ := b2 i hi'
      rw [v1] at w1
      cases w1
      exact v2.symm.trans w2
    rw [this]

end Deriv

open Deriv Spec DExpr AV

/-- Reading element `i` of a formula over derivative variables gives what the same formula over plain vectors gives: the same number,
or the same undefined behaviour (an operand without elements). -/
theorem C116_formula (pow : F64 → Nat → F64) (sin cos : F64 → F64) {s : AV F64} {E : Vals F64} (hc : ∀ c, (s.con c).Is (E.con c))
    (hv : ∀ x, (s.val x).Is (E.var x)) (e : DExpr) :
    (plainOf sin E e).size nowhere = e.size s ∧ ∀ i, i < e.size s →
      e.elem (DArith.f64 pow sin cos) s i = ((plainOf sin E e).el nowhere i >>= fun v => .ok v.toD) := by
  refine ⟨plain_size hc hv sin e, fun i hi => ?_⟩
  rcases plain_elem pow sin cos hc hv e i hi with ⟨v, e1, _, e2⟩ | ⟨e1, e2⟩
  · rw [e1, e2]; rfl
  · rw [e1, e2]; rfl

/-- After a program over derivative variables the variables hold the values of the same program without derivatives, whichever variable is
the independent one. -/
theorem C116_program (pow : F64 → Nat → F64) (sin cos : F64 → F64) (k : Nat) (kind : VKind) {prog : List (Stmt F64)} {s : AV F64}
    (hb : ∀ x e, Stmt.assign x e ∈ prog → x.1 = .buffer)
    (h : AV.run (DArith.f64 pow sin cos) prog (AV.start k kind) = (.ok (), s)) :
    ∃ E, PlainRun sin Vals.start prog E ∧ Holds s E := by
  have gen : ∀ (prog : List (Stmt F64)) (s0 : AV F64) (E0 : Vals F64), (∀ x e, Stmt.assign x e ∈ prog → x.1 = .buffer) →
      Holds s0 E0 → AV.run (DArith.f64 pow sin cos) prog s0 = (.ok (), s) → ∃ E, PlainRun sin E0 prog E ∧ Holds s E := by
    intro prog
    induction prog with
    | nil =>
      intro s0 E0 _ h0 h
      cases h
      exact ⟨E0, .nil E0, h0⟩
    | cons p ps ih =>
      intro s0 E0 hb h0 h
      obtain ⟨_, s1, e1, h1⟩ := andThen (show (AV.exec _ p >>= fun _ => AV.run _ ps) s0 = _ from h)
      obtain ⟨E1, q1, q2⟩ := exec_plain pow sin cos h0 (fun x e hp => hb x e (hp ▸ List.mem_cons_self ..)) e1
      obtain ⟨E, r1, r2⟩ := ih s1 E1 (fun x e hm => hb x e (List.mem_cons_of_mem _ hm)) q2 h1
      exact ⟨E, .cons q1 r1, r2⟩
  exact gen prog _ _ hb (start_holds k kind) h

/-- A program without derivatives has at most one result. -/
theorem C116_plain_unique (sin : F64 → F64) {E E1 E2 : Vals F64} {p : DProg F64} (h1 : PlainProg sin p E E1)
    (h2 : PlainProg sin p E E2) : E1 = E2 := by
  induction h1 generalizing E2 with
  | skip => cases h2; rfl
  | stmt a => cases h2 with | stmt b => exact step_unique sin a b
  | seq _ _ ia ib => cases h2 with | seq c d => obtain rfl := ia c; exact ib d
  | ifTrue hc _ ih =>
    cases h2 with
    | ifTrue _ d => exact ih d
    | ifFalse hc' _ => rw [hc] at hc'; cases hc'
  | ifFalse hc _ ih =>
    cases h2 with
    | ifTrue hc' _ => rw [hc] at hc'; cases hc'
    | ifFalse _ d => exact ih d
  | noRound => cases h2; rfl
  | round _ _ ia ib => cases h2 with | round c d => obtain rfl := ia c; exact ib d
  | stop hc =>
    cases h2 with
    | stop _ => rfl
    | more hc' _ _ => rw [hc] at hc'; cases hc'
  | more hc _ _ ia ib =>
    cases h2 with
    | stop hc' => rw [hc] at hc'; cases hc'
    | more _ c d => obtain rfl := ia c; exact ib d

/-- The same for programs with `if`, `for` and `while`, from any contents: the same branches are taken and the variables end with the
values of the program without derivatives. -/
theorem C116_control (pow : F64 → Nat → F64) (sin cos : F64 → F64) (fuel : Nat) {p : DProg F64} (hb : ToBuffers p) {s s' : AV F64}
    {E : Vals F64} (h0 : Holds s E) (h : p.run (DArith.f64 pow sin cos) fuel s = some (.ok (), s')) :
    ∃ E', PlainProg sin p E E' ∧ Holds s' E' := prog_plain pow sin cos fuel p hb h0 h

/-- Two runs from the same values, with different independent variables and different derivatives, end with the same values. -/
theorem C116_seed (pow : F64 → Nat → F64) (sin cos : F64 → F64) (fuel fuel' : Nat) {p : DProg F64} (hb : ToBuffers p)
    {s s' t t' : AV F64} {E : Vals F64} (hs : Holds s E) (ht : Holds t E)
    (h : p.run (DArith.f64 pow sin cos) fuel s = some (.ok (), s'))
    (h' : p.run (DArith.f64 pow sin cos) fuel' t = some (.ok (), t')) : ∃ E', Holds s' E' ∧ Holds t' E' := by
  obtain ⟨E1, r, v⟩ := C116_control pow sin cos fuel hb hs h
  obtain ⟨E2, r', v'⟩ := C116_control pow sin cos fuel' hb ht h'
  obtain rfl := C116_plain_unique sin r r'
  exact ⟨E1, v, v'⟩

/-- `coca<0>(av, 2, 3); v0 = c0; v1 = (v0 < c0) * v0 + c0 / v0` -/
def seedProg : List (Stmt F64) :=
  [.setCon 0 [F64.ofInt 2, F64.ofInt 3], .assign (.buffer, 0) (.con 0),
   .assign (.buffer, 1) (.bin .add (.bin .mul (.bin .lt (.var (.buffer, 0)) (.con 0)) (.var (.buffer, 0)))
     (.bin .div (.con 0) (.var (.buffer, 0))))]

example : ∀ x e, Stmt.assign x e ∈ seedProg → x.1 = .buffer := by
  intro x e h
  simp only [seedProg, List.mem_cons, Stmt.assign.injEq, List.not_mem_nil, or_false, reduceCtorEq, false_or] at h
  rcases h with ⟨rfl, _⟩ | ⟨rfl, _⟩ <;> rfl

example (k : VKind) : ∃ s s', AV.run (DArith.f64 (fun x _ => x) id id) seedProg (AV.start 0 k) = (.ok (), s) ∧
    AV.run (DArith.f64 (fun x _ => x) id id) seedProg (AV.start 1 .buffer) = (.ok (), s') ∧
    s.der (.buffer, 1) ≠ s'.der (.buffer, 1) ∧ (s.val (.buffer, 1)).Is [F64.ofInt 1, F64.ofInt 1] := by
  refine ⟨_, _, Prod.ext (by cases k <;> decide +kernel) rfl, Prod.ext (by decide +kernel) rfl, ?_, ?_⟩
  · cases k <;> decide +kernel
  · cases k <;> exact ⟨by decide +kernel, by decide +kernel⟩

/-- The state after `seedProg` shows the values of a program without derivatives: hypotheses of `C116_formula`. -/
example : ∃ (s : AV F64) (E : Vals F64), PlainRun id Vals.start seedProg E ∧ Holds s E ∧ (E.var (.buffer, 1)).length = 2 := by
  obtain ⟨E, h1, h2⟩ := C116_program (fun x _ => x) id id 0 .buffer (prog := seedProg) (by
    intro x e h
    simp only [seedProg, List.mem_cons, Stmt.assign.injEq, List.not_mem_nil, or_false, reduceCtorEq, false_or] at h
    rcases h with ⟨rfl, _⟩ | ⟨rfl, _⟩ <;> rfl) (Prod.ext (by decide +kernel) rfl)
  exact ⟨_, E, h1, h2, by rw [← (h2.2 _).1]; decide +kernel⟩

/-- `coca<0>(av, 1); v0 = c0; while (v0[0] < 3) v0 = v0 + c0; for (i < 2) if (v0[0] <= i) v0 = c0 else v0 = v0 * v0` -/
def seedControl : DProg F64 :=
  .seq (.stmt (.setCon 0 [F64.ofInt 1])) (.seq (.stmt (.assign (.buffer, 0) (.con 0)))
    (.seq (.loop (.lt (.var (.buffer, 0) 0) (.num (F64.ofInt 3))) (.stmt (.assign (.buffer, 0) (.bin .add (.var (.buffer, 0)) (.con 0)))))
      (.rounds 2 (fun i => .ite (.le (.var (.buffer, 0) 0) (.num (F64.ofInt i))) (.stmt (.assign (.buffer, 0) (.con 0)))
        (.stmt (.assign (.buffer, 0) (.bin .mul (.var (.buffer, 0)) (.var (.buffer, 0)))))))))

/-- The value is 81 for both independent variables, the derivatives differ. -/
example : ∃ s' t' E', seedControl.run (DArith.f64 (fun x _ => x) id id) 5 (AV.start 0 .buffer) = some (.ok (), s') ∧
    seedControl.run (DArith.f64 (fun x _ => x) id id) 5 (AV.start 1 .buffer) = some (.ok (), t') ∧ Holds s' E' ∧ Holds t' E' ∧
    PlainProg id seedControl Vals.start E' ∧ E'.var (.buffer, 0) = [F64.ofInt 81] ∧ s'.der (.buffer, 0) ≠ t'.der (.buffer, 0) := by
  have hb : ToBuffers seedControl := ⟨trivial, rfl, rfl, fun _ => ⟨rfl, rfl⟩⟩
  have hrun : ∀ r : Option (Out Unit × AV F64), (r.map (·.1)) = some (.ok ()) → ∃ s, r = some (.ok (), s) := by
    rintro (_ | ⟨o, s⟩) h
    · cases h
    · cases h; exact ⟨s, rfl⟩
  obtain ⟨s', es⟩ := hrun (seedControl.run (DArith.f64 (fun x _ => x) id id) 5 (AV.start 0 .buffer)) (by decide +kernel)
  obtain ⟨t', et⟩ := hrun (seedControl.run (DArith.f64 (fun x _ => x) id id) 5 (AV.start 1 .buffer)) (by decide +kernel)
  obtain ⟨E', h1, h2⟩ := C116_control _ _ _ 5 hb (start_holds 0 .buffer) es
  obtain ⟨E'', h3, h4⟩ := C116_seed _ _ _ 5 5 hb (start_holds 0 .buffer) (start_holds 1 .buffer) es et
  have hE : E' = E'' := by
    have a : E'.con = E''.con := funext fun c => (h2.1 c).inj (h3.1 c)
    have b : E'.var = E''.var := funext fun c => (h2.2 c).inj (h3.2 c)
    cases E'; cases E''; simp_all
  subst hE
  have h5 : (seedControl.run (DArith.f64 (fun x _ => x) id id) 5 (AV.start 0 .buffer)).map (fun r => ((r.2.val (.buffer, 0)).sz, (r.2.val (.buffer, 0)).get 0)) =
      some (1, .ok (F64.ofInt 81)) := by decide +kernel
  have h6 : (seedControl.run (DArith.f64 (fun x _ => x) id id) 5 (AV.start 0 .buffer)).map (fun r => r.2.der (.buffer, 0)) ≠
    (seedControl.run (DArith.f64 (fun x _ => x) id id) 5 (AV.start 1 .buffer)).map (fun r => r.2.der (.buffer, 0)) := by decide +kernel
  rw [es] at h5
  rw [es, et] at h6
  refine ⟨s', t', E', es, et, h2, h4, h1, ?_, fun h => h6 (congrArg some h)⟩
  have h7 := Prod.mk.inj (Option.some.inj h5)
  refine (h2.2 (.buffer, 0)).inj ⟨h7.1, fun i hi => ?_⟩
  have : i = 0 := by simpa using hi
  subst this
  exact h7.2

end ETR
