import Verif.Spec.Typed
import Verif.Props.Traits
import Verif.Props.Expr

/-! Element types in formulas: C98. -/

namespace ETR
open Spec F64

/-! ## Element functions -/

theorem Spec.IntOk.toD_int {v : Scal} (h : IntOk v) {n : Int} (e : v.int? = some n) :
    v.toD = fin n ∧ InI32 n := by
  refine Trait.toD_int ?_ e
  cases v with
  | b v => trivial
  | i n => exact h n rfl
  | d x => simp [Scal.int?] at e

/-- The same operator on doubles. -/
def BinO.num : BinO → F64 → F64 → F64
  | .plus => F64.add
  | .minus => F64.sub
  | .times => F64.mul
  | .divide => F64.div
  | .lt => fun x y => if F64.lt x y then fin 1 else fin 0
  | .le => fun x y => if F64.le x y then fin 1 else fin 0
  | .gt => fun x y => if F64.lt y x then fin 1 else fin 0
  | .ge => fun x y => if F64.le y x then fin 1 else fin 0
  | .eq => fun x y => if F64.lt (F64.abs (F64.sub x y)) Trait.c001 then fin 1 else fin 0
  | .ne => fun x y => if F64.lt Trait.c001 (F64.abs (F64.sub x y)) then fin 1 else fin 0

/-- The same operator on doubles. -/
def UnO.num : UnO → F64 → F64
  | .neg => F64.neg
  | .fn g => g

/-- An outcome of a computation with element types next to the outcome with doubles. -/
def Tracks (P : Scal → Prop) (o : Out Scal) (o' : Out F64) : Prop :=
  match o with
  | .ok v => o' = .ok v.toD ∧ P v
  | .thr s => o' = .thr s
  | .ub k => k = .intOverflow ∨ o' = .ub k

theorem toD_b (v : Bool) : (Scal.b v).toD = if v then fin 1 else fin 0 := by
  rw [(Trait.toD_int (l := .b v) trivial rfl).1]; cases v <;> simp

theorem Scal.int?_none {v : Scal} (h : v.int? = none) : v.ty = .double := by
  cases v <;> simp_all [Scal.int?, Scal.ty]

theorem Scal.int?_some {v : Scal} {n : Int} (h : v.int? = some n) : v.ty ≠ .double := by
  cases v <;> simp_all [Scal.int?, Scal.ty]

theorem Scal.isBool_iff {v : Scal} : v.isBool = true ↔ v.ty = .bool := by
  cases v <;> simp [Scal.isBool, Scal.ty]

theorem Ty.common_int {s t : Ty} (hs : s ≠ .double) (ht : t ≠ .double) (h : ¬ (s = .bool ∧ t = .bool)) :
    s.common t = .int := by
  cases s <;> cases t <;> simp_all [Ty.common]

theorem Ty.common_d {s t : Ty} (h : s = .double ∨ t = .double) : s.common t = .double := by
  cases s <;> cases t <;> simp_all [Ty.common]

theorem arith_tracks {fi : Int → Int → Int} {fd : F64 → F64 → F64} {l r : Scal} (hl : IntOk l)
    (hr : IntOk r) (hn : ¬ (l.ty = .bool ∧ r.ty = .bool))
    (hf : ∀ x y : Int, fd (fin x) (fin y) = rnd ((fi x y : Int) : ℚ)) :
    Tracks (fun v => v.ty = l.ty.common r.ty ∧ IntOk v) (Trait.arith fi fd l r)
      (.ok (fd l.toD r.toD)) := by
  unfold Trait.arith
  cases h1 : l.int? with
  | none =>
    refine ⟨rfl, (Ty.common_d (.inl (Scal.int?_none h1))).symm, ?_⟩
    intro n h; cases h
  | some x =>
    cases h2 : r.int? with
    | none =>
      refine ⟨rfl, (Ty.common_d (.inr (Scal.int?_none h2))).symm, ?_⟩
      intro n h; cases h
    | some y =>
      have hb : (l.isBool && r.isBool) = false := by
        rw [← Bool.not_eq_true, Bool.and_eq_true, Scal.isBool_iff, Scal.isBool_iff]
        exact hn
      simp only [hb, ckI32]
      by_cases hz : InI32 (fi x y)
      · simp only [if_pos hz, Out.ok_bind, Bool.false_eq_true, if_false]
        refine ⟨?_, ?_, ?_⟩
        · rw [(hl.toD_int h1).1, (hr.toD_int h2).1, hf]; rfl
        · exact (Ty.common_int (Scal.int?_some h1) (Scal.int?_some h2) hn).symm
        · intro n h; cases h; exact hz
      · simp only [if_neg hz]
        exact .inl rfl

theorem diff_tracks {l r : Scal} (hl : IntOk l) (hr : IntOk r) :
    Trait.diff l r = .ok (F64.sub l.toD r.toD) ∨ Trait.diff l r = .ub .intOverflow := by
  unfold Trait.diff
  cases h1 : l.int? with
  | none => exact .inl rfl
  | some x =>
    cases h2 : r.int? with
    | none => exact .inl rfl
    | some y =>
      simp only [ckI32]
      by_cases hz : InI32 (x - y)
      · simp only [if_pos hz, Out.ok_bind]
        left
        rw [(hl.toD_int h1).1, (hr.toD_int h2).1]
        simp [F64.sub, F64.neg, F64.add, F64.ofInt, sub_eq_add_neg]
      · simp only [if_neg hz]
        exact .inr rfl

theorem cmp_num {l r : Scal} (hl : IntOk l) (hr : IntOk r) {fi : Int → Int → Bool}
    {fd : F64 → F64 → Bool} (h : ∀ x y : Int, fd (fin x) (fin y) = fi x y) :
    Trait.cmp fi fd l r = fd l.toD r.toD := by
  unfold Trait.cmp
  cases h1 : l.int? with
  | none => rfl
  | some x =>
    cases h2 : r.int? with
    | none => rfl
    | some y => simp only [(hl.toD_int h1).1, (hr.toD_int h2).1, h]

theorem Spec.IntOk.b (v : Bool) : IntOk (.b v) := by intro n h; cases h
theorem Spec.IntOk.d (x : F64) : IntOk (.d x) := by intro n h; cases h

theorem BinO.tracks (o : BinO) {l r : Scal} (hl : IntOk l) (hr : IntOk r)
    (hn : ¬ (arithmetic o = true ∧ l.ty = .bool ∧ r.ty = .bool)) :
    Tracks (fun v => v.ty = o.ty l.ty r.ty ∧ IntOk v) (o.f l r) (.ok (o.num l.toD r.toD)) := by
  cases o with
  | plus =>
    refine arith_tracks hl hr (by simpa [arithmetic] using hn) ?_
    intro x y; simp [F64.add]
  | minus =>
    refine arith_tracks hl hr (by simpa [arithmetic] using hn) ?_
    intro x y; simp [F64.sub, F64.neg, F64.add, sub_eq_add_neg]
  | times =>
    refine arith_tracks hl hr (by simpa [arithmetic] using hn) ?_
    intro x y; simp [F64.mul]
  | divide => exact ⟨rfl, rfl, IntOk.d _⟩
  | lt =>
    refine ⟨?_, rfl, IntOk.b _⟩
    rw [toD_b, Trait.smaller, cmp_num hl hr (by intro x y; simp [F64.lt])]; rfl
  | le =>
    refine ⟨?_, rfl, IntOk.b _⟩
    rw [toD_b, Trait.smallerEqual, cmp_num hl hr (by intro x y; simp [F64.le])]; rfl
  | gt =>
    refine ⟨?_, rfl, IntOk.b _⟩
    rw [toD_b, Trait.larger, cmp_num hl hr (by intro x y; simp [F64.lt])]; rfl
  | ge =>
    refine ⟨?_, rfl, IntOk.b _⟩
    rw [toD_b, Trait.largerEqual, cmp_num hl hr (by intro x y; simp [F64.le])]; rfl
  | eq =>
    simp only [BinO.f, Trait.equal]
    rcases diff_tracks hl hr with h | h
    · rw [h]; exact ⟨by simp only [toD_b]; rfl, rfl, IntOk.b _⟩
    · rw [h]; exact .inl rfl
  | ne =>
    simp only [BinO.f, Trait.unequal]
    rcases diff_tracks hl hr with h | h
    · rw [h]; exact ⟨by simp only [toD_b]; rfl, rfl, IntOk.b _⟩
    · rw [h]; exact .inl rfl

theorem UnO.tracks (o : UnO) {a : Scal} (ha : IntOk a) :
    Tracks (fun v => v.ty = .double ∧ IntOk v) (o.f a) (.ok (o.num a.toD)) := by
  cases o with
  | fn g => exact ⟨rfl, rfl, IntOk.d _⟩
  | neg =>
    simp only [UnO.f, Trait.minusUnary]
    cases h : a.int? with
    | none => exact ⟨rfl, rfl, IntOk.d _⟩
    | some x =>
      simp only [ckI32]
      by_cases hz : InI32 (-x)
      · simp only [if_pos hz, Out.ok_bind]
        refine ⟨?_, rfl, IntOk.d _⟩
        rw [(ha.toD_int h).1]
        simp only [UnO.num, F64.neg, Scal.toD, Trait.ofInt_I32 hz]
        simp
      · simp only [if_neg hz]
        exact .inl rfl

/-! ## Formulas -/

namespace TForm

theorem conv_toD (e : TForm) (v : Scal) : (e.conv v).toD = v.toD := by
  cases e with
  | sub e ind mp => simp only [conv]; split <;> rfl
  | leaf => rfl
  | scal => rfl
  | un => rfl
  | bin => rfl

theorem conv_intOk (e : TForm) {v : Scal} (h : IntOk v) : IntOk (e.conv v) := by
  cases e with
  | sub e ind mp =>
    simp only [conv]; split
    · exact IntOk.d _
    · exact h
  | leaf => exact h
  | scal => exact h
  | un => exact h
  | bin => exact h

/-- The formula computed with doubles. -/
def toNum : TForm → Expr F64
  | leaf _ x => .leaf x
  | scal v => .scal v.toD
  | un o e => .un (fun v => .ok (o.num v)) (toNum e)
  | bin o l r => .bin (fun v w => .ok (o.num v w)) (toNum l) (toNum r)
  | sub e ind mp => .sub (toNum e) ind mp

/-- The numbers in the vectors. -/
def numEnv (env : Env Scal) : Env F64 where
  size := env.size
  get x i := do
    let v ← env.get x i
    return v.toD
  mp := env.mp

theorem isScal_num (e : TForm) : e.toNum.isScal = e.toExpr.isScal := by cases e <;> rfl

theorem size_num (env : Env Scal) (e : TForm) : e.toNum.size (numEnv env) = e.toExpr.size env := by
  induction e with
  | leaf => rfl
  | scal => rfl
  | un o e ih => exact ih
  | bin o l r hl hr =>
    simp only [toNum, toExpr, Expr.size, isScal_num, hl, hr]
  | sub => rfl

theorem tracks (env : Env Scal) (e : TForm) (ht : TypedIn env e) (hn : NoLogical e) (i : Nat) :
    Tracks (fun v => (e.conv v).ty = e.ty ∧ IntOk v) (e.toExpr.el env i)
      (e.toNum.el (numEnv env) i) := by
  induction e generalizing i with
  | leaf t x =>
    simp only [toExpr, toNum, Expr.el, numEnv]
    have := ht i
    cases h : env.get x i with
    | ok v => exact ⟨rfl, this v h⟩
    | thr s => rfl
    | ub k => exact .inr rfl
  | scal v => exact ⟨rfl, rfl, ht⟩
  | un o e ih =>
    simp only [toExpr, toNum, Expr.el, isScal_num, size_num]
    cases posOf e.toExpr.isScal (e.toExpr.size env) i with
    | thr s => rfl
    | ub k => exact .inr rfl
    | ok k =>
      simp only [Out.ok_bind]
      have h := ih ht hn k
      cases hv : e.toExpr.el env k with
      | thr s => rw [hv] at h; simp only [Tracks] at h; rw [h]; rfl
      | ub k =>
        rw [hv] at h; simp only [Tracks] at h
        rcases h with h | h
        · exact .inl h
        · rw [h]; exact .inr rfl
      | ok v =>
        rw [hv] at h; obtain ⟨h1, h2, h3⟩ := h
        rw [h1]
        simp only [Out.ok_bind]
        have := o.tracks (e.conv_intOk h3)
        rw [conv_toD] at this
        exact this
  | bin o l r hl hr =>
    simp only [toExpr, toNum, Expr.el, isScal_num, size_num]
    cases posOf l.toExpr.isScal (l.toExpr.size env) i with
    | thr s => rfl
    | ub k => exact .inr rfl
    | ok k =>
      simp only [Out.ok_bind]
      have h := hl ht.1 hn.1 k
      cases hv : l.toExpr.el env k with
      | thr s => rw [hv] at h; simp only [Tracks] at h; rw [h]; rfl
      | ub k =>
        rw [hv] at h; simp only [Tracks] at h
        rcases h with h | h
        · exact .inl h
        · rw [h]; exact .inr rfl
      | ok v =>
        rw [hv] at h; obtain ⟨h1, h2, h3⟩ := h
        rw [h1]
        simp only [Out.ok_bind]
        cases posOf r.toExpr.isScal (r.toExpr.size env) i with
        | thr s => rfl
        | ub k => exact .inr rfl
        | ok k' =>
          simp only [Out.ok_bind]
          have g := hr ht.2 hn.2.1 k'
          cases hw : r.toExpr.el env k' with
          | thr s => rw [hw] at g; simp only [Tracks] at g; rw [g]; rfl
          | ub k =>
            rw [hw] at g; simp only [Tracks] at g
            rcases g with g | g
            · exact .inl g
            · rw [g]; exact .inr rfl
          | ok w =>
            rw [hw] at g; obtain ⟨g1, g2, g3⟩ := g
            rw [g1]
            simp only [Out.ok_bind]
            have := o.tracks (l.conv_intOk h3) (r.conv_intOk g3) (by rw [h2, g2]; exact hn.2.2)
            rw [conv_toD, conv_toD, h2, g2] at this
            exact this
  | sub e ind mp ih =>
    simp only [toExpr, toNum, Expr.el, size_num]
    cases modz i (e.toExpr.size env) with
    | thr s => rfl
    | ub k => exact .inr rfl
    | ok k =>
      simp only [Out.ok_bind]
      cases getL ind k with
      | thr s => rfl
      | ub k => exact .inr rfl
      | ok j =>
        simp only [Out.ok_bind]
        have h := ih ht hn j
        cases hv : e.toExpr.el env j with
        | thr s => rw [hv] at h; exact h
        | ub k => rw [hv] at h; exact h
        | ok v =>
          rw [hv] at h; obtain ⟨h1, h2, h3⟩ := h
          refine ⟨h1, ?_, h3⟩
          simp only [conv, ty]
          by_cases hr : e.retTy = .double
          · rw [if_pos hr, hr]; rfl
          · rw [if_neg hr]
            cases e with
            | leaf t x => exact h2
            | scal w => exact h2
            | un => exact absurd rfl hr
            | bin => exact absurd rfl hr
            | sub => exact absurd rfl hr

theorem toNum_retyped {e e' : TForm} (h : Retyped e e') : e.toNum = e'.toNum := by
  induction e generalizing e' with
  | leaf t x => cases e' <;> simp_all [Retyped, toNum]
  | scal v => cases e' <;> simp_all [Retyped, toNum]
  | un o e ih =>
    cases e' with
    | un o' e' => obtain ⟨rfl, h⟩ := h; simp only [toNum, ih h]
    | _ => exact h.elim
  | bin o l r hl hr =>
    cases e' with
    | bin o' l' r' => obtain ⟨rfl, h1, h2⟩ := h; simp only [toNum, hl h1, hr h2]
    | _ => exact h.elim
  | sub e ind mp ih =>
    cases e' with
    | sub e' ind' mp' => obtain ⟨rfl, rfl, h⟩ := h; simp only [toNum, ih h]
    | _ => exact h.elim

theorem el_congr {V : Type} {env env' : Env V} (hs : ∀ x, env.size x = env'.size x)
    (hg : ∀ x i, env.get x i = env'.get x i) (e : Expr V) :
    e.size env = e.size env' ∧ ∀ i, e.el env i = e.el env' i := by
  induction e with
  | leaf x => exact ⟨hs x, hg x⟩
  | rvec l mp => exact ⟨rfl, fun _ => rfl⟩
  | scal v => exact ⟨rfl, fun _ => rfl⟩
  | un f e ih => exact ⟨ih.1, fun i => by simp only [Expr.el, ih.1, ih.2]⟩
  | bin f l r hl hr =>
    exact ⟨by simp only [Expr.size, hl.1, hr.1],
      fun i => by simp only [Expr.el, hl.1, hl.2, hr.1, hr.2]⟩
  | sub e ind mp ih => exact ⟨rfl, fun i => by simp only [Expr.el, ih.1, ih.2]⟩

theorem truncQ_int (c : Int) : truncQ (c : ℚ) = c := by
  unfold truncQ
  by_cases h0 : (0 : ℚ) ≤ c
  · rw [if_pos h0]; exact Int.floor_intCast (R := ℚ) c
  · rw [if_neg h0]
    have : Rat.floor (-(c : ℚ)) = -c := by
      have := Int.floor_intCast (R := ℚ) (-c)
      rw [Int.cast_neg] at this
      exact this
    rw [this]; omega

/-- Storing an element is storing its number. -/
theorem to_num {v : Scal} (h : IntOk v) (t : Ty) : v.to t = (Scal.d v.toD).to t := by
  cases hi : v.int? with
  | none =>
    cases v with
    | d x => rfl
    | b v => simp [Scal.int?] at hi
    | i n => simp [Scal.int?] at hi
  | some n =>
    obtain ⟨h1, h2⟩ := h.toD_int hi
    rw [h1]
    cases t with
    | double => cases v <;> simp_all [Scal.to, Scal.toD]
    | int =>
      simp only [Scal.to, F64.toI32, truncQ_int, if_pos h2, Out.ok_bind]
      cases v <;> simp_all [Scal.int?]
    | bool =>
      simp only [Scal.to, F64.toBool]
      cases v with
      | d x => simp [Scal.int?] at hi
      | i k => simp only [Scal.int?, Option.some.injEq] at hi; subst hi; simp
      | b v => simp only [Scal.int?, Option.some.injEq] at hi; subst hi; cases v <;> simp

theorem to_self (v : Scal) : v.to v.ty = .ok v := by
  cases v <;> rfl

/-- What the loop of the assignment stores for an element that has been computed. -/
theorem elTo_ok (t : Ty) {env : Env Scal} {e : TForm} {i : Nat} {v : Scal}
    (hv : e.toExpr.el env i = .ok v) (h2 : (e.conv v).ty = e.ty) (h3 : IntOk v) :
    e.elTo t env i = (Scal.d v.toD).to t := by
  unfold elTo
  rw [hv]
  simp only [Out.ok_bind]
  by_cases hr : e.retTy = .double
  · rw [hr]
    simp only [Scal.to, Out.ok_bind, conv_toD]
  · have h4 : e.conv v = v ∧ e.ty = e.retTy := by
      cases e with
      | leaf t x => exact ⟨rfl, rfl⟩
      | scal w => exact ⟨rfl, rfl⟩
      | un => exact absurd rfl hr
      | bin => exact absurd rfl hr
      | sub => exact absurd rfl hr
    rw [h4.1] at h2 ⊢
    rw [← h4.2, ← h2, to_self, Out.ok_bind]
    exact to_num h3 t

theorem elTo_num (t : Ty) (env : Env Scal) (e : TForm) (ht : TypedIn env e) (hn : NoLogical e)
    (i : Nat) :
    e.elTo t env i = (do let x ← e.toNum.el (numEnv env) i; (Scal.d x).to t) ∨
      e.elTo t env i = .ub .intOverflow := by
  have h := tracks env e ht hn i
  cases hv : e.toExpr.el env i with
  | ok v =>
    rw [hv] at h
    obtain ⟨h1, h2, h3⟩ := h
    left
    rw [h1]
    exact elTo_ok t hv h2 h3
  | thr s =>
    rw [hv] at h; simp only [Tracks] at h; rw [h]
    left; unfold elTo; rw [hv]; rfl
  | ub k =>
    rw [hv] at h
    rcases h with h | h
    · right; unfold elTo; rw [hv, h]; rfl
    · rw [h]; left; unfold elTo; rw [hv]; rfl

end TForm

/-! ## C98 -/

/-- C98 (partial: no `+`, `-`, `*` of two logical operands; no overflow in `int`).  The same formula over
vectors that hold the same numbers, with whatever element types, has the same length, and stores the
same elements in a vector of any element type, or throws the same exception, unless one of the two
evaluations leaves the range of `int`. -/
theorem C98_partial (t : Ty) (e e' : TForm) (env env' : Env Scal) (hr : Retyped e e')
    (hv : SameVectors env env') (ht : TypedIn env e) (ht' : TypedIn env' e') (hn : NoLogical e)
    (hn' : NoLogical e') :
    e.toExpr.size env = e'.toExpr.size env' ∧
    ∀ i, e.elTo t env i = e'.elTo t env' i ∨ e.elTo t env i = .ub .intOverflow ∨
      e'.elTo t env' i = .ub .intOverflow := by
  have hc := TForm.el_congr (env := TForm.numEnv env) (env' := TForm.numEnv env') hv.1 hv.2 e'.toNum
  constructor
  · rw [← TForm.size_num, ← TForm.size_num, TForm.toNum_retyped hr, hc.1]
  · intro i
    rcases TForm.elTo_num t env e ht hn i with h | h
    · rcases TForm.elTo_num t env' e' ht' hn' i with h' | h'
      · left; rw [h, h', TForm.toNum_retyped hr, hc.2]
      · exact .inr (.inr h')
    · exact .inr (.inl h)

theorem arith_exact {fi : Int → Int → Int} {fd : F64 → F64 → F64} {l r : Scal} (hl : IntOk l)
    (hr : IntOk r) (hn : ¬ (l.ty = .bool ∧ r.ty = .bool))
    (hf : ∀ x y : Int, fd (fin x) (fin y) = rnd ((fi x y : Int) : ℚ)) {a b : Int}
    (ha : l.toD = fin a) (hb : r.toD = fin b) (hz : InI32 (fi a b)) :
    ∃ v, Trait.arith fi fd l r = .ok v ∧ v.toD = fin ((fi a b : Int) : ℚ) := by
  have hd : fd l.toD r.toD = fin ((fi a b : Int) : ℚ) := by
    rw [ha, hb, hf]; exact Trait.ofInt_I32 hz
  unfold Trait.arith
  cases h1 : l.int? with
  | none => exact ⟨_, rfl, hd⟩
  | some x =>
    cases h2 : r.int? with
    | none => exact ⟨_, rfl, hd⟩
    | some y =>
      have ex : x = a := by
        have := (hl.toD_int h1).1; rw [ha] at this
        simpa using this.symm
      have ey : y = b := by
        have := (hr.toD_int h2).1; rw [hb] at this
        simpa using this.symm
      subst ex; subst ey
      have hb : (l.isBool && r.isBool) = false := by
        rw [← Bool.not_eq_true, Bool.and_eq_true, Scal.isBool_iff, Scal.isBool_iff]
        exact hn
      simp only [hb, ckI32, if_pos hz, Out.ok_bind, Bool.false_eq_true, if_false]
      exact ⟨_, rfl, Trait.ofInt_I32 hz⟩

theorem intOp_exact {o : BinO} {f : ℤ → ℤ → ℤ} (ho : intOp o = some f) {l r : Scal} (hl : IntOk l)
    (hr : IntOk r) (hn : ¬ (arithmetic o = true ∧ l.ty = .bool ∧ r.ty = .bool)) {a b : Int}
    (ha : l.toD = fin a) (hb : r.toD = fin b) (hz : InI32 (f a b)) :
    ∃ v, o.f l r = .ok v ∧ v.toD = fin ((f a b : Int) : ℚ) := by
  cases o <;> simp only [intOp, Option.some.injEq, reduceCtorEq] at ho
  all_goals
    subst ho
    refine arith_exact hl hr (by simpa [arithmetic] using hn) ?_ ha hb hz
    intro x y
    simp [F64.add, F64.sub, F64.neg, F64.mul, sub_eq_add_neg]

theorem neg_exact {a : Scal} (h : IntOk a) {z : Int} (hz : a.toD = fin z) (hi : InI32 (-z)) :
    ∃ v, UnO.neg.f a = .ok v ∧ v.toD = fin ((-z : Int) : ℚ) := by
  simp only [UnO.f, Trait.minusUnary]
  cases h1 : a.int? with
  | none =>
    refine ⟨_, rfl, ?_⟩
    change F64.neg a.toD = _
    rw [hz]; simp [F64.neg]
  | some x =>
    have ex : x = z := by
      have := (h.toD_int h1).1; rw [hz] at this
      simpa using this.symm
    subst ex
    simp only [ckI32, if_pos hi, Out.ok_bind]
    exact ⟨_, rfl, Trait.ofInt_I32 hi⟩

theorem fits_eq {l l' : List ℤ} (h : fits l = some l') : l' = l ∧ ∀ z ∈ l, InI32 z := by
  unfold fits at h
  split at h
  · rename_i h1; exact ⟨(Option.some.inj h).symm, h1⟩
  · cases h

theorem exact_fits (ρ : Nat → List ℤ) (e : TForm) (l : List ℤ) (h : exact ρ e = some l) :
    ∀ z ∈ l, InI32 z := by
  induction e generalizing l with
  | leaf t x =>
    simp only [exact] at h
    split at h
    · cases h
    · obtain ⟨rfl, h2⟩ := fits_eq h; exact h2
  | scal v =>
    cases v with
    | b v =>
      simp only [exact, Option.some.injEq] at h
      subst h
      cases v <;> simp [InI32]
    | i n => obtain ⟨rfl, h2⟩ := fits_eq h; exact h2
    | d x => simp [exact] at h
  | un o e ih =>
    cases o with
    | fn g => simp [exact] at h
    | neg =>
      simp only [exact, Option.bind_eq_bind, Option.bind_eq_some_iff] at h
      obtain ⟨l', h1, h2⟩ := h
      obtain ⟨rfl, h3⟩ := fits_eq h2; exact h3
  | bin o l1 r1 hl hr =>
    simp only [exact, Option.bind_eq_bind, Option.bind_eq_some_iff] at h
    obtain ⟨f, hf, a, h1, b, h2, h3⟩ := h
    obtain ⟨rfl, h4⟩ := fits_eq h3; exact h4
  | sub e ind mp ih =>
    simp only [exact, Option.bind_eq_bind, Option.bind_eq_some_iff] at h
    obtain ⟨l', h1, h2⟩ := h
    split at h2
    · rename_i h3
      cases h2
      intro z hz
      simp only [List.mem_map] at hz
      obtain ⟨j, hj, rfl⟩ := hz
      have := h3.2.2 j hj
      simp only [List.getElem?_eq_getElem this, Option.getD_some]
      exact ih l' h1 _ (List.getElem_mem this)
    · cases h2

theorem exact_el (env : Env Scal) (ρ : Nat → List ℤ)
    (hρ : ∀ x, env.size x = (ρ x).length ∧
      ∀ i (hi : i < (ρ x).length), ∃ v, env.get x i = .ok v ∧ v.toD = fin ((ρ x)[i] : ℤ))
    (e : TForm) (ht : TypedIn env e) (hn : NoLogical e) (l : List ℤ) (h : exact ρ e = some l) :
    l ≠ [] ∧ e.toExpr.size env = l.length ∧
    ∀ i (hi : i < l.length), ∃ v, e.toExpr.el env i = .ok v ∧ v.toD = fin (l[i] : ℤ) := by
  induction e generalizing l with
  | leaf t x =>
    simp only [exact] at h
    split at h
    · cases h
    · rename_i h1
      obtain ⟨rfl, h2⟩ := fits_eq h
      exact ⟨h1, (hρ x).1, fun i hi => (hρ x).2 i hi⟩
  | scal v =>
    cases v with
    | b v =>
      simp only [exact, Option.some.injEq] at h
      subst h
      refine ⟨by simp, rfl, fun i hi => ⟨_, rfl, ?_⟩⟩
      simp only [List.length_singleton, Nat.lt_one_iff] at hi
      subst hi
      rw [toD_b]; cases v <;> simp
    | i n =>
      simp only [exact] at h
      obtain ⟨rfl, h2⟩ := fits_eq h
      refine ⟨by simp, rfl, fun i hi => ⟨_, rfl, ?_⟩⟩
      simp only [List.length_singleton, Nat.lt_one_iff] at hi
      subst hi
      exact Trait.ofInt_I32 (h2 n (by simp))
    | d x => simp [exact] at h
  | un o e ih =>
    cases o with
    | fn g => simp [exact] at h
    | neg =>
      simp only [exact, Option.bind_eq_bind, Option.bind_eq_some_iff] at h
      obtain ⟨l', h1, h2⟩ := h
      obtain ⟨rfl, h3⟩ := fits_eq h2
      obtain ⟨n1, n2, n3⟩ := ih ht hn l' h1
      refine ⟨by simpa using n1, by simpa [TForm.toExpr, Expr.size] using n2, fun i hi => ?_⟩
      simp only [List.length_map] at hi
      obtain ⟨v, v1, v2⟩ := n3 i hi
      have v3 := TForm.tracks env e ht hn i
      rw [v1] at v3
      have hz := h3 (-l'[i]) (by simp only [List.mem_map]; exact ⟨_, List.getElem_mem hi, rfl⟩)
      have hp : posOf e.toExpr.isScal (e.toExpr.size env) i >>= (fun k => e.toExpr.el env k)
          = .ok v := by
        unfold posOf
        cases hs : e.toExpr.isScal with
        | false =>
          simp only [Bool.false_eq_true, if_false, n2,
            modz_pos (List.length_pos_iff.mpr n1), Nat.mod_eq_of_lt hi, Out.ok_bind, v1]
        | true =>
          simp only [if_true, Out.ok_bind, ← v1]
          cases e <;> simp_all [TForm.toExpr, Expr.isScal, Expr.el]
      obtain ⟨w, w1, w2⟩ := neg_exact (e.conv_intOk v3.2.2) (by rw [TForm.conv_toD]; exact v2) hz
      refine ⟨w, ?_, by simpa using w2⟩
      simp only [TForm.toExpr, Expr.el]
      rw [← bind_assoc, hp]
      exact w1
  | bin o l1 r1 hl hr =>
    simp only [exact, Option.bind_eq_bind, Option.bind_eq_some_iff] at h
    obtain ⟨f, hf, a, h1, b, h2, h3⟩ := h
    obtain ⟨rfl, h4⟩ := fits_eq h3
    obtain ⟨a1, a2, a3⟩ := hl ht.1 hn.1 a h1
    obtain ⟨b1, b2, b3⟩ := hr ht.2 hn.2.1 b h2
    have pa := List.length_pos_iff.mpr a1
    have pb := List.length_pos_iff.mpr b1
    have hp : ∀ (e : TForm) (l : List ℤ), 0 < l.length → e.toExpr.size env = l.length → ∀ i v,
        e.toExpr.el env (i % l.length) = .ok v →
        posOf e.toExpr.isScal (e.toExpr.size env) i >>= (fun k => e.toExpr.el env k) = .ok v := by
      intro e l p n2 i v v1
      unfold posOf
      cases hs : e.toExpr.isScal with
      | false =>
        simp only [Bool.false_eq_true, if_false, n2, modz_pos p, Out.ok_bind, v1]
      | true =>
        simp only [if_true, Out.ok_bind, ← v1]
        cases e <;> simp_all [TForm.toExpr, Expr.isScal, Expr.el]
    have hs1 : ∀ e : TForm, e.toExpr.isScal = true → e.toExpr.size env = 1 := by
      intro e h; cases e <;> simp_all [TForm.toExpr, Expr.isScal, Expr.size]
    refine ⟨?_, ?_, fun i hi => ?_⟩
    · rw [← List.length_pos_iff]; simp only [List.length_map, List.length_range]; omega
    · simp only [TForm.toExpr, Expr.size, List.length_map, List.length_range]
      have e1 := hs1 l1
      have e2 := hs1 r1
      rw [a2] at *; rw [b2] at *
      cases hx : l1.toExpr.isScal <;> cases hy : r1.toExpr.isScal <;>
        simp only [hx, hy, Bool.false_eq_true, and_self, and_false, false_and, if_true, if_false,
          true_implies] at * <;> (try split) <;> omega
    · simp only [List.length_map, List.length_range] at hi
      have ia := Nat.mod_lt i pa
      have ib := Nat.mod_lt i pb
      obtain ⟨v, v1, v2⟩ := a3 (i % a.length) ia
      obtain ⟨w, w1, w2⟩ := b3 (i % b.length) ib
      have v3 := TForm.tracks env l1 ht.1 hn.1 (i % a.length)
      have w3 := TForm.tracks env r1 ht.2 hn.2.1 (i % b.length)
      rw [v1] at v3; rw [w1] at w3
      have hz := h4 (f a[i % a.length] b[i % b.length]) (by
        simp only [List.mem_map, List.mem_range]
        exact ⟨i, hi, by simp [ia, ib]⟩)
      obtain ⟨u, u1, u2⟩ := intOp_exact hf (l1.conv_intOk v3.2.2) (r1.conv_intOk w3.2.2)
        (by rw [v3.2.1, w3.2.1]; exact hn.2.2) (by rw [TForm.conv_toD]; exact v2)
        (by rw [TForm.conv_toD]; exact w2) hz
      refine ⟨u, ?_, ?_⟩
      · simp only [TForm.toExpr, Expr.el]
        have e1 := hp l1 a pa a2 i v v1
        have e2 := hp r1 b pb b2 i w w1
        rw [← bind_assoc, e1, Out.ok_bind, ← bind_assoc, e2]
        exact u1
      · rw [u2]; simp [ia, ib]
  | sub e ind mp ih =>
    simp only [exact, Option.bind_eq_bind, Option.bind_eq_some_iff] at h
    obtain ⟨l', h1, h2⟩ := h
    split at h2
    · rename_i h3
      cases h2
      obtain ⟨n1, n2, n3⟩ := ih ht hn l' h1
      refine ⟨by simpa using h3.1, by simp [TForm.toExpr, Expr.size], fun i hi => ?_⟩
      simp only [List.length_map] at hi
      have hj := h3.2.2 ind[i] (List.getElem_mem hi)
      obtain ⟨v, v1, v2⟩ := n3 ind[i] hj
      refine ⟨v, ?_, by rw [v2]; simp [hj]⟩
      simp only [TForm.toExpr, Expr.el, n2, modz_pos (List.length_pos_iff.mpr n1),
        Nat.mod_eq_of_lt (Nat.lt_of_lt_of_le hi h3.2.1), Out.ok_bind]
      simp only [getL, List.getElem?_eq_getElem hi, Out.ok_bind, v1]
    · cases h2

/-- C98, whole numbers (partial: no `+`, `-`, `*` of two logical operands; all intermediate results fit in
32 bits).  A formula of `+`, `-`, `*`, unary minus and subsets over vectors of whole numbers, stored
with whatever element types, stores the exact whole numbers in a vector of doubles and in a vector of
integers. -/
theorem C98_exact_partial (env : Env Scal) (ρ : Nat → List ℤ)
    (hρ : ∀ x, env.size x = (ρ x).length ∧
      ∀ i (hi : i < (ρ x).length), ∃ v, env.get x i = .ok v ∧ v.toD = fin ((ρ x)[i] : ℤ))
    (e : TForm) (ht : TypedIn env e) (hn : NoLogical e) (l : List ℤ) (h : exact ρ e = some l) :
    e.toExpr.size env = l.length ∧
    ∀ i (hi : i < l.length), e.elTo .double env i = .ok (.d (fin (l[i] : ℤ))) ∧
      e.elTo .int env i = .ok (.i l[i]) := by
  obtain ⟨_, h2, h3⟩ := exact_el env ρ hρ e ht hn l h
  have hf := exact_fits ρ e l h
  refine ⟨h2, fun i hi => ?_⟩
  obtain ⟨v, v1, v2⟩ := h3 i hi
  have hno : ∀ t, e.elTo t env i = (Scal.d v.toD).to t := by
    intro t
    have h := TForm.tracks env e ht hn i
    rw [v1] at h
    exact TForm.elTo_ok t v1 h.2.1 h.2.2
  rw [hno, hno, v2]
  refine ⟨rfl, ?_⟩
  simp only [Scal.to, F64.toI32, TForm.truncQ_int, if_pos (hf _ (List.getElem_mem hi)), Out.ok_bind]
  rfl

/-- Vectors 0 to 2 as integers, logicals and doubles. -/
def typedSample : Env Scal :=
  listEnv [[.i 7, .i (-3), .i 2], [.b true, .b false], [.d (fin 10), .d (fin 20), .d (fin 5)]]

/-- The same numbers, all double. -/
def typedSampleD : Env Scal :=
  listEnv [[.d (fin 7), .d (fin (-3)), .d (fin 2)], [.d (fin 1), .d (fin 0)],
    [.d (fin 10), .d (fin 20), .d (fin 5)]]

/-- `-(x * flag) + subset(z, c(3, 1))`. -/
def typedForm (s t u : Ty) : TForm :=
  .bin .plus (.un .neg (.bin .times (.leaf s 0) (.leaf t 1))) (.sub (.leaf u 2) [2, 0] {})

/-- The formula on integers, logicals and doubles, and on doubles only. -/
example : (List.range 3).map ((typedForm .int .bool .double).elTo .double typedSample)
      = [.ok (.d (fin (-2))), .ok (.d (fin 10)), .ok (.d (fin 3))] ∧
    (List.range 3).map ((typedForm .double .double .double).elTo .int typedSampleD)
      = [.ok (.i (-2)), .ok (.i 10), .ok (.i 3)] ∧
    exact (fun x => ([[7, -3, 2], [1, 0], [10, 20, 5]] : List (List ℤ))[x]?.getD [])
      (typedForm .int .bool .double) = some [-2, 10, 3] ∧
    Retyped (typedForm .int .bool .double) (typedForm .double .double .double) := by
  refine ⟨by decide +kernel, by decide +kernel, by decide +kernel, ?_⟩
  simp [typedForm, Retyped]

example : NoLogical (typedForm .int .bool .double) ∧ NoLogical (typedForm .double .double .double) := by
  simp [typedForm, NoLogical, TForm.ty, TForm.retTy]

/-- C98 is false: the sum of two logical vectors is logical, on doubles it is the sum. -/
theorem C98_false_logical :
    (TForm.bin .plus (.leaf .bool 0) (.leaf .bool 0)).elTo .double (listEnv [[.b true]]) 0
      = .ok (.d (fin 1)) ∧
    (TForm.bin .plus (.leaf .double 0) (.leaf .double 0)).elTo .double (listEnv [[.d (fin 1)]]) 0
      = .ok (.d (fin 2)) := by
  decide +kernel

/-- C98 is false: a product of two integers that does not fit in 32 bits has undefined behaviour even
if it is added to a double and stored as a double; on doubles it is computed. -/
theorem C98_false_overflow :
    (TForm.bin .plus (.bin .times (.leaf .int 0) (.leaf .int 0)) (.scal (.d (fin 1)))).elTo .double
      (listEnv [[.i 65536]]) 0 = .ub .intOverflow ∧
    (TForm.bin .plus (.bin .times (.leaf .double 0) (.leaf .double 0)) (.scal (.d (fin 1)))).elTo
      .double (listEnv [[.d (fin 65536)]]) 0 = .ok (.d (fin 4294967297)) := by
  decide +kernel

/-- C25 for the functions of the C library (`sinus`, `exp`, `sqrt`, ...), in every element type: element `i` is the `double` that the
function has at the number `l[i]`.  Integers are exact, `true` is 1. -/
theorem C25_numeric_partial (env : Env Scal) (e : Expr Scal) (l : List Scal) (g : F64 → F64) (hz : e.size env = l.length)
    (he : ∀ i (hi : i < l.length), e.el env i = .ok l[i]) (i : Nat) (hi : i < l.length) :
    (∀ n, InI32 n → l[i] = .i n → (Expr.un (Trait.unary g) e).el env i = .ok (.d (g (.fin n)))) ∧
    (∀ x, l[i] = .d x → (Expr.un (Trait.unary g) e).el env i = .ok (.d (g x))) ∧
    (∀ b, l[i] = .b b → (Expr.un (Trait.unary g) e).el env i = .ok (.d (g (.fin (if b then 1 else 0))))) := by
  have h := (C25_elementwise_partial env e l (Trait.unary g) hz he).2 i hi
  refine ⟨fun n hn e => ?_, fun x e => ?_, fun b e => ?_⟩ <;> rw [h, e] <;> simp only [Trait.unary, Scal.toD]
  · unfold InI32 at hn
    rw [F64.ofInt_eq (by rw [abs_le]; omega)]
  · cases b <;> rw [F64.ofInt_eq (by decide)] <;> norm_num

example : ∃ (l : List Scal) (e : Expr Scal), e.size (listEnv [l]) = l.length ∧
    (∀ i (hi : i < l.length), e.el (listEnv [l]) i = .ok l[i]) ∧
    (Expr.un (Trait.unary F64.neg) e).el (listEnv [l]) 1 = .ok (.d (.fin (-7))) :=
  ⟨[.b true, .i 7, .d (.fin (1 / 2))], .leaf 0, rfl, by decide +kernel, by decide +kernel⟩

theorem typedSample_typed : TypedIn typedSample (typedForm .int .bool .double) ∧ TypedIn typedSampleD (typedForm .double .double .double) := by
  have H : ∀ (t : Ty) (l : List Scal), (∀ v ∈ l, v.ty = t ∧ IntOk v) → ∀ i v, getL l i = .ok v → v.ty = t ∧ IntOk v := by
    intro t l hl i v h
    unfold getL at h
    split at h
    · rename_i e; cases h; exact hl v (List.mem_of_getElem? e)
    · cases h
  refine ⟨⟨⟨H _ [.i 7, .i (-3), .i 2] ?_, H _ [.b true, .b false] ?_⟩, H _ [.d (fin 10), .d (fin 20), .d (fin 5)] ?_⟩,
    ⟨H _ [.d (fin 7), .d (fin (-3)), .d (fin 2)] ?_, H _ [.d (fin 1), .d (fin 0)] ?_⟩, H _ [.d (fin 10), .d (fin 20), .d (fin 5)] ?_⟩
  all_goals
    intro v hv
    simp only [List.mem_cons, List.not_mem_nil, or_false] at hv
    rcases hv with rfl | rfl | rfl <;> exact ⟨rfl, fun _ h => by cases h; all_goals decide⟩

example : ∀ i, (typedForm .int .bool .double).elTo .double typedSample i = (typedForm .double .double .double).elTo .double typedSampleD i ∨
    (typedForm .int .bool .double).elTo .double typedSample i = .ub .intOverflow ∨
    (typedForm .double .double .double).elTo .double typedSampleD i = .ub .intOverflow := by
  refine (C98_partial .double (typedForm .int .bool .double) (typedForm .double .double .double) typedSample typedSampleD
    (by simp [typedForm, Retyped]) ⟨?_, ?_⟩ typedSample_typed.1 typedSample_typed.2 (by simp [typedForm, NoLogical, TForm.ty, TForm.retTy])
    (by simp [typedForm, NoLogical, TForm.ty, TForm.retTy])).2
  · intro x
    match x with
    | 0 | 1 | 2 => rfl
    | x + 3 => rfl
  · intro x i
    match x, i with
    | 0, 0 | 0, 1 | 0, 2 | 1, 0 | 1, 1 | 2, 0 | 2, 1 | 2, 2 => unfold SameNumber; decide +kernel
    | 0, i + 3 | 1, i + 2 | 2, i + 3 => rfl
    | x + 3, i => rfl

end ETR
