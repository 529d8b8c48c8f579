import Verif.Props.Typed
import Verif.Props.Helper
import Verif.Props.RIface

/-! Missing values in formulas: C101. -/

namespace ETR
open Spec

namespace Spec

/-- An operation of IEEE arithmetic without a result although both operands are numbers or infinite. -/
def Invalid : BinO → F64 → F64 → Prop
  | .plus, x, y => ∃ s, x = .inf s ∧ y = .inf (!s)
  | .minus, x, y => ∃ s, x = .inf s ∧ y = .inf s
  | .times, x, y => (x = .fin 0 ∧ ∃ s, y = .inf s) ∨ ((∃ s, x = .inf s) ∧ y = .fin 0)
  | .divide, x, y => (x = .fin 0 ∧ y = .fin 0) ∨ ∃ s t, x = .inf s ∧ y = .inf t
  | _, _, _ => False

/-- `+`, `-`, `*` and `/`. -/
def Arithmetic (o : BinO) : Prop := o = .plus ∨ o = .minus ∨ o = .times ∨ o = .divide

/-- The number that element `i` of a formula stands for. -/
def IsNumber (env : Env Scal) (e : TForm) (i : Nat) (x : F64) : Prop :=
  ∃ v, e.toExpr.el env i = .ok v ∧ (e.conv v).toD = x

/-- Element `i` of a formula is computed from a missing value by arithmetic, or by an operation without a result. -/
inductive Hit (env : Env Scal) : TForm → Nat → Prop
  | vector {t : Ty} {x i : Nat} : env.get x i = .ok (.d .nan) → Hit env (.leaf t x) i
  | number {i : Nat} : Hit env (.scal (.d .nan)) i
  | negated {e : TForm} {i : Nat} : Hit env e (i % e.toExpr.size env) → Hit env (.un .neg e) i
  | function {g : F64 → F64} {e : TForm} {i : Nat} {x : F64} : IsNumber env e (i % e.toExpr.size env) x → g x = .nan → Hit env (.un (.fn g) e) i
  | left {o : BinO} {l r : TForm} {i : Nat} : Arithmetic o → Hit env l (i % l.toExpr.size env) → Hit env (.bin o l r) i
  | right {o : BinO} {l r : TForm} {i : Nat} : Arithmetic o → Hit env r (i % r.toExpr.size env) → Hit env (.bin o l r) i
  | invalid {o : BinO} {l r : TForm} {i : Nat} {x y : F64} : IsNumber env l (i % l.toExpr.size env) x →
      IsNumber env r (i % r.toExpr.size env) y → Invalid o x y → Hit env (.bin o l r) i
  | selected {e : TForm} {ind : List Nat} {mp : MP} {i j : Nat} : ind[i % e.toExpr.size env]? = some j → Hit env e j →
      Hit env (.sub e ind mp) i

end Spec

theorem F64.rnd_ne_nan (q : ℚ) : F64.rnd q ≠ .nan := by
  unfold F64.rnd; simp only; split <;> simp

theorem F64.add_nan (x y : F64) : F64.add x y = .nan ↔ x = .nan ∨ y = .nan ∨ Invalid .plus x y := by
  cases x <;> cases y <;> simp [F64.add, Invalid, F64.rnd_ne_nan]
  rename_i a b; cases a <;> cases b <;> simp

theorem F64.sub_nan (x y : F64) : F64.sub x y = .nan ↔ x = .nan ∨ y = .nan ∨ Invalid .minus x y := by
  cases x <;> cases y <;> simp [F64.sub, F64.neg, F64.add, Invalid, F64.rnd_ne_nan]
  rename_i a b; cases a <;> cases b <;> simp

theorem F64.mul_nan (x y : F64) : F64.mul x y = .nan ↔ x = .nan ∨ y = .nan ∨ Invalid .times x y := by
  cases x <;> cases y <;> simp [F64.mul, Invalid, F64.rnd_ne_nan]

theorem F64.div_nan (x y : F64) : F64.div x y = .nan ↔ x = .nan ∨ y = .nan ∨ Invalid .divide x y := by
  cases x <;> cases y <;> simp [F64.div, Invalid]
  rename_i p q
  by_cases h : q = 0 <;> by_cases h' : p = 0 <;> simp [h, h', F64.rnd_ne_nan]

theorem Scal.toD_nan {v : Scal} : v.toD = .nan ↔ v = .d .nan := by
  cases v with
  | b v => simp [Scal.toD, F64.ofInt, F64.rnd_ne_nan]
  | i n => simp [Scal.toD, F64.ofInt, F64.rnd_ne_nan]
  | d x => simp [Scal.toD]

theorem intOk_finite {v : Scal} (h : IntOk v) {n : Int} (e : v.int? = some n) : ∃ q, v.toD = .fin q := ⟨_, (h.toD_int e).1⟩

theorem arith_nan {fi : Int → Int → Int} {fd : F64 → F64 → F64} {o : BinO}
    (hf : ∀ x y, fd x y = .nan ↔ x = .nan ∨ y = .nan ∨ Invalid o x y) (hi : ∀ p q, ¬ Invalid o (.fin p) (.fin q))
    {l r v : Scal} (hl : IntOk l) (hr : IntOk r) (h : Trait.arith fi fd l r = .ok v) :
    IntOk v ∧ (v = .d .nan ↔ l = .d .nan ∨ r = .d .nan ∨ Invalid o l.toD r.toD) := by
  unfold Trait.arith at h
  rw [← Scal.toD_nan, ← Scal.toD_nan, ← Scal.toD_nan]
  cases h1 : l.int? with
  | none =>
    rw [h1] at h
    have : v = .d (fd l.toD r.toD) := by simpa using h.symm
    subst this
    exact ⟨.d _, hf _ _⟩
  | some x =>
    cases h2 : r.int? with
    | none =>
      rw [h1, h2] at h
      have : v = .d (fd l.toD r.toD) := by simpa using h.symm
      subst this
      exact ⟨.d _, hf _ _⟩
    | some y =>
      rw [h1, h2] at h
      obtain ⟨p, hp⟩ := intOk_finite hl h1
      obtain ⟨q, hq⟩ := intOk_finite hr h2
      rw [hp, hq]
      by_cases hz : InI32 (fi x y)
      · simp only [ckI32, if_pos hz, Out.ok_bind] at h
        split at h
        · have : v = .b (decide (fi x y ≠ 0)) := by simpa using h.symm
          subst this
          exact ⟨.b _, by simp [Scal.toD_nan, hi]⟩
        · have : v = .i (fi x y) := by simpa using h.symm
          subst this
          exact ⟨fun n e => by cases e; exact hz, by simp [Scal.toD_nan, hi]⟩
      · simp [ckI32, if_neg hz] at h

theorem BinO.nan (o : BinO) {l r v : Scal} (hl : IntOk l) (hr : IntOk r) (h : o.f l r = .ok v) :
    IntOk v ∧ (v = .d .nan ↔ (Arithmetic o ∧ (l = .d .nan ∨ r = .d .nan)) ∨ Invalid o l.toD r.toD) := by
  have bool : ∀ {b : Out Bool}, (do let v ← b; return Scal.b v : Out Scal) = .ok v → IntOk v ∧ v ≠ .d .nan := by
    intro b hb
    cases b with
    | ok b => simp at hb; subst hb; exact ⟨.b _, by simp⟩
    | thr e => simp at hb
    | ub k => simp at hb
  cases o with
  | plus =>
    obtain ⟨h1, h2⟩ := arith_nan (o := .plus) F64.add_nan (by simp [Invalid]) hl hr h
    exact ⟨h1, by rw [h2]; simp [Arithmetic, or_assoc]⟩
  | minus =>
    obtain ⟨h1, h2⟩ := arith_nan (o := .minus) F64.sub_nan (by simp [Invalid]) hl hr h
    exact ⟨h1, by rw [h2]; simp [Arithmetic, or_assoc]⟩
  | times =>
    obtain ⟨h1, h2⟩ := arith_nan (o := .times) F64.mul_nan (by simp [Invalid]) hl hr h
    exact ⟨h1, by rw [h2]; simp [Arithmetic, or_assoc]⟩
  | divide =>
    have : v = .d (F64.div l.toD r.toD) := by simpa [BinO.f, Trait.divide] using h.symm
    subst this
    refine ⟨.d _, ?_⟩
    rw [← Scal.toD_nan, ← Scal.toD_nan, ← Scal.toD_nan]
    show F64.div _ _ = _ ↔ _
    rw [F64.div_nan]; simp [Arithmetic, or_assoc]
  | lt => obtain ⟨h1, h2⟩ := bool (b := .ok _) h; exact ⟨h1, by simp [h2, Arithmetic, Invalid]⟩
  | le => obtain ⟨h1, h2⟩ := bool (b := .ok _) h; exact ⟨h1, by simp [h2, Arithmetic, Invalid]⟩
  | gt => obtain ⟨h1, h2⟩ := bool (b := .ok _) h; exact ⟨h1, by simp [h2, Arithmetic, Invalid]⟩
  | ge => obtain ⟨h1, h2⟩ := bool (b := .ok _) h; exact ⟨h1, by simp [h2, Arithmetic, Invalid]⟩
  | eq => obtain ⟨h1, h2⟩ := bool h; exact ⟨h1, by simp [h2, Arithmetic, Invalid]⟩
  | ne => obtain ⟨h1, h2⟩ := bool h; exact ⟨h1, by simp [h2, Arithmetic, Invalid]⟩

theorem conv_nan (e : TForm) (v : Scal) : e.conv v = .d .nan ↔ v = .d .nan := by
  rw [← Scal.toD_nan, TForm.conv_toD, Scal.toD_nan]

theorem posOf_mod {e : Expr Scal} {env : Env Scal} {i k : Nat} (h : posOf e.isScal (e.size env) i = .ok k) : k = i % e.size env := by
  unfold posOf at h
  split at h
  · rename_i hs
    cases e <;> simp [Expr.isScal] at hs
    simp only [Out.ok.injEq] at h
    subst h
    simp [Expr.size, Nat.mod_one]
  · unfold modz at h
    split at h
    · simp at h
    · simpa using h.symm

theorem bind_eq_ok {α β : Type} {m : Out α} {f : α → Out β} {b : β} (h : (m >>= f) = .ok b) : ∃ a, m = .ok a ∧ f a = .ok b := by
  cases m with
  | ok a => exact ⟨a, rfl, h⟩
  | thr e => simp at h
  | ub k => simp at h

theorem nan_iff_hit {env : Env Scal} (e : TForm) (ht : TypedIn env e) :
    ∀ i v, e.toExpr.el env i = .ok v → IntOk v ∧ (v = .d .nan ↔ Hit env e i) := by
  induction e with
  | leaf t x =>
    intro i v h
    refine ⟨(ht i v h).2, fun hv => .vector (hv ▸ h), fun hh => ?_⟩
    cases hh with
    | vector h' => have h : env.get x i = .ok v := h; rw [h] at h'; simpa using h'
  | scal w =>
    intro i v h
    have : w = v := by simpa [TForm.toExpr, Expr.el] using h
    subst this
    refine ⟨ht, fun hv => hv ▸ .number, fun hh => ?_⟩
    cases hh; rfl
  | un o e ih =>
    intro i v h0
    obtain ⟨k, hk, h1⟩ := bind_eq_ok h0
    obtain ⟨w, hw, h⟩ := bind_eq_ok h1
    clear h0 h1
    have hk := posOf_mod hk
    subst hk
    obtain ⟨i1, i2⟩ := ih ht _ _ hw
    cases o with
    | neg =>
      have h : (do let v ← Trait.minusUnary (e.conv w); return Scal.d v.toD) = Out.ok v := h
      obtain ⟨u, hu, h⟩ := bind_eq_ok h
      have : v = .d u.toD := by simpa using h.symm
      subst this
      refine ⟨.d _, ?_⟩
      have key : u.toD = .nan ↔ e.conv w = .d .nan := by
        unfold Trait.minusUnary at hu
        cases hc : (e.conv w).int? with
        | some n =>
          rw [hc] at hu
          obtain ⟨z, hz, hu⟩ := bind_eq_ok hu
          have : u = .i z := by simpa using hu.symm
          subst this
          rw [Scal.toD_nan]
          constructor
          · intro h; cases h
          · intro h; rw [h] at hc; simp [Scal.int?] at hc
        | none =>
          rw [hc] at hu
          have : u = .d (F64.neg (e.conv w).toD) := by simpa using hu.symm
          subst this
          rw [← Scal.toD_nan]
          show F64.neg _ = _ ↔ _
          cases (e.conv w).toD <;> simp [F64.neg]
      rw [Scal.d.injEq, key, conv_nan, i2]
      exact ⟨.negated, fun hh => by cases hh; assumption⟩
    | fn g =>
      have : v = .d (g (e.conv w).toD) := by simpa [UnO.f, Trait.unary] using h.symm
      subst this
      refine ⟨.d _, ?_⟩
      rw [Scal.d.injEq]
      refine ⟨fun hg => .function ⟨w, hw, rfl⟩ hg, fun hh => ?_⟩
      cases hh with
      | function hx hg =>
        obtain ⟨w', hw', rfl⟩ := hx
        rw [hw] at hw'
        simp only [Out.ok.injEq] at hw'
        subst hw'
        exact hg
  | bin o l r ihl ihr =>
    intro i v h0
    obtain ⟨k, hk, h1⟩ := bind_eq_ok h0
    obtain ⟨a, ha, h2⟩ := bind_eq_ok h1
    obtain ⟨k', hk', h3⟩ := bind_eq_ok h2
    obtain ⟨b, hb, h⟩ := bind_eq_ok h3
    clear h0 h1 h2 h3
    have hk := posOf_mod hk
    have hk' := posOf_mod hk'
    subst hk hk'
    obtain ⟨l1, l2⟩ := ihl ht.1 _ _ ha
    obtain ⟨r1, r2⟩ := ihr ht.2 _ _ hb
    obtain ⟨n1, n2⟩ := o.nan (TForm.conv_intOk l l1) (TForm.conv_intOk r r1) h
    refine ⟨n1, ?_⟩
    rw [n2, conv_nan, conv_nan, l2, r2]
    constructor
    · rintro (⟨ho, h | h⟩ | h)
      · exact .left ho h
      · exact .right ho h
      · exact .invalid ⟨a, ha, rfl⟩ ⟨b, hb, rfl⟩ h
    · intro hh
      cases hh with
      | left ho h => exact .inl ⟨ho, .inl h⟩
      | right ho h => exact .inl ⟨ho, .inr h⟩
      | invalid hx hy h =>
        obtain ⟨a', ha', rfl⟩ := hx
        obtain ⟨b', hb', rfl⟩ := hy
        rw [ha] at ha'
        rw [hb] at hb'
        simp only [Out.ok.injEq] at ha' hb'
        subst ha' hb'
        exact .inr h
  | sub e ind mp ih =>
    intro i v h0
    obtain ⟨k, hk, h1⟩ := bind_eq_ok h0
    obtain ⟨j, hj, h⟩ := bind_eq_ok h1
    clear h0 h1
    have hk : k = i % e.toExpr.size env := by
      unfold modz at hk
      split at hk
      · simp at hk
      · simpa using hk.symm
    subst hk
    have hj : ind[i % e.toExpr.size env]? = some j := by
      unfold getL at hj
      split at hj
      · rename_i hw; simp only [Out.ok.injEq] at hj; subst hj; exact hw
      · simp at hj
    obtain ⟨i1, i2⟩ := ih ht _ _ h
    refine ⟨i1, i2.trans ⟨.selected hj, fun hh => ?_⟩⟩
    cases hh with
    | selected hj' h' => rw [hj] at hj'; simp only [Option.some.injEq] at hj'; subst hj'; exact h'

/-- C101, arithmetic: what a vector of doubles gets for element `i` of a formula is missing exactly when the element is computed by
arithmetic from a missing value, or by an operation like `0 / 0`.  Missing: comparisons (`C101_compare_false`), integers
(`C101_integer_false`), logicals (`C66_logical_false`). -/
theorem C101_partial {env : Env Scal} (e : TForm) (ht : TypedIn env e) {i : Nat} {w : Scal} (h : e.elTo .double env i = .ok w) :
    w = .d .nan ↔ Hit env e i := by
  obtain ⟨v, hv, h1⟩ := bind_eq_ok h
  obtain ⟨u, hu, h2⟩ := bind_eq_ok h1
  obtain ⟨_, hn⟩ := nan_iff_hit e ht i v hv
  rw [← hn]
  have : w = .d u.toD := by simpa [Scal.to] using h2.symm
  subst this
  have hd : e.retTy = .double → (Scal.d u.toD = .d .nan ↔ v = .d .nan) := by
    intro hr
    rw [hr] at hu
    have : u = .d (e.conv v).toD := by simpa [Scal.to] using hu.symm
    subst this
    rw [TForm.conv_toD, Scal.d.injEq]
    show v.toD = _ ↔ _
    exact Scal.toD_nan
  have hs : e.conv v = v → v.ty = e.retTy → (Scal.d u.toD = .d .nan ↔ v = .d .nan) := by
    intro h3 h4
    rw [h3, ← h4, TForm.to_self] at hu
    simp only [Out.ok.injEq] at hu
    subst hu
    rw [Scal.d.injEq]
    exact Scal.toD_nan
  cases e with
  | leaf t x => exact hs rfl (ht i v hv).1
  | scal w =>
    have : w = v := by simpa [TForm.toExpr, Expr.el] using hv
    subst this
    exact hs rfl rfl
  | un => exact hd rfl
  | bin => exact hd rfl
  | sub => exact hd rfl

/-- C101, `isNA`: of the elements of a formula it finds exactly those that are computed by arithmetic from a missing value, or by an
operation like `0 / 0`. -/
theorem C101_isNA_partial {env : Env Scal} (e : TForm) (ht : TypedIn env e) {l : List Scal} (hr : Reads env e.toExpr l) {h : Heap Bool}
    (hs : h.sched = []) (h1 : l ≠ []) (h2 : l.length < 2 ^ 59) (ws : List String) :
    ∃ bs, Returns (isNAVec env e.toExpr) h ws ws bs {} ∧ bs.length = l.length ∧
      ∀ i (hi : i < bs.length), bs[i] = true ↔ Hit env e i := by
  refine ⟨l.map isNaN, C64_isNA_partial hr hs h1 h2 ws, by simp, fun i hi => ?_⟩
  have hi' : i < l.length := by simpa using hi
  rw [List.getElem_map, ← (nan_iff_hit e ht i _ (hr.2 i hi')).2]
  simp [isNaN]

/-- C101 is false for comparisons: whenever an operand is missing, the comparison is `FALSE`, for `==` as well as for `!=`. -/
theorem C101_compare_false {env : Env Scal} {o : BinO} (ho : ¬ Arithmetic o) {l r : TForm} {i : Nat} {x y : F64}
    (hz : l.toExpr.size env ≠ 0 ∧ r.toExpr.size env ≠ 0) (hl : IsNumber env l (i % l.toExpr.size env) x)
    (hr : IsNumber env r (i % r.toExpr.size env) y) (hm : x = .nan ∨ y = .nan) :
    (TForm.bin o l r).toExpr.el env i = .ok (.b false) := by
  obtain ⟨a, ha, rfl⟩ := hl
  obtain ⟨b, hb, rfl⟩ := hr
  have pos : ∀ e : TForm, e.toExpr.size env ≠ 0 → ∃ k, posOf e.toExpr.isScal (e.toExpr.size env) i = .ok k ∧
      e.toExpr.el env k = e.toExpr.el env (i % e.toExpr.size env) := by
    intro e he
    unfold posOf modz
    rw [if_neg he]
    split
    · rename_i hs
      refine ⟨0, rfl, ?_⟩
      cases e <;> simp [TForm.toExpr, Expr.isScal] at hs
      rfl
    · exact ⟨_, rfl, rfl⟩
  obtain ⟨k, p1, p2⟩ := pos l hz.1
  obtain ⟨k', p3, p4⟩ := pos r hz.2
  have e1 : (TForm.bin o l r).toExpr.el env i = o.f (l.conv a) (r.conv b) := by
    show (posOf _ _ _ >>= fun k => _) = _
    rw [p1, Out.ok_bind, p2, ha, Out.ok_bind, p3, Out.ok_bind, p4, hb, Out.ok_bind]
  rw [e1]
  generalize l.conv a = v at hm
  generalize r.conv b = w at hm
  rw [Scal.toD_nan, Scal.toD_nan] at hm
  have nanr : ∀ z : F64, F64.lt z .nan = false ∧ F64.le z .nan = false ∧ F64.add z .nan = .nan := by
    intro z; cases z <;> exact ⟨rfl, rfl, rfl⟩
  have nanl : ∀ z : F64, F64.lt .nan z = false ∧ F64.le .nan z = false ∧ F64.add .nan z = .nan := by
    intro z; cases z <;> exact ⟨rfl, rfl, rfl⟩
  rcases hm with rfl | rfl
  · cases o <;> simp [Arithmetic] at ho <;>
      simp [BinO.f, Trait.smaller, Trait.smallerEqual, Trait.larger, Trait.largerEqual, Trait.cmp, Scal.int?, Scal.toD, nanl, nanr,
        Trait.equal, Trait.unequal, Trait.diff, F64.sub, F64.abs]
  · cases o <;> simp [Arithmetic] at ho <;> cases hv : v.int? <;>
      simp [BinO.f, Trait.smaller, Trait.smallerEqual, Trait.larger, Trait.largerEqual, Trait.cmp, Scal.int?, Scal.toD, nanl, nanr,
        Trait.equal, Trait.unequal, Trait.diff, F64.sub, F64.abs, F64.neg]

/-- C101 is false for integers, whose missing value is the smallest `int`: adding to it gives an ordinary integer or overflows, its
negation overflows, and `isNA` does not find it. -/
theorem C101_integer_false {env : Env Scal} {x i : Nat} (hi : i < env.size x) (h : env.get x i = .ok (.i (-2147483648))) {k : Int}
    (hk : InI32 k) :
    (TForm.bin .plus (.leaf .int x) (.scal (.i k))).toExpr.el env i = (if 0 ≤ k then .ok (.i (k - 2147483648)) else .ub .intOverflow) ∧
    (TForm.un .neg (.leaf .int x)).toExpr.el env i = .ub .intOverflow ∧ Scal.isNA (.i (-2147483648)) = false := by
  have hm : i % env.size x = i := Nat.mod_eq_of_lt hi
  have h0 : env.size x ≠ 0 := by omega
  refine ⟨?_, ?_, rfl⟩
  · simp only [TForm.toExpr, Expr.el, Expr.isScal, Expr.size, posOf, modz, if_neg h0, hm, h, Out.ok_bind, TForm.conv, BinO.f, Trait.plus,
      Trait.arith, Scal.int?, ckI32, Bool.false_eq_true, if_false, if_true, Scal.isBool, Bool.and_self]
    by_cases hk' : 0 ≤ k
    · rw [if_pos hk']
      rw [if_pos (by unfold InI32 at hk ⊢; omega), Out.ok_bind]
      rw [show -2147483648 + k = k - 2147483648 by omega]
      rfl
    · rw [if_neg hk']
      rw [if_neg (by unfold InI32 at hk ⊢; omega)]
      rfl
  · simp only [TForm.toExpr, Expr.el, Expr.isScal, Expr.size, posOf, modz, if_neg h0, hm, h, Out.ok_bind, TForm.conv, UnO.f,
      Trait.minusUnary, Scal.int?, ckI32, Bool.false_eq_true, if_false]
    rfl

theorem all_ub {α : Type} {k : UB} : ∀ {l : List (Out α)}, (∀ o ∈ l, (∃ a, o = .ok a) ∨ o = .ub k) → .ub k ∈ l → Out.all l = .ub k
  | [], _, h => by simp at h
  | o :: l, ho, h => by
    rcases ho o (by simp) with ⟨a, rfl⟩ | rfl
    · have h' : (.ub k : Out α) ∈ l := by simpa using h
      rw [Out.all, Out.ok_bind, all_ub (fun o h => ho o (by simp [h])) h', Out.ub_bind]
    · rw [Out.all, Out.ub_bind]

/-- C101 is false for indices: a missing value in a vector of indices has undefined behaviour. -/
theorem C101_index_false {V : Type} (env : Env V) (e : Expr V) (ws : List String) :
    (∀ l, .nan ∈ l → subset env e (.vdbl l) ws = (.ub .badConv, ws)) ∧
    (∀ l : List Int, (∀ n ∈ l, InI32 n) → -2147483648 ∈ l → subset env e (.vint (l.map .i)) ws = (.ub .intOverflow, ws)) := by
  constructor
  · intro l hl
    have h1 : l.length ≥ 1 := List.length_pos_of_mem hl
    have h2 : Out.all (l.map dblPos) = .ub .badConv := by
      refine all_ub (fun o ho => ?_) (List.mem_map.mpr ⟨.nan, hl, rfl⟩)
      obtain ⟨x, _, rfl⟩ := List.mem_map.mp ho
      unfold dblPos F64.toSizeT
      cases x with
      | fin q => by_cases hq : 0 ≤ F64.truncQ q ∧ F64.truncQ q < (two64 : Int)
                 · left; simp [hq]
                 · right; simp [if_neg hq]
      | nan => right; rfl
      | inf b => right; rfl
    unfold subset
    rw [M.bind_ub]
    show (do resizeInd l.length; M.lift (Out.all (l.map dblPos)) : L _) ws = _
    rw [M.bind_ok (by unfold resizeInd M.ass; rw [M.lift_apply, Out.ass_pos h1]), M.lift_apply, h2]
  · intro l hr hl
    have h1 : (l.map Scal.i).length ≥ 1 := by rw [List.length_map]; exact List.length_pos_of_mem hl
    have h2 : Out.all ((l.map Scal.i).map intPos) = .ub .intOverflow := by
      refine all_ub (fun o ho => ?_) (List.mem_map.mpr ⟨.i (-2147483648), List.mem_map.mpr ⟨_, hl, rfl⟩, rfl⟩)
      obtain ⟨x, hx, rfl⟩ := List.mem_map.mp ho
      obtain ⟨n, _, rfl⟩ := List.mem_map.mp hx
      unfold intPos ckI32
      by_cases hn : InI32 (n - 1)
      · left; simp [hn]
      · right; simp [hn]
    unfold subset
    rw [M.bind_ub]
    show (do resizeInd (l.map Scal.i).length; M.lift (Out.all ((l.map Scal.i).map intPos)) : L _) ws = _
    rw [M.bind_ok (by unfold resizeInd M.ass; rw [M.lift_apply, Out.ass_pos h1]), M.lift_apply, h2]

/-- `c(1, NaN, 2) + c(0, 1) * 2` of doubles: only the second element is missing. -/
example :
    let env := listEnv [[.d (.fin 1), .d .nan, .d (.fin 2)], [.d (.fin 0), .d (.fin 1)]]
    let e := TForm.bin .plus (.leaf .double 0) (.bin .times (.leaf .double 1) (.scal (.i 2)))
    (List.range 3).map (e.elTo .double env) = [.ok (.d (.fin 1)), .ok (.d .nan), .ok (.d (.fin 2))] ∧
    (TForm.bin .eq (.leaf .double 0) (.leaf .double 0)).toExpr.el env 1 = .ok (.b false) := by
  decide +kernel

/-- The hypotheses of `C101_partial` for this formula, and the missing value in it. -/
example : let env := listEnv [[.d (.fin 1), .d .nan, .d (.fin 2)], [.d (.fin 0), .d (.fin 1)]]
    Hit env (.bin .plus (.leaf .double 0) (.bin .times (.leaf .double 1) (.scal (.i 2)))) 1 :=
  .left (.inl rfl) (.vector (by decide))

/-- `x + y * 2` with `x = (1, NaN, 2)` and `y = (0, 1)`: the second element is missing, the first is not. -/
theorem sampleMissing_typed : TypedIn (listEnv [[.d (.fin 1), .d .nan, .d (.fin 2)], [.d (.fin 0), .d (.fin 1)]])
    (.bin .plus (.leaf .double 0) (.bin .times (.leaf .double 1) (.scal (.i 2)))) := by
  have H : ∀ l : List Scal, (∀ v ∈ l, v.ty = .double ∧ IntOk v) → ∀ i v, getL l i = .ok v → v.ty = .double ∧ IntOk v := by
    intro l hl i v h
    unfold getL at h
    split at h
    · rename_i e; cases h; exact hl v (List.mem_of_getElem? e)
    · cases h
  refine ⟨H [.d (.fin 1), .d .nan, .d (.fin 2)] ?_, H [.d (.fin 0), .d (.fin 1)] ?_, ?_⟩
  · intro v hv
    simp only [List.mem_cons, List.not_mem_nil, or_false] at hv
    rcases hv with rfl | rfl | rfl <;> exact ⟨rfl, fun _ h => by cases h⟩
  · intro v hv
    simp only [List.mem_cons, List.not_mem_nil, or_false] at hv
    rcases hv with rfl | rfl <;> exact ⟨rfl, fun _ h => by cases h⟩
  · intro n h; cases h; decide

example : ¬ Hit (listEnv [[.d (.fin 1), .d .nan, .d (.fin 2)], [.d (.fin 0), .d (.fin 1)]])
    (.bin .plus (.leaf .double 0) (.bin .times (.leaf .double 1) (.scal (.i 2)))) 0 := fun h => by
  have := (C101_partial _ sampleMissing_typed (i := 0) (w := .d (.fin 1)) (by decide +kernel)).mpr h
  cases this

example : ∃ bs, Returns (isNAVec (listEnv [[.d (.fin 1), .d .nan, .d (.fin 2)], [.d (.fin 0), .d (.fin 1)]])
    (TForm.bin .plus (.leaf .double 0) (.bin .times (.leaf .double 1) (.scal (.i 2)))).toExpr) Heap.empty [] [] bs {} ∧ bs.length = 3 ∧
      ∀ h : 1 < bs.length, bs[1] = true := by
  obtain ⟨bs, h1, h2, h3⟩ := C101_isNA_partial (h := Heap.empty) _ sampleMissing_typed (l := [.d (.fin 1), .d .nan, .d (.fin 2)])
    ⟨rfl, by decide +kernel⟩ rfl (by simp) (by norm_num) []
  exact ⟨bs, h1, h2, fun h => (h3 1 h).mpr (.left (.inl rfl) (.vector (by decide)))⟩

/-- C101 is false for logical R objects: after the assignment to a vector the missing elements are `TRUE`, and `isNA` finds none of the
elements, whatever they were. -/
theorem C101_logical_false {h : Heap Bool} {s : Store} (w : Store.WF h s) (hn : s.allocated = true → s.p ≠ none) (hs : h.sched = [])
    {r : RObj Int} (ht : r.ty = .logical) (hl : r.el.length < 2 ^ 31) :
    ∃ h' s', Store.initSEXP .logical lglOf r (h, s) = (.ok (), (h', s')) ∧ s'.sz = r.el.length ∧
      (∀ i, r.el[i]? = some (-2147483648) → s'.get h' i = .ok true) ∧ ∀ x, Scal.isNA (.b x) = false := by
  obtain ⟨h', s', e, _, _, hsh, _⟩ := initSEXP_ok w hn hs (conv := lglOf) ht hl
  refine ⟨h', s', e, hsh.1.trans (by simp), fun i hi => ?_, fun x => rfl⟩
  obtain ⟨hlt, hv⟩ := List.getElem?_eq_some_iff.mp hi
  rw [hsh.2 i (by simpa using hlt), List.getElem_map, hv]
  rfl

example : ∃ h' s', Store.initSEXP .logical lglOf ⟨.logical, [0, -2147483648, 1], none⟩ (Heap.empty, {}) = (.ok (), (h', s')) ∧
    s'.get h' 1 = .ok true := by
  obtain ⟨h', s', e, _, hg, _⟩ := C101_logical_false (h := Heap.empty) (s := {}) (r := ⟨.logical, [0, -2147483648, 1], none⟩)
    (Store.WF.default _) (by simp) rfl rfl (by norm_num)
  exact ⟨h', s', e, hg 1 rfl⟩

end ETR
