import Verif.Model.Traits
import Verif.Lemmas.F64

/-! Element functions: C26, C27, C28, C73, C74. -/

namespace ETR
namespace Trait
open F64

/-- The mathematical value of an element, if it is a finite number. -/
def value : Scal → Option ℚ
  | .b v => some (if v then 1 else 0)
  | .i n => some n
  | .d (.fin q) => some q
  | .d _ => none

/-- The element is a value that occurs in the program: integers fit in 32 bits, doubles are binary64
numbers. -/
def Genuine : Scal → Prop
  | .b _ => True
  | .i n => InI32 n
  | .d x => F64.Valid x

theorem ofInt_I32 {n : Int} (h : InI32 n) : ofInt n = fin n :=
  ofInt_eq (by
    obtain ⟨h1, h2⟩ := h
    rw [abs_le]; constructor <;> omega)

theorem toD_int {l : Scal} (g : Genuine l) {x : Int} (h : l.int? = some x) :
    l.toD = fin x ∧ InI32 x := by
  cases l with
  | b v =>
    simp only [Scal.int?, Option.some.injEq] at h
    subst h
    have : InI32 (if v = true then 1 else 0) := by cases v <;> decide
    exact ⟨ofInt_I32 this, this⟩
  | i n =>
    simp only [Scal.int?, Option.some.injEq] at h
    subst h
    exact ⟨ofInt_I32 g, g⟩
  | d x => simp [Scal.int?] at h

theorem toD_value {l : Scal} (g : Genuine l) {q : ℚ} (h : value l = some q) : l.toD = fin q := by
  cases l with
  | b v =>
    have := (toD_int (l := .b v) trivial rfl).1
    simp only [value, Option.some.injEq] at h
    subst h
    rw [this]; cases v <;> simp
  | i n =>
    have := (toD_int (l := .i n) g rfl).1
    simp only [value, Option.some.injEq] at h
    subst h
    exact this
  | d x =>
    cases x with
    | fin p => simp only [value, Option.some.injEq] at h; subst h; rfl
    | nan => simp [value] at h
    | inf b => simp [value] at h

/-! ## C27 division -/

/-- C27: the quotient of two numbers, of whatever element types, is the correctly rounded real
quotient. -/
theorem C27_quotient (l r : Scal) (gl : Genuine l) (gr : Genuine r) (p q : ℚ)
    (hl : value l = some p) (hr : value r = some q) (hq : q ≠ 0) :
    divide l r = .ok (.d (rnd (p / q))) := by
  unfold divide
  rw [toD_value gl hl, toD_value gr hr]
  simp [div, hq]

/-- C27: division by zero gives an infinity with the sign of the dividend or NaN; no exception and no
undefined behaviour.  (A zero divisor counts as `+0`.) -/
theorem C27_by_zero (l r : Scal) (gl : Genuine l) (gr : Genuine r) (p : ℚ)
    (hl : value l = some p) (hr : value r = some 0) :
    divide l r = .ok (.d (if p = 0 then .nan else .inf (decide (p < 0)))) := by
  unfold divide
  rw [toD_value gl hl, toD_value gr hr]
  simp [div]

/-- C27: no division throws or has undefined behaviour. -/
theorem C27_total (l r : Scal) : ∃ x, divide l r = .ok (.d x) := ⟨_, rfl⟩

example : divide (.i 7) (.i 2) = .ok (.d (.fin (7 / 2))) := by decide +kernel
example : divide (.b true) (.i 0) = .ok (.d (.inf false)) := by decide +kernel

/-! ## C28 integer arithmetic -/

/-- C28: integer `+`, `-`, `*` return the exact result, as an integer, if and only if it fits in 32
bits; otherwise the behaviour is undefined. -/
theorem C28_exact (a b : Int) :
    (plus (.i a) (.i b) = if InI32 (a + b) then .ok (.i (a + b)) else .ub .intOverflow) ∧
    (minus (.i a) (.i b) = if InI32 (a - b) then .ok (.i (a - b)) else .ub .intOverflow) ∧
    (times (.i a) (.i b) = if InI32 (a * b) then .ok (.i (a * b)) else .ub .intOverflow) := by
  refine ⟨?_, ?_, ?_⟩ <;>
  · simp only [plus, minus, times, arith, Scal.int?, ckI32]
    split <;> rfl

/-- C28: an integer mixed with a double is computed in double. -/
theorem C28_mixed (a : Int) (x : F64) (h : InI32 a) :
    plus (.i a) (.d x) = .ok (.d (add (fin a) x)) ∧
    minus (.i a) (.d x) = .ok (.d (sub (fin a) x)) ∧
    times (.i a) (.d x) = .ok (.d (mul (fin a) x)) := by
  simp [plus, minus, times, arith, Scal.int?, Scal.toD, ofInt_I32 h]

/-- Unary minus is exact except on the smallest integer. -/
theorem C28_minus_unary (a : Int) (h : InI32 a) :
    minusUnary (.i a) = if a = -2147483648 then .ub .intOverflow else .ok (.i (-a)) := by
  simp only [minusUnary, Scal.int?, ckI32]
  by_cases h2 : a = -2147483648
  · subst h2; rfl
  · rw [if_pos (by obtain ⟨h3, h4⟩ := h; constructor <;> omega), if_neg h2]; rfl

example : times (.i 65536) (.i 32767) = .ok (.i 2147418112) := by decide +kernel
example : times (.i 65536) (.i 32768) = .ub .intOverflow := by decide +kernel

/-! ## C73 arithmetic on logical elements -/

/-- C73 is false: the sum of two logical elements is again logical, `TRUE + TRUE` is `TRUE`. -/
theorem C73_false_sum : plus (.b true) (.b true) = .ok (.b true) ∧
    minus (.b false) (.b true) = .ok (.b true) := by
  decide +kernel

/-- C73 (partial: the result is a logical element, it is right only if it is 0 or 1): what the code
does on two logical elements, and the products, which are right. -/
theorem C73_logical_partial (x y : Bool) :
    plus (.b x) (.b y) = .ok (.b (x || y)) ∧ minus (.b x) (.b y) = .ok (.b (x != y)) ∧
    times (.b x) (.b y) = .ok (.b (x && y)) := by
  cases x <;> cases y <;> decide +kernel

/-- C73, logical with integer: the logical element counts as 0 or 1. -/
theorem C73_logical_int (x : Bool) (a : Int) (h : InI32 (a + if x then 1 else 0)) :
    plus (.b x) (.i a) = .ok (.i ((if x then 1 else 0) + a)) ∧
    plus (.i a) (.b x) = .ok (.i (a + if x then 1 else 0)) := by
  simp only [plus, arith, Scal.int?, ckI32, add_comm (if x = true then (1 : Int) else 0) a, if_pos h]
  exact ⟨rfl, rfl⟩

/-- C73, logical with double. -/
theorem C73_logical_double (x : Bool) (q : ℚ) :
    plus (.b x) (.d (fin q)) = .ok (.d (rnd ((if x then 1 else 0) + q))) ∧
    times (.b x) (.d (fin q)) = .ok (.d (rnd ((if x then 1 else 0) * q))) := by
  have := (toD_int (l := .b x) trivial rfl).1
  simp only [plus, times, arith, Scal.int?, this]
  cases x <;> simp [Scal.toD, add, mul]

/-- The number an element stands for: TRUE is the integer 1, FALSE the integer 0. -/
def asNumber : Scal → Scal
  | .b v => .i (if v then 1 else 0)
  | x => x

/-- C73 for all operators and all pairs of elements that are not both logical: the result, or the undefined behaviour, is that of the
numbers. -/
theorem C73_mixed_partial (l r : Scal) (h : ∀ x y, ¬ (l = .b x ∧ r = .b y)) :
    plus l r = plus (asNumber l) (asNumber r) ∧ minus l r = minus (asNumber l) (asNumber r) ∧
    times l r = times (asNumber l) (asNumber r) ∧ divide l r = divide (asNumber l) (asNumber r) := by
  have key : ∀ fi fd, arith fi fd l r = arith fi fd (asNumber l) (asNumber r) := by
    intro fi fd
    rcases l with x | x | x <;> rcases r with y | y | y <;> first | exact absurd ⟨rfl, rfl⟩ (h _ _) | rfl
  refine ⟨key _ _, key _ _, key _ _, ?_⟩
  rcases l with x | x | x <;> rcases r with y | y | y <;> rfl

/-- C73 for two logical elements: the quotient is always that of the numbers.  The other results are logical; they stand for the right
number exactly as follows: the sum unless both are TRUE, the difference unless it is FALSE - TRUE, the product always. -/
theorem C73_logical_iff (x y : Bool) :
    ((∃ z, plus (.b x) (.b y) = .ok z ∧ plus (asNumber (.b x)) (asNumber (.b y)) = .ok (asNumber z)) ↔ ¬ (x = true ∧ y = true)) ∧
    ((∃ z, minus (.b x) (.b y) = .ok z ∧ minus (asNumber (.b x)) (asNumber (.b y)) = .ok (asNumber z)) ↔ ¬ (x = false ∧ y = true)) ∧
    (∃ z, times (.b x) (.b y) = .ok z ∧ times (asNumber (.b x)) (asNumber (.b y)) = .ok (asNumber z)) ∧
    divide (.b x) (.b y) = divide (asNumber (.b x)) (asNumber (.b y)) := by
  obtain ⟨h1, h2, h3⟩ := C73_logical_partial x y
  rw [h1, h2, h3]
  simp only [Out.ok.injEq, exists_eq_left']
  cases x <;> cases y <;> decide +kernel

/-! ## C74 powers of integers -/

/-- C74 is false: the power of two integers is truncated to an integer; for every `pow` of the C
library that returns `0.5` for `pow(2, -1)`, the result is `0`. -/
theorem C74_false_negative (pw : F64 → F64 → F64) (h : pw (fin 2) (fin (-1)) = fin (1 / 2)) :
    pow pw (.i 2) (.i (-1)) = .ok (.i 0) := by
  have h1 : (Scal.i 2).toD = fin 2 := (toD_int (l := .i 2) (by decide : InI32 2) rfl).1
  have h2 : (Scal.i (-1)).toD = fin (-1) := by
    have := (toD_int (l := .i (-1)) (by decide : InI32 (-1)) rfl).1
    simpa using this
  simp only [pow, Scal.int?, Scal.isBool, h1, h2, h, Bool.and_self, Bool.false_eq_true, if_false]
  decide +kernel

/-- C74 is false: a power outside of the range of `int` is undefined behaviour. -/
theorem C74_false_overflow (pw : F64 → F64 → F64) (h : pw (fin 10) (fin 10) = fin 10000000000) :
    pow pw (.i 10) (.i 10) = .ub .badConv := by
  have h1 : (Scal.i 10).toD = fin 10 := (toD_int (l := .i 10) (by decide : InI32 10) rfl).1
  simp only [pow, Scal.int?, Scal.isBool, h1, h, Bool.and_self, Bool.false_eq_true, if_false]
  decide +kernel

/-- C74 (partial: only if the C library function returns the exact power and it fits in 32 bits). -/
theorem C74_exact_partial (pw : F64 → F64 → F64) (a b c : Int) (ha : InI32 a) (hb : InI32 b)
    (hc : InI32 c) (h : pw (fin a) (fin b) = fin c) : pow pw (.i a) (.i b) = .ok (.i c) := by
  have t : truncQ (c : ℚ) = c := by
    unfold truncQ
    by_cases h0 : (0 : ℚ) ≤ c
    · rw [if_pos h0]; exact Int.floor_intCast (R := ℚ) c
    · rw [if_neg h0]
      have : Rat.floor (-(c : ℚ)) = -c := by
        have := Int.floor_intCast (R := ℚ) (-c)
        rw [Int.cast_neg] at this
        exact this
      rw [this]; omega
  simp only [pow, Scal.int?, Scal.isBool, (toD_int (l := .i a) ha rfl).1,
    (toD_int (l := .i b) hb rfl).1, h, Bool.and_self, Bool.false_eq_true, if_false, F64.toI32, t,
    if_pos hc]
  rfl

/-- C74 for a double base or exponent: the value of the C library function. -/
theorem C74_double (pw : F64 → F64 → F64) (x : F64) (r : Scal) :
    pow pw (.d x) r = .ok (.d (pw x r.toD)) := by
  simp [pow, Scal.int?, Scal.toD]

/-- What the power of two integers is: the value of the C library function without its fraction, undefined if that is no `int`. -/
theorem C74_characterised (pw : F64 → F64 → F64) (a b : Int) (ha : InI32 a) (hb : InI32 b) :
    (∀ q, pw (fin a) (fin b) = fin q → -2147483649 < q → q < 2147483648 →
      ∃ c : Int, pow pw (.i a) (.i b) = .ok (.i c) ∧ |(c : ℚ)| ≤ |q| ∧ |q - c| < 1 ∧ 0 ≤ c * q) ∧
    ((∀ q, pw (fin a) (fin b) = fin q → ¬ (-2147483649 < q ∧ q < 2147483648)) → pow pw (.i a) (.i b) = .ub .badConv) := by
  have e : pow pw (.i a) (.i b) = (do let z ← F64.toI32 (pw (fin a) (fin b)); return .i z) := by
    simp only [pow, Scal.int?, Scal.isBool, (toD_int (l := .i a) ha rfl).1, (toD_int (l := .i b) hb rfl).1, Bool.and_self,
      Bool.false_eq_true, if_false]
  rw [e]
  have hin : ∀ q : ℚ, InI32 (truncQ q) ↔ -2147483649 < q ∧ q < 2147483648 := by
    intro q
    unfold truncQ InI32
    split
    · next h =>
      have h1 : (0 : Int) ≤ q.floor := Int.floor_nonneg.mpr h
      have h2 : q.floor < 2147483648 ↔ q < 2147483648 := by
        have := Int.floor_lt (a := q) (z := 2147483648); exact_mod_cast this
      rw [h2]
      constructor
      · rintro ⟨_, h3⟩; exact ⟨by linarith, h3⟩
      · rintro ⟨_, h3⟩; exact ⟨by omega, h3⟩
    · next h =>
      have h0 : (0 : ℚ) ≤ -q := by linarith
      have h1 : (0 : Int) ≤ (-q).floor := Int.floor_nonneg.mpr h0
      have h2 : (-q).floor < 2147483649 ↔ -q < 2147483649 := by
        have := Int.floor_lt (a := -q) (z := 2147483649); exact_mod_cast this
      constructor
      · rintro ⟨h3, _⟩
        have := h2.mp (by omega)
        exact ⟨by linarith, by linarith⟩
      · rintro ⟨h3, _⟩
        have := h2.mpr (by linarith)
        exact ⟨by omega, by omega⟩
  refine ⟨fun q hq h1 h2 => ⟨truncQ q, ?_, ?_⟩, fun hq => ?_⟩
  · rw [hq]
    simp only [F64.toI32, if_pos ((hin q).mpr ⟨h1, h2⟩)]
    rfl
  · unfold truncQ
    split
    · next h =>
      have h3 : ((q.floor : Int) : ℚ) ≤ q := Int.floor_le q
      have h4 : q < (q.floor : Int) + 1 := Int.lt_floor_add_one q
      have h5 : (0 : ℚ) ≤ (q.floor : Int) := by exact_mod_cast Int.floor_nonneg.mpr h
      refine ⟨by rw [abs_of_nonneg h5, abs_of_nonneg h]; exact h3, abs_lt.mpr ⟨by linarith, by linarith⟩, mul_nonneg h5 h⟩
    · next h =>
      have h0 : 0 ≤ -q := by linarith
      have h3 : (((-q).floor : Int) : ℚ) ≤ -q := Int.floor_le (-q)
      have h4 : -q < ((-q).floor : Int) + 1 := Int.lt_floor_add_one (-q)
      have h5 : (0 : ℚ) ≤ ((-q).floor : Int) := by exact_mod_cast Int.floor_nonneg.mpr h0
      push_cast
      refine ⟨by rw [abs_neg, abs_of_nonneg h5, abs_of_nonpos (by linarith)]; exact h3, abs_lt.mpr ⟨by linarith, by linarith⟩, ?_⟩
      nlinarith
  · rcases hv : pw (fin a) (fin b) with _ | s | q
    · rfl
    · rfl
    · simp only [F64.toI32, if_neg (fun h => hq q hv ((hin q).mp h))]
      rfl

/-! ## C26 comparisons -/

/-- C26, orderings of doubles: for numbers (infinities included) `<` is the opposite of `>=` and `>`
of `<=`. -/
theorem C26_order_partial (x y : F64) (hx : x ≠ .nan) (hy : y ≠ .nan) :
    largerEqual (.d x) (.d y) = !smaller (.d x) (.d y) ∧
    smallerEqual (.d x) (.d y) = !larger (.d x) (.d y) := by
  cases x with
  | nan => exact absurd rfl hx
  | inf a =>
    cases y with
    | nan => exact absurd rfl hy
    | inf b => cases a <;> cases b <;> decide
    | fin q => cases a <;> simp [largerEqual, smaller, smallerEqual, larger, cmp, Scal.int?, Scal.toD,
        F64.lt, F64.le]
  | fin p =>
    cases y with
    | nan => exact absurd rfl hy
    | inf b => cases b <;> simp [largerEqual, smaller, smallerEqual, larger, cmp, Scal.int?, Scal.toD,
        F64.lt, F64.le]
    | fin q =>
      simp only [largerEqual, smaller, smallerEqual, larger, cmp, Scal.int?, Scal.toD, F64.lt, F64.le,
        ← decide_not, not_lt, and_self]

/-- C26, what the orderings mean on numbers. -/
theorem C26_order_meaning (l r : Scal) (gl : Genuine l) (gr : Genuine r) (p q : ℚ)
    (hl : value l = some p) (hr : value r = some q) :
    smaller l r = decide (p < q) ∧ smallerEqual l r = decide (p ≤ q) ∧
    larger l r = decide (q < p) ∧ largerEqual l r = decide (q ≤ p) := by
  have key : ∀ l : Scal, Genuine l → ∀ x, l.int? = some x → value l = some (x : ℚ) := by
    intro l g x h
    cases l with
    | b v =>
      simp only [Scal.int?, Option.some.injEq] at h
      subst h; cases v <;> simp [value]
    | i n => simp only [Scal.int?, Option.some.injEq] at h; subst h; rfl
    | d x => simp [Scal.int?] at h
  unfold smaller smallerEqual larger largerEqual cmp
  cases h1 : l.int? with
  | none => simp [toD_value gl hl, toD_value gr hr, F64.lt, F64.le]
  | some x =>
    cases h2 : r.int? with
    | none => simp [toD_value gl hl, toD_value gr hr, F64.lt, F64.le]
    | some y =>
      have e1 := key l gl x h1
      have e2 := key r gr y h2
      rw [hl] at e1; rw [hr] at e2
      cases e1; cases e2
      simp

/-- C26, integers: if the difference fits in 32 bits, `==` is equality and `!=` its opposite. -/
theorem C26_int_partial (a b : Int) (h : InI32 (a - b)) :
    equal (.i a) (.i b) = .ok (decide (a = b)) ∧ unequal (.i a) (.i b) = .ok (decide (a ≠ b)) := by
  have hc : c001 = fin (rndQ (1 / 1000)) := by decide +kernel
  have h0 : (0 : ℚ) < rndQ (1 / 1000) ∧ rndQ (1 / 1000) < 1 := by
    constructor <;> decide +kernel
  have e : diff (.i a) (.i b) = .ok (fin ((a - b : Int) : ℚ)) := by
    simp only [diff, Scal.int?, ckI32, if_pos h, Out.ok_bind, ofInt_I32 h]
    rfl
  simp only [equal, unequal, e, Out.ok_bind, F64.abs, hc, F64.lt]
  by_cases hab : a = b
  · subst hab
    simp only [sub_self, Int.cast_zero, abs_zero, h0.1, decide_true, not_true_eq_false, ne_eq,
      decide_false]
    exact ⟨rfl, congrArg Out.ok (by rw [decide_eq_false_iff_not, not_lt]; exact h0.1.le)⟩
  · have h1 : (1 : ℚ) ≤ |((a - b : Int) : ℚ)| := by
      have : 1 ≤ |a - b| := Int.one_le_abs (sub_ne_zero.mpr hab)
      exact_mod_cast this
    simp only [hab, decide_false, ne_eq, not_false_eq_true, decide_true]
    constructor
    · exact congrArg Out.ok (by rw [decide_eq_false_iff_not, not_lt]; linarith [h0.2])
    · exact congrArg Out.ok (by rw [decide_eq_true_iff]; linarith [h0.2])

/-- C26 is false for integers that are far apart: already the comparison has undefined behaviour. -/
theorem C26_false_int_overflow :
    equal (.i 2147483647) (.i (-1)) = .ub .intOverflow ∧
    unequal (.i 2147483647) (.i (-1)) = .ub .intOverflow := by
  decide +kernel

/-- C26, doubles: `==` and `!=` are opposite exactly if the difference of the operands is neither NaN
nor exactly the tolerance. -/
theorem C26_equality_iff_partial (x y : F64) :
    (∃ v, equal (.d x) (.d y) = .ok v ∧ unequal (.d x) (.d y) = .ok (!v)) ↔
      (F64.sub x y ≠ .nan ∧ F64.abs (F64.sub x y) ≠ c001) := by
  have hc : c001 = fin (rndQ (1 / 1000)) := by decide +kernel
  have e1 : equal (.d x) (.d y) = .ok (F64.lt (F64.abs (F64.sub x y)) c001) := rfl
  have e2 : unequal (.d x) (.d y) = .ok (F64.lt c001 (F64.abs (F64.sub x y))) := rfl
  rw [e1, e2]
  simp only [Out.ok.injEq, exists_eq_left']
  cases F64.sub x y with
  | nan => rw [hc]; simp [F64.abs, F64.lt]
  | inf b => rw [hc]; simp [F64.abs, F64.lt]
  | fin q =>
    rw [hc]
    simp only [F64.abs, F64.lt, ne_eq, reduceCtorEq, not_false_eq_true, true_and,
      F64.fin.injEq, ← decide_not, decide_eq_decide, not_lt]
    constructor
    · intro h h2
      rw [h2] at h
      exact absurd (h.mpr (le_refl _)) (lt_irrefl _)
    · intro h
      exact ⟨fun h1 => h1.le, fun h1 => lt_of_le_of_ne h1 (Ne.symm h)⟩

/-- C26, `x == x` holds exactly for finite numbers. -/
theorem C26_reflexive_iff (x : F64) : equal (.d x) (.d x) = .ok true ↔ ∃ q, x = fin q := by
  have hc : c001 = fin (rndQ (1 / 1000)) := by decide +kernel
  have h0 : (0 : ℚ) < rndQ (1 / 1000) := by decide +kernel
  have e : diff (.d x) (.d x) = .ok (F64.sub x x) := rfl
  simp only [equal, e, Out.ok_bind]
  cases x with
  | nan => simp [F64.sub, F64.add, F64.neg, F64.abs, F64.lt]
  | inf b => cases b <;> simp [F64.sub, F64.add, F64.neg, F64.abs, F64.lt]
  | fin q =>
    have : F64.sub (fin q) (fin q) = fin 0 := by
      simp only [F64.sub, F64.neg, F64.add, add_neg_cancel]
      decide +kernel
    rw [this, hc]
    simp only [F64.abs, F64.lt, abs_zero, h0, decide_true, true_iff, F64.fin.injEq]
    exact ⟨fun _ => ⟨q, rfl⟩, fun _ => rfl⟩

/-- C26, meaning of `==` on finite doubles: the rounded difference is smaller than the tolerance. -/
theorem C26_tolerance (p q : ℚ) :
    equal (.d (fin p)) (.d (fin q)) = .ok true ↔ ∃ z, rnd (p - q) = fin z ∧ |z| < rndQ (1 / 1000) := by
  have hc : c001 = fin (rndQ (1 / 1000)) := by decide +kernel
  have e : diff (.d (fin p)) (.d (fin q)) = .ok (rnd (p - q)) := by
    simp [diff, Scal.int?, Scal.toD, F64.sub, F64.neg, F64.add, sub_eq_add_neg]
  simp only [equal, e, Out.ok_bind, hc]
  cases rnd (p - q) with
  | nan => simp [F64.abs, F64.lt]
  | inf b => simp [F64.abs, F64.lt]
  | fin z => simp [F64.abs, F64.lt]

/-- C26 is false: for NaN neither of two opposite comparisons holds; an infinity is not equal to
itself, and not unequal; at the tolerance neither `==` nor `!=` holds. -/
theorem C26_false :
    (smaller (.d .nan) (.d (fin 0)) = false ∧ largerEqual (.d .nan) (.d (fin 0)) = false) ∧
    (equal (.d (.inf false)) (.d (.inf false)) = .ok false ∧
      unequal (.d (.inf false)) (.d (.inf false)) = .ok false) ∧
    (equal (.d c001) (.d (fin 0)) = .ok false ∧ unequal (.d c001) (.d (fin 0)) = .ok false) := by
  decide +kernel

/-- `==` is not transitive. -/
theorem C26_not_transitive : ∃ x y z : F64, equal (.d x) (.d y) = .ok true ∧
    equal (.d y) (.d z) = .ok true ∧ equal (.d x) (.d z) = .ok false :=
  ⟨fin 0, fin (1 / 2048), fin (1 / 1024 + 1 / 2048), by decide +kernel, by decide +kernel,
    by decide +kernel⟩

example : equal (.d (fin 1)) (.d (fin 1)) = .ok true ∧ smaller (.i 3) (.d (fin (7 / 2))) = true := by
  decide +kernel

/-! ### The theorems applied to concrete numbers -/

example : divide (.i 1) (.b true) = .ok (.d (rnd (1 / 1))) := C27_quotient (.i 1) (.b true) (show InI32 _ by decide) trivial 1 1 (by simp [value]) (by simp [value]) (by norm_num)

example : divide (.i (-7)) (.b false) = .ok (.d (.inf true)) := by
  have := C27_by_zero (.i (-7)) (.b false) (show InI32 _ by decide) trivial (-7) (by simp [value]) (by simp [value])
  rw [this]; norm_num

example : times (.i 6) (.i 7) = .ok (.i 42) := by rw [(C28_exact 6 7).2.2]; rfl

example : plus (.i 3) (.d (fin (1 / 2))) = .ok (.d (add (fin 3) (fin (1 / 2)))) := (C28_mixed 3 _ (by decide)).1

example : plus (.b true) (.b true) = .ok (.b true) ∧ plus (.b true) (.i 3) = .ok (.i 4) ∧ plus (.b true) (.d (fin 3)) = .ok (.d (rnd (1 + 3))) :=
  ⟨(C73_logical_partial true true).1, (C73_logical_int true 3 (by decide)).1, (C73_logical_double true 3).1⟩

example : minus (.i 3) (.b true) = .ok (.i 2) ∧ times (.b false) (.d (fin 3)) = times (.i 0) (.d (fin 3)) ∧ divide (.b true) (.i 2) = divide (.i 1) (.i 2) :=
  ⟨(C73_mixed_partial (.i 3) (.b true) (by rintro x y ⟨⟨⟩, _⟩)).2.1, (C73_mixed_partial (.b false) (.d (fin 3)) (by rintro x y ⟨_, ⟨⟩⟩)).2.2.1,
    (C73_mixed_partial (.b true) (.i 2) (by rintro x y ⟨_, ⟨⟩⟩)).2.2.2⟩
example : ¬ ∃ z, plus (.b true) (.b true) = .ok z ∧ plus (.i 1) (.i 1) = .ok (asNumber z) :=
  fun h => ((C73_logical_iff true true).1.mp h) ⟨rfl, rfl⟩
example (pw : F64 → F64 → F64) (h : pw (fin ((-3 : Int) : ℚ)) (fin ((-1 : Int) : ℚ)) = fin (-1 / 3)) :
    ∃ c : Int, pow pw (.i (-3)) (.i (-1)) = .ok (.i c) ∧ |(c : ℚ)| ≤ |(-1 / 3 : ℚ)| := by
  obtain ⟨c, h1, h2, _⟩ := (C74_characterised pw (-3) (-1) (by decide) (by decide)).1 _ h (by norm_num) (by norm_num)
  exact ⟨c, h1, h2⟩
example (pw : F64 → F64 → F64) (h : pw (fin ((0 : Int) : ℚ)) (fin ((-1 : Int) : ℚ)) = .inf false) : pow pw (.i 0) (.i (-1)) = .ub .badConv :=
  (C74_characterised pw 0 (-1) (by decide) (by decide)).2 (fun q e => by rw [h] at e; cases e)

example (pw : F64 → F64 → F64) (h : pw (fin ((2 : Int) : ℚ)) (fin ((3 : Int) : ℚ)) = fin ((8 : Int) : ℚ)) : pow pw (.i 2) (.i 3) = .ok (.i 8) :=
  C74_exact_partial pw 2 3 8 (by decide) (by decide) (by decide) h

example (pw : F64 → F64 → F64) : pow pw (.d (fin 2)) (.i 3) = .ok (.d (pw (fin 2) (Scal.i 3).toD)) := C74_double pw _ _

example : largerEqual (.d (fin 2)) (.d (.inf false)) = !smaller (.d (fin 2)) (.d (.inf false)) := (C26_order_partial _ _ (by decide) (by decide)).1

example : smaller (.i 3) (.b true) = false ∧ larger (.i 3) (.b true) = true := by
  obtain ⟨h1, _, h2, _⟩ := C26_order_meaning (.i 3) (.b true) (show InI32 _ by decide) trivial 3 1 (by simp [value]) (by simp [value])
  exact ⟨by rw [h1]; norm_num, by rw [h2]; norm_num⟩

example : equal (.i 3) (.i 4) = .ok false := (C26_int_partial 3 4 (by decide)).1

example : ∃ v, equal (.d (fin 1)) (.d (fin 2)) = .ok v ∧ unequal (.d (fin 1)) (.d (fin 2)) = .ok (!v) :=
  (C26_equality_iff_partial _ _).mpr ⟨by decide +kernel, by decide +kernel⟩

example : equal (.d (fin 7)) (.d (fin 7)) = .ok true := (C26_reflexive_iff _).mpr ⟨7, rfl⟩

example : equal (.d (fin 1)) (.d (fin (1 + 1 / 2048))) = .ok true :=
  (C26_tolerance _ _).mpr ⟨-1 / 2048, by decide +kernel, by decide +kernel⟩

end Trait
end ETR
