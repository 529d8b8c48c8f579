import Mathlib.Data.Rat.Floor
import Mathlib.Algebra.Order.Field.Rat
import Mathlib.Algebra.Order.Field.Power
import Verif.Base.Out

/-!
# Machine numbers

`F64`: IEEE binary64 with round-to-nearest-even, modelled over the rationals.  Simplifications:
one NaN, no sign of zero.  `BaseType` of the library is `double`
(`/repo/include/etr_bits/Core/Header.hpp`).

Integers: `int` is `Int` restricted to `[-2^31, 2^31)`, `std::size_t` is `Nat` below `2^64`.
-/

namespace ETR

/-- A binary64 number (sign of zero not kept). -/
inductive F64
  | nan
  | inf (neg : Bool)
  | fin (q : ℚ)
  deriving DecidableEq

namespace F64

/-- `2^k` as a rational number. -/
def pow2 (k : Int) : ℚ := if 0 ≤ k then mkRat (2 ^ k.toNat) 1 else mkRat 1 (2 ^ (-k).toNat)

/-- `⌊log2 q⌋` for `q > 0`. -/
def ilog (q : ℚ) : Int :=
  let e : Int := (Nat.log2 q.num.toNat : Int) - (Nat.log2 q.den : Int)
  if q < pow2 e then e - 1 else e

/-- Round to the nearest integer, ties to even. -/
def rhe (q : ℚ) : Int :=
  let f := Rat.floor q
  let r := q - f
  if r < 1 / 2 then f else if 1 / 2 < r then f + 1 else if f % 2 = 0 then f else f + 1

/-- Exponent of the unit in the last place used to round `q`. -/
def ulpExp (q : ℚ) : Int := max (ilog |q| - 52) (-1074)

/-- Nearest multiple of the unit in the last place (unbounded exponent above). -/
def rndQ (q : ℚ) : ℚ := if q = 0 then 0 else (rhe (q / pow2 (ulpExp q)) : ℚ) * pow2 (ulpExp q)

/-- Round to nearest even, with overflow to infinity. -/
def rnd (q : ℚ) : F64 :=
  let v := rndQ q
  if pow2 1024 ≤ |v| then inf (decide (q < 0)) else fin v

/-- The number is a binary64 number. -/
def Rep (q : ℚ) : Prop := rnd q = fin q

instance (q : ℚ) : Decidable (Rep q) := inferInstanceAs (Decidable (_ = _))

/-- The value is a genuine binary64 value. -/
def Valid : F64 → Prop
  | fin q => Rep q
  | _ => True

def ofInt (n : Int) : F64 := rnd n
def ofNat (n : Nat) : F64 := rnd n

def isNeg : F64 → Bool
  | inf b => b
  | fin q => decide (q < 0)
  | nan => false

def neg : F64 → F64
  | nan => nan
  | inf b => inf (!b)
  | fin q => fin (-q)

def abs : F64 → F64
  | nan => nan
  | inf _ => inf false
  | fin q => fin |q|

def add : F64 → F64 → F64
  | nan, _ => nan
  | _, nan => nan
  | inf a, inf b => if a = b then inf a else nan
  | inf a, fin _ => inf a
  | fin _, inf b => inf b
  | fin p, fin q => rnd (p + q)

def sub (x y : F64) : F64 := add x (neg y)

def mul : F64 → F64 → F64
  | nan, _ => nan
  | _, nan => nan
  | inf a, inf b => inf (a != b)
  | inf a, fin q => if q = 0 then nan else inf (a != decide (q < 0))
  | fin p, inf b => if p = 0 then nan else inf (decide (p < 0) != b)
  | fin p, fin q => rnd (p * q)

/-- Division; a zero divisor is `+0` (the sign of zero is not kept). -/
def div : F64 → F64 → F64
  | nan, _ => nan
  | _, nan => nan
  | inf _, inf _ => nan
  | inf a, fin q => inf (a != decide (q < 0))
  | fin _, inf _ => fin 0
  | fin p, fin q => if q = 0 then (if p = 0 then nan else inf (decide (p < 0))) else rnd (p / q)

/-- `x < y` -/
def lt : F64 → F64 → Bool
  | nan, _ => false
  | _, nan => false
  | inf a, inf b => a && !b
  | inf a, fin _ => a
  | fin _, inf b => !b
  | fin p, fin q => decide (p < q)

/-- `x <= y` -/
def le : F64 → F64 → Bool
  | nan, _ => false
  | _, nan => false
  | inf a, inf b => a || !b
  | inf a, fin _ => a
  | fin _, inf b => !b
  | fin p, fin q => decide (p ≤ q)

/-- Truncation toward zero. -/
def truncQ (q : ℚ) : Int := if 0 ≤ q then Rat.floor q else -(Rat.floor (-q))

end F64

/-- `int` range. -/
def InI32 (n : Int) : Prop := -2147483648 ≤ n ∧ n < 2147483648
instance (n : Int) : Decidable (InI32 n) := inferInstanceAs (Decidable (_ ∧ _))

/-- Signed 32-bit result: overflow is undefined behaviour. -/
def ckI32 (n : Int) : Out Int := if InI32 n then .ok n else .ub .intOverflow

/-- Conversion of an unsigned value to `int` (modular since C++20). -/
def wrapI32 (n : Nat) : Int :=
  let r := n % 4294967296
  if r < 2147483648 then (r : Int) else (r : Int) - 4294967296

/-- `2^64` -/
def two64 : Nat := 18446744073709551616

/-- Conversion of a (signed) integer to `std::size_t` (modular). -/
def wrap64 (n : Int) : Nat := (n % (two64 : Int)).toNat

namespace F64

/-- `static_cast<std::size_t>(double)`: undefined if the truncated value does not fit. -/
def toSizeT : F64 → Out Nat
  | fin q => if 0 ≤ truncQ q ∧ truncQ q < (two64 : Int) then .ok (truncQ q).toNat else .ub .badConv
  | _ => .ub .badConv

/-- `static_cast<int>(double)`: undefined if the truncated value does not fit. -/
def toI32 : F64 → Out Int
  | fin q => if InI32 (truncQ q) then .ok (truncQ q) else .ub .badConv
  | _ => .ub .badConv

end F64
end ETR
