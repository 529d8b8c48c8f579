import Verif.Base.F64

/-!
# Element types and element functions

`/repo/include/etr_bits/Core/Traits.hpp` 235-378: the element functions of the operators.  The template
parameters `L`, `R` are the element types `bool`, `int`, `double`; a value of type `Scal` carries its
type.  The C++ rules used: usual arithmetic conversions (`bool` is promoted to `int`, `int` with
`double` is computed in `double`), `std::common_type<bool, bool>` is `bool`,
`std::common_type<bool, int>` is `int`, conversion to `bool` is "is not zero", signed overflow is
undefined behaviour, conversion of a `double` outside the range of `int` is undefined behaviour.
-/

namespace ETR

/-- An element together with its C++ type. -/
inductive Scal
  | b (v : Bool)
  | i (n : Int)
  | d (x : F64)
  deriving DecidableEq

/-- Conversion of a `double` to `bool`: everything but zero is true, also NaN. -/
def F64.toBool : F64 → Bool
  | .fin q => decide (q ≠ 0)
  | _ => true

namespace Scal

/-- Integer promotion of an integral element. -/
def int? : Scal → Option Int
  | b v => some (if v then 1 else 0)
  | i n => some n
  | d _ => none

/-- Conversion to `double`. -/
def toD : Scal → F64
  | b v => F64.ofInt (if v then 1 else 0)
  | i n => F64.ofInt n
  | d x => x

/-- The element is `bool`. -/
def isBool : Scal → Bool
  | b _ => true
  | _ => false

end Scal

namespace Trait
open Scal

/-- `std::common_type<L, R>::type` of the result of `+`, `-`, `*` on `l`, `r`. -/
def arith (fi : Int → Int → Int) (fd : F64 → F64 → F64) (l r : Scal) : Out Scal :=
  match l.int?, r.int? with
  | some x, some y => do
    let z ← ckI32 (fi x y)
    return if l.isBool && r.isBool then .b (decide (z ≠ 0)) else .i z
  | _, _ => .ok (.d (fd l.toD r.toD))

/-- `PlusTrait::f`: Traits.hpp 235-240. -/
def plus : Scal → Scal → Out Scal := arith (· + ·) F64.add
/-- `MinusTrait::f`: Traits.hpp 242-247. -/
def minus : Scal → Scal → Out Scal := arith (· - ·) F64.sub
/-- `TimesTrait::f`: Traits.hpp 248-253. -/
def times : Scal → Scal → Out Scal := arith (· * ·) F64.mul

/-- `DivideTrait::f`: Traits.hpp 254-270.  In each of the four branches both operands are converted to
`double` before the division. -/
def divide (l r : Scal) : Out Scal := .ok (.d (F64.div l.toD r.toD))

/-- `PowTrait::f`: Traits.hpp 271-276.  `std::pow` computes in `double`; the result is converted to the
common type.  `pw` is the C library function. -/
def pow (pw : F64 → F64 → F64) (l r : Scal) : Out Scal :=
  match l.int?, r.int? with
  | some _, some _ =>
    if l.isBool && r.isBool then .ok (.b (F64.toBool (pw l.toD r.toD)))
    else do
      let z ← F64.toI32 (pw l.toD r.toD)
      return .i z
  | _, _ => .ok (.d (pw l.toD r.toD))

/-- The constant `1E-3`. -/
def c001 : F64 := F64.rnd (1 / 1000)

/-- `a - b`, as argument of `fabs`: Traits.hpp 282, 332. -/
def diff (l r : Scal) : Out F64 :=
  match l.int?, r.int? with
  | some x, some y => do
    let z ← ckI32 (x - y)
    return F64.ofInt z
  | _, _ => .ok (F64.sub l.toD r.toD)

/-- `EqualTrait::f`: Traits.hpp 277-288. -/
def equal (l r : Scal) : Out Bool := do
  let z ← diff l r
  return F64.lt (F64.abs z) c001

/-- `UnEqualTrait::f`: Traits.hpp 329-338. -/
def unequal (l r : Scal) : Out Bool := do
  let z ← diff l r
  return F64.lt c001 (F64.abs z)

/-- Comparison after the usual arithmetic conversions. -/
def cmp (fi : Int → Int → Bool) (fd : F64 → F64 → Bool) (l r : Scal) : Bool :=
  match l.int?, r.int? with
  | some x, some y => fi x y
  | _, _ => fd l.toD r.toD

/-- `SmallerTrait::f`: Traits.hpp 289-298. -/
def smaller : Scal → Scal → Bool := cmp (fun x y => decide (x < y)) F64.lt
/-- `SmallerEqualTrait::f`: Traits.hpp 299-308. -/
def smallerEqual : Scal → Scal → Bool := cmp (fun x y => decide (x ≤ y)) F64.le
/-- `LargerTrait::f`: Traits.hpp 309-318. -/
def larger : Scal → Scal → Bool := cmp (fun x y => decide (y < x)) (fun x y => F64.lt y x)
/-- `LargerEqualTrait::f`: Traits.hpp 319-328. -/
def largerEqual : Scal → Scal → Bool := cmp (fun x y => decide (y ≤ x)) (fun x y => F64.le y x)

/-- `SinusTrait::f`, ..., `SquareRootTrait::f`: Traits.hpp 340-374.  `g` is the C library function. -/
def unary (g : F64 → F64) (a : Scal) : Out Scal := .ok (.d (g a.toD))

/-- `MinusUnaryTrait::f`: Traits.hpp 375-377. -/
def minusUnary (a : Scal) : Out Scal :=
  match a.int? with
  | some x => do
    let z ← ckI32 (-x)
    return .i z
  | none => .ok (.d (F64.neg a.toD))

end Trait
end ETR
