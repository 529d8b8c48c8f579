import Verif.Model.Traits
import Verif.Model.Expr

/-!
# Small utilities: warnings, conversion of numbers to sizes

`/repo/include/etr_bits/Core/Utils.hpp`, `Allocation/AllocationUtils.hpp`,
`Subsetting/UtilsSubsetting.hpp`.  The state of `L` is the list of the warnings printed so far.
-/

namespace ETR

/-- Computations that print warnings. -/
abbrev L (α : Type) : Type := M (List String) α

/-- `warn(cond, msg)`: prints if the condition is *false*. Core/Utils.hpp 64-72. -/
def warn (c : Bool) (msg : String) : L Unit :=
  if c then pure () else M.modify (fun w => w ++ [msg])

/-- `isDoubleInt(d)`: `int i = d; return !((d - i) > 0)`. Core/Utils.hpp 16-22.  The conversion to
`int` is undefined behaviour outside of the range of `int`. -/
def isDoubleInt (d : F64) : Out Bool := do
  let i ← d.toI32
  return !(F64.lt (.fin 0) (F64.sub d (F64.ofInt i)))

/-- The warning for fractional sizes. AllocationUtils.hpp 27-29, UtilsSubsetting.hpp 26-28. -/
def fracMsg : String :=
  "The provided size is a floating-point number with non-zero decimal places. It has been floored to the nearest integer."

/-- `convertSizeSubsetting(double)`: UtilsSubsetting.hpp 25-30. -/
def convertSizeSubsettingD (x : F64) : L Nat := do
  let b ← M.lift (isDoubleInt x)
  warn b fracMsg
  M.ass (F64.le (.fin 1) x = true) "invalid index argument"
  M.lift x.toSizeT

/-- `convertSizeSubsetting(int)`: UtilsSubsetting.hpp 31-33. -/
def convertSizeSubsettingI (n : Int) : L Nat := do
  M.ass (1 ≤ n) "invalid index argument"
  return wrap64 n

/-- `x - 1` on `std::size_t` (modular). -/
def pred64 (n : Nat) : Nat := wrap64 ((n : Int) - 1)

end ETR
