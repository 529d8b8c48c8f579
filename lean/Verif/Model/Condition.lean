import Verif.Model.Typed
import Verif.Model.Helper

/-!
# Conditions

A vector expression as the condition of `if` or `while`: `operator RetType()`, `Vector/VectorClass.hpp` 43-54, followed by the conversion
of the result to `bool`.  The message for more than one element is printed only if `RetType` is `bool`.
-/

namespace ETR

/-- Conversion to `bool`: everything but zero is true. -/
def Scal.truth : Scal → Bool
  | .b v => v
  | .i n => decide (n ≠ 0)
  | .d x => x.toBool

/-- `if (e)`: Vector/VectorClass.hpp 43-54.  The element `d[0]` is converted to `RetType`, then to `bool`. -/
def TForm.condition (env : Env Scal) (e : TForm) : L Bool := do
  let v ← toScalar (decide (e.retTy = .bool)) env e.toExpr
  let w ← M.lift ((e.conv v).to e.retTy)
  return w.truth

end ETR
