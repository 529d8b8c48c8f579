import Verif.Model.Held
import Verif.Model.Helper
import Verif.Model.Print

/-!
# Other uses of expressions that are kept in variables

`auto e = a + b;` and then `e[i]`, `if (e)`, `print(e)` (`/repo/README.md` 190-192), and `auto s = subset(a, …);` and then `s = 5;`.
The operand references are followed as in `Model/Held.lean`.
-/

namespace ETR.HState
variable {V : Type}

/-- `e[i]`: Vector/VectorClass.hpp 40-41, BinaryCalculations.hpp 97-107, UnaryCalculations.hpp 45-52, SubsetClass.hpp 62-70. -/
def readHeld (zero : V) (s : HState V) (k i : Nat) : Out V := do
  let e ← s.resolve zero s.next (.obj k)
  e.el s.mach.env i

/-- `if (e)`, `T v = e;`: Vector/VectorClass.hpp 43-54. -/
def firstHeld (zero : V) (bool : Bool) (s : HState V) (k : Nat) : L V := do
  let e ← M.lift (s.resolve zero s.next (.obj k))
  toScalar bool s.mach.env e

/-- `print(e)`: Printing.hpp 39-87. -/
def printHeld (zero : V) (fmt : Bool → V → String) (s : HState V) (k : Nat) : M OStream Unit := do
  let e ← M.lift (s.resolve zero s.next (.obj k))
  printVec fmt s.mach.env e

/-- `s = v;` for a held subset `s` of a named vector and an arithmetic value: Vector/AssignmentOperator.hpp 15-18, 29-32.  Objects of other
kinds cannot be written to (10-13); subsets of held expressions are left out. -/
def writeHeld (k : Nat) (v : V) : M (HState V) Unit := fun s =>
  match s.obj k with
  | some (.sub (.vec x) ind _) => if s.gone x then (.ub .useAfterFree, s) else onMach (Mach.subAssignScalar x ind v) s
  | _ => (.ub .useAfterFree, s)

end ETR.HState
