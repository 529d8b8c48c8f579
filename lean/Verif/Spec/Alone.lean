import Verif.Spec.ControlSafe

/-! # Programs that do not operate on a vector -/

namespace ETR
namespace Spec
open Prog
variable {V : Type}

/-- No operation of the program is applied to the vector `y`.  The program may read `y` (in expressions, in tests, as the vector of a loop, as
the source of a copy), and it may declare vectors of its own and operate on those. -/
def LeavesAlone (y : Nat) : Prog V → Prop
  | .skip | .throw _ => True
  | .cmd c => c.target ≠ some y
  | .seq a b => LeavesAlone y a ∧ LeavesAlone y b
  | .decl c k => c.isDecl = true ∧ ∀ x, x ≠ y → LeavesAlone y (k x)
  | .read _ _ k => ∀ v, LeavesAlone y (k v)
  | .index _ _ k => ∀ r, LeavesAlone y (k r)
  | .len _ k => ∀ n, LeavesAlone y (k n)
  | .loop _ _ _ body => LeavesAlone y body
  | .forVec _ body => ∀ v, LeavesAlone y (body v)
  | .forInt _ _ body => ∀ i, LeavesAlone y (body i)
  | .forDbl _ _ body => ∀ i, LeavesAlone y (body i)
  | .block body => LeavesAlone y body
  | .tryCatch a b => LeavesAlone y a ∧ ∀ m, LeavesAlone y (b m)

end Spec
end ETR
