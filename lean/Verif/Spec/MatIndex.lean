import Verif.Spec.Index
import Verif.Model.MatSubset

/-!
# What two index arguments denote in a matrix

The row index denotes rows, the column index denotes columns (as an index argument of a vector would,
`Spec.positions`); together they denote the cells, column by column.
-/

namespace ETR
namespace Spec

/-- The positions of the cells in a matrix with `nr` rows that is stored column by column. -/
def cells (nr : Nat) (rows cols : List Nat) : List Nat :=
  cols.flatMap (fun c => rows.map (fun r => c * nr + r))

/-- An index argument that keeps the dimension: everything but a single number. -/
def keepsDim : Index → Bool
  | .int _ => false
  | .dbl _ => false
  | _ => true

/-- The shape of `m(r, c)`: a matrix if both index arguments keep the dimension. -/
def subShape (r c : Index) (nrows ncols : Nat) : MP :=
  if keepsDim r && keepsDim c then ⟨true, nrows, ncols⟩ else ⟨false, 0, 0⟩

end Spec
end ETR
