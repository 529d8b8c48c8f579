import Verif.Model.Alloc

/-!
# Element types in expression trees

The C++ types of the elements at the nodes of an expression: `UnaryCalculations.hpp` 9-60,
`BinaryCalculations.hpp` 19-120, `Core/SubsetClass.hpp` 7-138, `Core/Traits.hpp` 25-33 and 235-378,
`Core/Types.hpp` 20-24.

* A named vector or a temporary vector has the element type of its buffer (`Core/BaseStore.hpp` 12,
  281), an arithmetic operand its own type.
* `UnaryOperation::operator[]` returns `CTrait::RetType`, which is `double`
  (`UnaryCalculations.hpp` 10, 45; `Traits.hpp` 25-27): the element function is computed in the type of
  the operand and the result converted.
* `BinaryOperation::operator[]` returns `auto` (`BinaryCalculations.hpp` 97): the type of the element
  function, which is the common type of the operands for `+`, `-`, `*` and `^`, `double` for `/` and
  `bool` for comparisons.
* `Subset<const T>::operator[]` returns `T::RetType` (`SubsetClass.hpp` 83-84, 130): the element type of
  a vector, and `double` for all operations and for a subset of a subset.

Simplification: the element types are `bool`, `int`, `double`.
-/

namespace ETR

/-- Binary operators: BinaryCalculations.hpp 150-420. -/
inductive BinO
  | plus | minus | times | divide | lt | le | gt | ge | eq | ne
  deriving DecidableEq

/-- Unary operators: UnaryCalculations.hpp 82-300.  `fn g` stands for the functions of the C library
(`sin`, `exp`, ...), which are computed in `double`. -/
inductive UnO
  | neg
  | fn (g : F64 → F64)

/-- The element function of a binary operator: `Traits.hpp` 235-338. -/
def BinO.f : BinO → Scal → Scal → Out Scal
  | .plus, l, r => Trait.plus l r
  | .minus, l, r => Trait.minus l r
  | .times, l, r => Trait.times l r
  | .divide, l, r => Trait.divide l r
  | .lt, l, r => .ok (.b (Trait.smaller l r))
  | .le, l, r => .ok (.b (Trait.smallerEqual l r))
  | .gt, l, r => .ok (.b (Trait.larger l r))
  | .ge, l, r => .ok (.b (Trait.largerEqual l r))
  | .eq, l, r => do
    let v ← Trait.equal l r
    return .b v
  | .ne, l, r => do
    let v ← Trait.unequal l r
    return .b v

/-- The type that `BinaryOperation::operator[]` deduces. -/
def BinO.ty : BinO → Ty → Ty → Ty
  | .plus, l, r => l.common r
  | .minus, l, r => l.common r
  | .times, l, r => l.common r
  | .divide, _, _ => .double
  | _, _, _ => .bool

/-- The element function of a unary operator, converted to `double`: `Traits.hpp` 340-378,
`UnaryCalculations.hpp` 45-52. -/
def UnO.f : UnO → Scal → Out Scal
  | .neg, a => do
    let v ← Trait.minusUnary a
    return .d v.toD
  | .fn g, a => Trait.unary g a

/-- Formulas with element types: a vector with its element type, an arithmetic operand, unary and binary
operations, a subset with computed 0-based indices. -/
inductive TForm
  | leaf (t : Ty) (x : Nat)
  | scal (v : Scal)
  | un (o : UnO) (e : TForm)
  | bin (o : BinO) (l r : TForm)
  | sub (e : TForm) (ind : List Nat) (mp : MP)

namespace TForm

/-- `RetType` of the node. -/
def retTy : TForm → Ty
  | leaf t _ => t
  | scal v => v.ty
  | un _ _ => .double
  | bin _ _ _ => .double
  | sub _ _ _ => .double

/-- The type of an element that is read with `operator[]`. -/
def ty : TForm → Ty
  | leaf t _ => t
  | scal v => v.ty
  | un _ _ => .double
  | bin o l r => o.ty (ty l) (ty r)
  | sub e _ _ => retTy e

/-- What the reader of a node gets for the element below: `Subset::operator[]` converts to `double`
unless it is a subset of a vector (`SubsetClass.hpp` 83-84, 130-133). -/
def conv : TForm → Scal → Scal
  | sub e _ _, v => if retTy e = .double then .d v.toD else v
  | _, v => v

/-- The expression tree.  The conversion of a subset is applied by the node that reads it. -/
def toExpr : TForm → Expr Scal
  | leaf _ x => .leaf x
  | scal v => .scal v
  | un o e => .un (fun v => o.f (e.conv v)) (toExpr e)
  | bin o l r => .bin (fun v w => o.f (l.conv v) (r.conv w)) (toExpr l) (toExpr r)
  | sub e ind mp => .sub (toExpr e) ind mp

/-- `Vec::operator[]` of the whole expression, which converts to `RetType` of the outermost node
(`Vector/VectorClass.hpp` 21, 41), followed by the `static_cast` to the element type `t` of the vector
that is assigned to (`Vector/AssignmentOperator.hpp` 44-110). -/
def elTo (t : Ty) (env : Env Scal) (e : TForm) (i : Nat) : Out Scal := do
  let v ← e.toExpr.el env i
  let w ← (e.conv v).to e.retTy
  w.to t

end TForm
end ETR
