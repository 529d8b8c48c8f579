import Verif.Model.Expr

/-!
# Naive list semantics of expressions

Every sub-expression denotes a complete list of values; binary operators recycle the shorter operand
like R does.  `none` means that the expression has no value: a vector is empty, an element function
fails, an index is out of range.  A subset with more indices than the subsetted object has elements
is also given no value here; the library reads such a subset wrongly (see C31).
-/

namespace ETR
namespace Spec
variable {V : Type}

/-- A result of an element function, if there is one. -/
def val {α : Type} : Out α → Option α
  | .ok a => some a
  | _ => none

/-- Non-empty lists only. -/
def nonEmpty (l : List V) : Option (List V) := if l = [] then none else some l

/-- Element-wise application with recycling: the result has the length of the longer operand and its
`i`-th element is `f a[i mod |a|] b[i mod |b|]`. -/
def zipRecycled (f : V → V → Out V) (a b : List V) : Option (List V) :=
  (List.range (max a.length b.length)).mapM (fun i => do
    let x ← a[i % a.length]?
    let y ← b[i % b.length]?
    val (f x y))

/-- The list denoted by an expression, given the lists of the named vectors. -/
def eval (ρ : Nat → Option (List V)) : Expr V → Option (List V)
  | .leaf x => ρ x >>= nonEmpty
  | .rvec l _ => nonEmpty l
  | .scal v => some [v]
  | .un f e => do
    let l ← eval ρ e
    l.mapM (fun v => val (f v))
  | .bin f l r => do
    let a ← eval ρ l
    let b ← eval ρ r
    zipRecycled f a b
  | .sub e ind _ => do
    let l ← eval ρ e
    if ind ≠ [] ∧ ind.length ≤ l.length then ind.mapM (fun j => l[j]?) else none

end Spec
end ETR
