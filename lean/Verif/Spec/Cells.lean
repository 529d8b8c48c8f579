import Verif.Spec.Eval

/-!
# Naive semantics of expressions whose elements may fail

Every cell of the list denoted by an expression is a value or the exception thrown when that element is computed.  Elements are computed
one by one when they are needed: an exception in one element concerns the others only if it is reached.
-/

namespace ETR
namespace Spec
variable {V : Type}

/-- What is said about a position that does not exist. -/
def beyond : String := "Error: out of boundaries --> value beyond size of vector"

/-- The expression is a named vector. -/
def isNamed : Expr V → Bool
  | .leaf _ => true
  | _ => false

/-- The cells of an expression.  A position beyond the end of a named vector is an exception when it is reached; such a position of another
expression is not given a meaning (the library wraps it around), nor is a subset with more positions than the object has elements. -/
def cellsOf (ρ : Nat → Option (List V)) : Expr V → Option (List (Out V))
  | .leaf x => (ρ x >>= nonEmpty).map (·.map .ok)
  | .rvec l _ => (nonEmpty l).map (·.map .ok)
  | .scal v => some [.ok v]
  | .un f e => (cellsOf ρ e).map (·.map (· >>= f))
  | .bin f l r => do
    let a ← cellsOf ρ l
    let b ← cellsOf ρ r
    return (List.range (max a.length b.length)).map (fun i => do
      let x ← a.getD (i % a.length) (.thr beyond)
      let y ← b.getD (i % b.length) (.thr beyond)
      f x y)
  | .sub e ind _ => do
    let l ← cellsOf ρ e
    if ind ≠ [] ∧ ind.length ≤ l.length ∧ (isNamed e = true ∨ ∀ j ∈ ind, j < l.length) then
      return ind.map (fun j => l.getD j (.thr beyond))
    else none

/-- The values, if every cell is one. -/
def values (C : List (Out V)) : Option (List V) := C.mapM val

/-- The exception that stops an evaluation from the first to the last cell. -/
def failure : List (Out V) → Option String
  | [] => none
  | .ok _ :: C => failure C
  | .thr m :: _ => some m
  | _ :: _ => none

end Spec
end ETR
