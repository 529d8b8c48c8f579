import Verif.Spec.Eval
import Verif.Spec.Cells
import Verif.Spec.Shape

/-!
# Vectors of the R-borrowing kind with memory of their own

A list and, for a matrix, its dimensions.
-/

namespace ETR
namespace Spec
variable {V : Type}

/-- Elements, and rows and columns of a matrix. -/
abbrev OwnVal (V : Type) := List V × Option (Nat × Nat)

/-- Operations on the vector. -/
inductive OwnOp (V : Type) where
  | push (v : V)
  | write (i : Nat) (v : V)
  | number (v : V)
  | fill (v : V)
  | resize (n : Nat)
  | assign (e : Expr V)

/-- The elements that the operands of an expression have: operand 0 is the vector itself, the operands 1, 2, ... are the other
vectors. -/
def ownVals (l : List V) (ls : List (OwnVal V)) : Nat → Option (List V)
  | 0 => some l
  | i + 1 => (ls[i]?).map Prod.fst

/-- The dimensions of the operands. -/
def ownDims (d : Option (Nat × Nat)) (ls : List (OwnVal V)) : Nat → Option (Nat × Nat)
  | 0 => d
  | i + 1 => match ls[i]? with
    | some x => x.2
    | none => none

/-- What an operation does; `none` for an exception. -/
def OwnOp.spec (zero : V) (ls : List (OwnVal V)) : OwnOp V → OwnVal V → Option (OwnVal V)
  | .push v, (l, d) => some (l ++ [v], d)
  | .write i v, (l, d) => if i < l.length then some (l.set i v, d) else none
  | .number v, (_, d) => some ([v], d)
  | .fill v, (l, d) => some (List.replicate l.length v, d)
  | .resize n, (l, d) =>
    if n = 0 then none
    else match l with
      | [] => some (List.replicate n zero, d)
      | a :: t => some ((a :: t).take n, d)
  | .assign e, (l, d) => (eval (ownVals l ls) e).map (fun l' => (l', (dimsOf (ownDims d ls) e).or d))

/-- The operation is described by `spec`: `resize` does not ask for more elements than a non-empty vector has, the expression of an
assignment has a value or throws, and no vector gets too long for the `int`s in the code. -/
def OwnOp.Fits (ls : List (OwnVal V)) : OwnOp V → OwnVal V → Prop
  | .push _, (l, _) => l.length < 2 ^ 29
  | .resize n, (l, _) => n ≤ 2 ^ 30 ∧ (l = [] ∨ n ≤ l.length)
  | .assign e, (l, _) => (∃ l', eval (ownVals l ls) e = some l' ∧ l'.length ≤ 2 ^ 30) ∨
      ∃ C m, cellsOf (ownVals l ls) e = some C ∧ failure C = some m ∧ C.length ≤ 2 ^ 30
  | _, _ => True

/-- One operation after the other; an exception changes nothing. -/
def ownRun (zero : V) (ls : List (OwnVal V)) : List (OwnOp V) → OwnVal V → OwnVal V
  | [], a => a
  | o :: os, a => ownRun zero ls os ((o.spec zero ls a).getD a)

/-- Which operations throw. -/
def ownThrows (zero : V) (ls : List (OwnVal V)) : List (OwnOp V) → OwnVal V → List Bool
  | [], _ => []
  | o :: os, a => (o.spec zero ls a).isNone :: ownThrows zero ls os ((o.spec zero ls a).getD a)

/-- All operations are described. -/
def OwnFits (zero : V) (ls : List (OwnVal V)) : List (OwnOp V) → OwnVal V → Prop
  | [], _ => True
  | o :: os, a => o.Fits ls a ∧ OwnFits zero ls os ((o.spec zero ls a).getD a)

end Spec
end ETR
