import Verif.Model.RefLoop
import Verif.Spec.Control

/-!
# Naive semantics of loops by reference

The name `i` of the loop stands for an element of the list of the variable.
-/

namespace ETR
namespace Spec
variable {V : Type}

/-- The element `i` of the variable `x`. -/
def elemAt (p : PState V) (x i : Nat) : Option V := (p.lists x).bind (fun l => l[i]?)

/-- The state in which the element `i` of `x` is `w`. -/
def setAt (p : PState V) (x i : Nat) (w : V) : Option (PState V) :=
  (p.lists x).bind (fun l => if i < l.length then some (p.shown x (l.set i w)) else none)

/-- One round, for the element `i` of `x`. -/
def refBody (zero : V) (fuel x i : Nat) : List (RefStmt V) → PState V → Res V
  | [], p => .done p
  | .code k :: r, p => withVal (elemAt p x i) (fun v => (exec zero fuel (k v) p).andThen (refBody zero fuel x i r))
  | .put e :: r, p => withVal (elemAt p x i) (fun v => withVal (first p (e v)) (fun w =>
      withVal (setAt p x i w) (refBody zero fuel x i r)) (readRejects p (e v)))

/-- A round for each of the elements at the positions of a list, one after the other. -/
def refRounds (zero : V) (fuel x : Nat) (body : List (RefStmt V)) : List Nat → PState V → Res V
  | [], p => .done p
  | i :: is, p => (refBody zero fuel x i body p).andThen (refRounds zero fuel x body is)

/-- `for (auto &i : x) body`. -/
def forRef (zero : V) (fuel x : Nat) (body : List (RefStmt V)) (p : PState V) : Res V :=
  withVal (p.lists x) (fun l => refRounds zero fuel x body (List.range l.length) p)

/-- The body has no operation on the vector of the loop, except through the name of the loop. -/
def RefOK (x : Nat) (body : List (RefStmt V)) : Prop :=
  ∀ c ∈ body, match c with
    | .code k => ∀ v, WellFormed (k v) ∧ Spares x (k v)
    | .put _ => True

end Spec
end ETR
