import Verif.Model.Control

/-!
# Range-for loops by reference

`for (auto &i : v) { … }` and `for (auto &i : v(ind)) { … }`: `i` is the element itself, so that an assignment to `i` changes the
vector.  Vector/VectorClass.hpp 61-74 (`begin`, `end`), Core/Utils.hpp 47-52 (`It`, whose `operator*` returns a reference).
-/

namespace ETR
variable {V : Type}

/-- A statement in the body of such a loop.  The parameter is the value of `i` at the time of the statement.
* `code`: any program that uses this value;
* `put`: `i = e;`. -/
inductive RefStmt (V : Type)
  | code (k : V → Prog V)
  | put (e : V → Expr V)

namespace Prog

/-- The write through the reference: `*p = w` for the element `i` of the memory at `p`, Core/Utils.hpp 49. -/
def storeAt (p : Ptr) (i : Nat) (w : V) (s : St V) : Out Unit × St V :=
  ((Heap.store p i w s.2.heap).1, (s.1, { s.2 with heap := (Heap.store p i w s.2.heap).2 }))

/-- One round: `i` refers to the element `i` of the memory at `p`, and each use of it reads or writes that memory.  The value of an
expression is converted to the element type, as in Vector/VectorClass.hpp 43-54 (`operator RetType`; the warning for conditions is no part of
an assignment). -/
def refBody (zero : V) (fuel : Nat) (p : Ptr) (i : Nat) : List (RefStmt V) → St V → Option (Out Unit × St V)
  | [], s => some (.ok (), s)
  | .code k :: r, s => withOut (s.2.heap.load p i, s) (fun v s => andThen ((k v).run zero fuel s) (refBody zero fuel p i r))
  | .put e :: r, s => withOut (s.2.heap.load p i, s) (fun v s => withOut (say (toScalar false s.2.env (e v)) s) (fun w s =>
      withOut (storeAt p i w s) (fun _ => refBody zero fuel p i r)))

/-- The rounds from element `i` on; `n` are left. -/
def refRounds (zero : V) (fuel : Nat) (p : Ptr) (body : List (RefStmt V)) : Nat → Nat → St V → Option (Out Unit × St V)
  | 0, _, s => some (.ok (), s)
  | n + 1, i, s => andThen (refBody zero fuel p i body s) (refRounds zero fuel p body n (i + 1))

/-- `for (auto &i : x) body`: the iterators start at the memory of `x` and run for `size()` elements, both taken when the loop begins. -/
def forRef (zero : V) (fuel x : Nat) (body : List (RefStmt V)) (s : St V) : Option (Out Unit × St V) :=
  refRounds zero fuel (s.2.st (x, false)).p body (s.2.st (x, false)).sz 0 s

/-- `for (auto &i : x(ind)) body` with the 0-based indices `ind`: the iterators start at the memory of `x` (`d.p->p`) and run for as many
elements as there are indices; the indices themselves are not used.  Vector/VectorClass.hpp 61-74. -/
def forRefSub (zero : V) (fuel x : Nat) (ind : List Nat) (body : List (RefStmt V)) (s : St V) : Option (Out Unit × St V) :=
  refRounds zero fuel (s.2.st (x, false)).p body ind.length 0 s

end Prog
end ETR
