import Verif.Model.Machine

/-!
# Expressions that are kept in variables (`auto e = a + b;`)

An operation does not contain its operands.  `BinaryOperation` has the members `const L &l; const R &r;`
(`/repo/include/etr_bits/BinaryCalculations.hpp` 25-26, copied as references, 88-95), `UnaryOperation` has
`const I &obj;` (`UnaryCalculations.hpp` 13, 39-41) and `Subset` a pointer `p` to the `d` member of the
subsetted object together with its own copy of the indices (`Core/SubsetClass.hpp` 12-13, 33-48).  The
operators bind the references to the `d` members of their arguments, or to the argument itself if it
is a number (`BinaryCalculations.hpp` 147-170).  The model of `Expr` covers operations inside one full
expression.  Here they get a name and are used later, as `auto a_is_b = a == b; print(a_is_b);` in
`/repo/README.md` 190-192.

The state is the machine (`Model/Machine.lean`) plus a table of the other objects: operations, subsets,
temporary vectors and numbers, each with an identifier that is never reused.  All temporaries of a
declaration `auto e = …;` are destroyed at its end (C++ [class.temporary]); the declared object stays
until the end of its scope.

Simplifications: only operations, subsets, the results of allocation functions and numbers are
declared (`auto b = a;` for a vector is the copy constructor, `Cmd.declCopy`); the indices of a subset
are given as their computed values; numbers have the same value type as elements; a held expression
is used on the right-hand side of an assignment.
-/

namespace ETR

/-- What an operand reference of an operation refers to: the `d` member of a named vector, the `d`
member of another object of the table, a number. -/
inductive Ref where
  | vec (x : Nat)
  | obj (k : Nat)
  | num (k : Nat)

/-- Objects: BinaryCalculations.hpp 19-31, UnaryCalculations.hpp 9-15, SubsetClass.hpp 7-16. -/
inductive Obj (V : Type) where
  | num (v : V)
  | rvec (l : List V) (mp : MP)
  | un (f : V → Out V) (a : Ref)
  | bin (f : V → V → Out V) (a b : Ref)
  | sub (a : Ref) (ind : List Nat) (mp : MP)

/-- Right-hand sides as they are written: `vec x` names a vector, `name k` a held expression, `var k` a
number variable; the others are literals, calls of allocation functions, operators and subsets. -/
inductive Src (V : Type) where
  | vec (x : Nat)
  | name (k : Nat)
  | var (k : Nat)
  | lit (v : V)
  | rvec (l : List V) (mp : MP)
  | un (f : V → Out V) (e : Src V)
  | bin (f : V → V → Out V) (l r : Src V)
  | sub (e : Src V) (ind : List Nat) (mp : MP)

/-- The machine with the table of objects.  `gone x`: the vector `x` has been destroyed. -/
structure HState (V : Type) where
  mach : Mach V
  obj : Nat → Option (Obj V)
  next : Nat
  gone : Nat → Bool

namespace HState
variable {V : Type}

def start (sched : List Bool := []) : HState V := ⟨Mach.start sched, fun _ => none, 0, fun _ => false⟩

/-- A new object. -/
def new (o : Obj V) (s : HState V) : HState V :=
  { s with obj := fun j => if j = s.next then some o else s.obj j, next := s.next + 1 }

/-- Evaluation of a right-hand side: every operator call, literal and allocation function creates an
object whose references are bound to its arguments (BinaryCalculations.hpp 147-170; the other operators
and the mathematical functions alike; Subsetting/VectorSubsetting.hpp 110-127). -/
def build : Src V → HState V → Ref × HState V
  | .vec x, s => (.vec x, s)
  | .name k, s => (.obj k, s)
  | .var k, s => (.num k, s)
  | .lit v, s => (.num s.next, s.new (.num v))
  | .rvec l mp, s => (.obj s.next, s.new (.rvec l mp))
  | .un f e, s =>
    let r := build e s
    (.obj r.2.next, r.2.new (.un f r.1))
  | .bin f l r, s =>
    let a := build l s
    let b := build r a.2
    (.obj b.2.next, b.2.new (.bin f a.1 b.1))
  | .sub e ind mp, s =>
    let r := build e s
    (.obj r.2.next, r.2.new (.sub r.1 ind mp))

/-- `auto e = src;`: all objects made on the way are temporaries, which end here; the last one made is the
declared object. -/
def hold (src : Src V) (s : HState V) : HState V :=
  let t := (build src s).2
  { t with obj := fun j => if s.next ≤ j ∧ j + 1 < t.next then none else t.obj j }

/-- A number operand that is read: the value, or nothing if the number is gone. -/
def number (s : HState V) (k : Nat) : Option V :=
  match s.obj k with
  | some (.num v) => some v
  | _ => none

/-- The expression that an access through a reference sees in the current state.  Reaching for an
object that is gone is undefined; a number that is gone is only reached when an element is computed
(BinaryCalculations.hpp 97-107, `size()` does not look at numbers, 108-120).  `fuel` bounds the
depth; every object refers to older ones only, so `s.next` is enough. -/
def resolve (zero : V) (s : HState V) : Nat → Ref → Out (Expr V)
  | _, .vec x => if s.gone x then .ub .useAfterFree else .ok (.leaf x)
  | _, .num k =>
    match s.number k with
    | some v => .ok (.scal v)
    | none => .ub .useAfterFree
  | 0, .obj _ => .ub .useAfterFree
  | n + 1, .obj k =>
    match s.obj k with
    | none => .ub .useAfterFree
    | some (.num _) => .ub .useAfterFree
    | some (.rvec l mp) => .ok (.rvec l mp)
    | some (.un f a) => do
      let e ← resolve zero s n a
      return .un f e
    | some (.bin f (.num i) b) => do
      let e ← resolve zero s n b
      match s.number i with
      | some v => return .bin f (.scal v) e
      | none => return .bin (fun _ _ => .ub .useAfterFree) (.scal zero) e
    | some (.bin f a (.num i)) => do
      let e ← resolve zero s n a
      match s.number i with
      | some v => return .bin f e (.scal v)
      | none => return .bin (fun _ _ => .ub .useAfterFree) e (.scal zero)
    | some (.bin f a b) => do
      let l ← resolve zero s n a
      let r ← resolve zero s n b
      return .bin f l r
    | some (.sub a ind mp) => do
      let e ← resolve zero s n a
      return .sub e ind mp

/-- Run a command of the machine. -/
def onMach (m : M (Mach V) Unit) : M (HState V) Unit := fun s =>
  let r := m s.mach
  (r.1, { s with mach := r.2 })

/-- `x = e` for a held expression `e` (AssignmentOperator.hpp 51-76, 106-108, 120-145, 235-237; the
argument is a reference, nothing is copied). -/
def assignHeld (zero : V) (conv : V → Out V) (x k : Nat) : M (HState V) Unit := do
  let s ← M.get
  let e ← M.lift (s.resolve zero s.next (.obj k))
  onMach (Mach.assign zero conv x e)

end HState

/-- Programs: the operations of the machine, `auto e = src;`, the assignment `c = v;` to a number variable,
`x = e;`, and the end of the scope of a held expression or number. -/
inductive HCmd (V : Type) where
  | cmd (c : Cmd V)
  | hold (src : Src V)
  | setNum (k : Nat) (v : V)
  | use (conv : V → Out V) (x k : Nat)
  | drop (k : Nat)

namespace HState
variable {V : Type}

/-- Is the operation the end of the life of vector `x`? -/
def ends (x : Nat) : Cmd V → Bool
  | .destroy y => x == y
  | _ => false

/-- Execution of one operation. -/
def exec (zero : V) : HCmd V → M (HState V) Unit
  | .cmd c => fun s =>
    let r := Mach.exec zero c s.mach
    (r.1, { s with mach := r.2, gone := fun x => s.gone x || ends x c })
  | .hold src => M.modify (hold src)
  | .setNum k v => M.modify (fun s => { s with
      obj := fun j => if j = k ∧ (s.number k).isSome then some (.num v) else s.obj j })
  | .use conv x k => assignHeld zero conv x k
  | .drop k => M.modify (fun s => { s with obj := fun j => if j = k then none else s.obj j })

/-- A history, as `Mach.runAll`. -/
def runAll (zero : V) : List (HCmd V) → HState V → Option UB × HState V
  | [], s => (none, s)
  | c :: cs, s =>
    match exec zero c s with
    | (.ub k, s') => (some k, s')
    | (_, s') => runAll zero cs s'

end HState
end ETR
