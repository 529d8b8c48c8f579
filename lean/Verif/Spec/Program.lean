import Verif.Model.Machine
import Verif.Spec.Eval

/-!
# Naive semantics of straight-line programs

A program state maps variables to lists of values.  A vector that borrows an array of the caller is a
window on that array: it shows the first `size` elements, and a change of the elements is a change of
the array, seen by every vector that borrows the same array.  A command has no result (`none`) when
naive semantics rejects it (index out of range, empty vector, lengths do not agree, undefined element
operation) and also in the cases in which the library is known not to follow naive semantics; these
are listed at the guards below.  Sizes are limited to `2^30` (`2^29` for `push_back`).
-/

namespace ETR
namespace Spec
variable {V : Type}

/-- How a variable got its value; needed only for the restrictions below.
* `std`: initialised or assigned normally;
* `stolen`: initialised from a temporary and not assigned as a whole since then: such a variable
  cannot be copied (C07) or extended by `push_back` correctly;
* `bare`: declared by `Vec x;`, without a value so far;
* `once`: declared by `Vec x;` and assigned a vector once: a further vector assignment is rejected by
  the library (C12). -/
inductive Kind
  | std | stolen | bare | once
  deriving DecidableEq

/-- A variable. -/
structure Var (V : Type) where
  val : List V
  kind : Kind

/-- A vector that borrows: the array, the number of elements shown and the largest possible number. -/
structure Bor where
  arr : Nat
  size : Nat
  cap : Nat

/-- State: the next free identifier (temporaries take one, too), the variables that own their elements,
the variables that borrow, and the arrays of the caller. -/
structure PState (V : Type) where
  next : Nat
  vars : Nat → Option (Var V)
  bors : Nat → Option Bor
  arrays : Nat → Option (List V)

/-- A borrowing variable together with its array. -/
def PState.view (p : PState V) (x : Nat) : Option (Bor × List V) := do
  let β ← p.bors x
  let l ← p.arrays β.arr
  return (β, l)

/-- The lists of the variables. -/
def PState.lists (p : PState V) (x : Nat) : Option (List V) :=
  match p.vars x with
  | some v => some v.val
  | none => (p.view x).map (fun r => r.2.take r.1.size)

/-- Update of one variable. -/
def PState.put (p : PState V) (x : Nat) (v : Option (Var V)) : PState V :=
  { p with vars := fun y => if y = x then v else p.vars y }

/-- Declaration: the new variable gets the next identifier (after `k` temporaries). -/
def PState.new (p : PState V) (k : Nat) (v : Var V) : PState V :=
  { p with next := p.next + k + 1, vars := fun y => if y = p.next + k then some v else p.vars y }

/-- Declaration of a borrowing variable. -/
def PState.newBor (p : PState V) (β : Bor) : PState V :=
  { p with next := p.next + 1, bors := fun y => if y = p.next then some β else p.bors y }

/-- The borrowing variable `x` (with the array `l`) shows `vis` from now on. -/
def PState.write (p : PState V) (x : Nat) (β : Bor) (l vis : List V) : PState V :=
  { p with
    bors := fun y => if y = x then some { β with size := vis.length } else p.bors y
    arrays := fun a => if a = β.arr then some (vis ++ l.drop vis.length) else p.arrays a }

/-- Kind after a vector assignment. -/
def Kind.assigned : Kind → Option Kind
  | .std => some .std
  | .stolen => some .std
  | .bare => some .once
  | .once => none

/-- Kind after an operation that gives the variable memory of its own (scalar assignment, growing
`resize`). -/
def Kind.resized : Kind → Kind
  | .once => .once
  | _ => .std

/-- Size limit. -/
def lim (l : List V) : Option (List V) := if l ≠ [] ∧ l.length ≤ 2 ^ 30 then some l else none

/-- Write the values `vs` to the positions `ind`, one after the other. -/
def writeAll (l : List V) : List Nat → List V → Option (List V)
  | [], _ => some l
  | j :: js, v :: vs => if j < l.length then writeAll (l.set j v) js vs else none
  | _ :: _, [] => none

/-- Effect of a command on the variables that own their elements (the right-hand sides may contain
variables that borrow). -/
def stepOwn (zero : V) (p : PState V) : Cmd V → Option (PState V)
  | .callerArray _ => some p
  | .declDefault => some (p.new 0 ⟨[], .bare⟩)
  | .declSize n => do
    let l ← lim (List.replicate n zero)
    return p.new 0 ⟨l, .std⟩
  | .declScalar v => some (p.new 0 ⟨[v], .std⟩)
  | .declMat r c => do
    let l ← lim (List.replicate (r * c) zero)
    return p.new 0 ⟨l, .std⟩
  | .declMatVal r c v => do
    let l ← lim (List.replicate (r * c) v)
    return p.new 0 ⟨l, .std⟩
  | .declCopy y => do
    let v ← p.vars y
    if v.kind = .std then some (p.new 0 v) else none
  | .declExpr conv e => do
    let l ← eval p.lists e
    let l' ← l.mapM (fun v => val (conv v))
    let l'' ← lim l'
    return p.new 0 ⟨l'', .std⟩
  | .declTemp l _ => do
    let l ← lim l
    return p.new 1 ⟨l, .stolen⟩
  | .assign conv x e => do
    let v ← p.vars x
    let l ← eval p.lists e
    let l' ← l.mapM (fun v => val (conv v))
    let l'' ← lim l'
    let k ← v.kind.assigned
    return p.put x (some ⟨l'', k⟩)
  | .assignScalar x v => do
    let w ← p.vars x
    return p.put x (some ⟨[v], w.kind.resized⟩)
  | .subAssign conv _ x ind e => do
    let w ← p.vars x
    let l ← eval p.lists e
    let l' ← l.mapM (fun v => val (conv v))
    let _ ← lim l'
    if l'.length = ind.length ∧ ind.length ≤ w.val.length then
      let r ← writeAll w.val ind l'
      return { p.put x (some ⟨r, w.kind⟩) with next := p.next + 1 }
    else none
  | .subAssignScalar x ind v => do
    let w ← p.vars x
    if ind.length ≤ w.val.length then
      let r ← writeAll w.val ind (List.replicate ind.length v)
      return p.put x (some ⟨r, w.kind⟩)
    else none
  | .setElem x i v => do
    let w ← p.vars x
    if i < w.val.length then return p.put x (some ⟨w.val.set i v, w.kind⟩) else none
  | .resize x n => do
    let w ← p.vars x
    if (w.kind = .std ∨ w.kind = .once) ∧ 1 ≤ n ∧ n ≤ w.val.length then
      return p.put x (some ⟨w.val.take n, w.kind⟩)
    else none
  | .fill x v => do
    let w ← p.vars x
    return p.put x (some ⟨List.replicate w.val.length v, w.kind⟩)
  | .fillVec x y => do
    let w ← p.vars x
    let u ← p.vars y
    if u.val.length = w.val.length then return p.put x (some ⟨u.val, w.kind⟩) else none
  | .pushBack x v => do
    let w ← p.vars x
    if (w.kind = .std ∨ w.kind = .once) ∧ w.val.length < 2 ^ 29 then
      return p.put x (some ⟨w.val ++ [v], w.kind⟩)
    else none
  | .destroy x => do
    let _ ← p.vars x
    return p.put x none
  | _ => none

/-- Effect of a command on the variables that borrow, and declarations that use an array of the caller.
An assignment cannot make the vector shorter, and it cannot exceed the borrowed part of the array; `resize`
can do the former. -/
def stepBor (p : PState V) : Cmd V → Option (PState V)
  | .declBorrow (some a) n => do
    let l ← p.arrays a
    if 1 ≤ n ∧ n ≤ l.length then some (p.newBor ⟨a, n, n⟩) else none
  | .declPtr (some a) n => do
    let l ← p.arrays a
    if n ≤ l.length then
      let l' ← lim (l.take n)
      return p.new 0 ⟨l', .std⟩
    else none
  | .declCopy y => do
    let β ← p.bors y
    return p.newBor β
  | .assign conv x e => do
    let (β, a) ← p.view x
    let l ← eval p.lists e
    let l' ← l.mapM (fun v => val (conv v))
    let l'' ← lim l'
    if β.size ≤ l''.length ∧ l''.length ≤ β.cap then return p.write x β a l'' else none
  | .assignScalar x v => do
    let (β, a) ← p.view x
    return p.write x β a [v]
  | .subAssign conv _ x ind e => do
    let (β, a) ← p.view x
    let l ← eval p.lists e
    let l' ← l.mapM (fun v => val (conv v))
    let _ ← lim l'
    if l'.length = ind.length ∧ ind.length ≤ β.size then
      let r ← writeAll (a.take β.size) ind l'
      return { p.write x β a r with next := p.next + 1 }
    else none
  | .subAssignScalar x ind v => do
    let (β, a) ← p.view x
    if ind.length ≤ β.size then
      let r ← writeAll (a.take β.size) ind (List.replicate ind.length v)
      return p.write x β a r
    else none
  | .setElem x i v => do
    let (β, a) ← p.view x
    if i < β.size then return p.write x β a ((a.take β.size).set i v) else none
  | .resize x n => do
    let (β, a) ← p.view x
    if 1 ≤ n ∧ n ≤ β.cap then return p.write x β a (a.take n) else none
  | .fill x v => do
    let (β, a) ← p.view x
    return p.write x β a (List.replicate β.size v)
  | .fillVec x y => do
    let u ← p.lists y
    match p.vars x with
    | some w => if u.length = w.val.length then some (p.put x (some ⟨u, w.kind⟩)) else none
    | none => do
      let (β, a) ← p.view x
      if u.length = β.size then return p.write x β a u else none
  | .destroy x => do
    let _ ← p.bors x
    return { p with bors := fun y => if y = x then none else p.bors y }
  | _ => none

/-- Effect of a command. -/
def step (zero : V) (p : PState V) (c : Cmd V) : Option (PState V) :=
  match stepOwn zero p c with
  | some q => some q
  | none => stepBor p c

/-- Run a program. -/
def run (zero : V) : List (Cmd V) → PState V → Option (PState V)
  | [], p => some p
  | c :: cs, p => step zero p c >>= run zero cs

/-- No variables. -/
def PState.empty : PState V := ⟨0, fun _ => none, fun _ => none, fun _ => none⟩

/-- No variables; the caller has the arrays `ls`, at the addresses `0`, `1`, ... -/
def PState.caller (ls : List (List V)) : PState V := ⟨0, fun _ => none, fun _ => none, fun a => ls[a]?⟩

end Spec

namespace Mach
variable {V : Type}

/-- Run a program that stops at the first exception. -/
def runOk (zero : V) : List (Cmd V) → M (Mach V) Unit
  | [] => pure ()
  | c :: cs => do exec zero c; runOk zero cs

end Mach
end ETR
