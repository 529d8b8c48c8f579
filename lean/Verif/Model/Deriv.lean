import Verif.Model.Interp

/-!
# Derivatives

`/repo/include/etr_bits/Derivatives/`, `Vector/DerivativeCalc.hpp`, the derivative branch of `Vector/AssignmentOperator.hpp`
and the derivative traits of `Core/Traits.hpp`.

The functions are modelled for any arithmetic `DArith T`, so that they can be read over binary64 and over the real numbers.
Simplifications: the memory of a `Buffer` or `Borrow` is a list of cells of its object (`Buf`; `Lemmas/DerivStore.lean` relates it to
the heap model); an index into the arrays of `AllVars` is in range; a variable of type 2 (`BorrowSEXP`) has memory of its own, as it has
after `initBorrowSEXP` (`C93_init_partial`), and is used in a build without `STANDALONE_ETR`; the buffer `temp` of an assignment is a
local list; the arguments of `fDeriv` are evaluated from left to right.
-/

namespace ETR

/-- Arithmetic, with the functions used by the derivative traits: `eqv` and `nev` are the comparisons of `==` and `!=`
(Core/Traits.hpp 147, 219), `nz` the conversion to `bool`. -/
structure DArith (T : Type) extends Arith T where
  sin : T → T
  cos : T → T
  eqv : T → T → Bool
  nev : T → T → Bool
  nz : T → Bool

variable {T : Type}

/-- `Buffer` (Core/BaseStore.hpp 11-19), `Borrow` (Core/Borrow.hpp 11-15) or `BorrowSEXP` (Core/BorrowSEXP.hpp 12-20) together with its
memory: `cells` has one entry for each element of the capacity, `none` is an indeterminate value. -/
structure Buf (T : Type) where
  cells : List (Option T) := []
  sz : Nat := 0
  allocated : Bool := false
  mp : MP := {}
  deriving DecidableEq, Repr

namespace Buf

/-- `resize(newSize)` of a buffer: BaseStore.hpp 259-279, and of a `BorrowSEXP` with memory of its own: BorrowSEXP.hpp 164-186.  An allocation of `2^60` or more elements fails, as in `Heap.new`; the
object is then left as it was. -/
def resize (zero : T) (n : Nat) : M (Buf T) Unit := fun b =>
  if n < 1 then (.thr "Size has to be larger than 0", b)
  else if b.allocated = true ∧ n ≤ b.cells.length then (.ok (), { b with sz := n })
  else match capOf n with
    | .ok c =>
      if 2 ^ 60 ≤ c then (.thr "std::bad_alloc", b)
      else if c < n then (.ub .oob, b)
      else (.ok (), { b with cells := List.replicate n (some zero) ++ List.replicate (c - n) none, sz := n, allocated := true })
    | .thr m => (.thr m, b)
    | .ub k => (.ub k, b)

/-- `resize(newSize)` of a borrowed vector: Borrow.hpp 123-130. -/
def resizeBorrow (n : Nat) : M (Buf T) Unit := fun b =>
  if n < 1 then (.thr "Size has to be larger than 0", b)
  else if n ≤ b.cells.length then (.ok (), { b with sz := n })
  else (.thr "Cannot resize Borrow element above size of borrowed object", b)

/-- The checks of `operator[]`: BaseStore.hpp 281-293, Borrow.hpp 137-149. -/
def check (b : Buf T) (i : Nat) : Out Unit := do
  Out.ass (b.allocated = true) "No memory was allocated"
  Out.ass (i < b.sz) "Error: out of boundaries --> value beyond size of vector"

/-- `operator[]`, used as a value: BaseStore.hpp 281-286, Borrow.hpp 137-142. -/
def get (b : Buf T) (i : Nat) : Out T := do
  b.check i
  match b.cells[i]? with
  | none => .ub .oob
  | some none => .ub .uninit
  | some (some v) => .ok v

/-- `(*this)[i] = v`: BaseStore.hpp 288-293, Borrow.hpp 144-149. -/
def set (i : Nat) (v : T) : M (Buf T) Unit := fun b =>
  match b.check i with
  | .ok _ => if i < b.cells.length then (.ok (), { b with cells := b.cells.set i (some v) }) else (.ub .oob, b)
  | .thr m => (.thr m, b)
  | .ub k => (.ub k, b)

/-- `fill(v)`: BaseStore.hpp 147-156 (`std::fill(p, p + sz, v)`). -/
def fill (v : T) : M (Buf T) Unit := fun b =>
  if b.cells.length < b.sz then (.ub .oob, b)
  else (.ok (), { b with cells := List.replicate b.sz (some v) ++ b.cells.drop b.sz })

end Buf

/-- The kind of a variable: Derivatives/VarPointer.hpp 34-42, `TypeIdx` 0, 1 and 2. -/
inductive VKind
  | buffer
  | borrow
  | sexp
  deriving DecidableEq, Repr

/-- A variable: kind and index. -/
abbrev DVar := VKind × Nat

/-- `AllVars`: Derivatives/AllVars.hpp 20-37.  `IndepVarTypeIdx` is never read by the code. -/
structure AV (T : Type) where
  con : Nat → Buf T
  val : DVar → Buf T
  der : DVar → Buf T
  indep : Nat
  indepKind : VKind
  derivInit : Bool

/-- `AllVars(IndepVarIdx, IndepVarTypeIdx)`: AllVars.hpp 35-37. -/
def AV.start (indep : Nat) (kind : VKind) : AV T :=
  ⟨fun _ => {}, fun _ => {}, fun _ => {}, indep, kind, false⟩

namespace AV

/-- Run an operation on the value of a variable. -/
def onVal {α : Type} (x : DVar) (m : M (Buf T) α) : M (AV T) α :=
  M.zoom (fun s => s.val x) (fun b s => { s with val := fun y => if y = x then b else s.val y }) m

/-- Run an operation on the derivative of a variable. -/
def onDer {α : Type} (x : DVar) (m : M (Buf T) α) : M (AV T) α :=
  M.zoom (fun s => s.der x) (fun b s => { s with der := fun y => if y = x then b else s.der y }) m

/-- Run an operation on a constant. -/
def onCon {α : Type} (c : Nat) (m : M (Buf T) α) : M (AV T) α :=
  M.zoom (fun s => s.con c) (fun b s => { s with con := fun y => if y = c then b else s.con y }) m

/-- `AllVars::resize`: AllVars.hpp 134-145. -/
def resize (A : DArith T) (x : DVar) (n : Nat) : M (AV T) Unit :=
  match x.1 with
  | .buffer => onVal x (Buf.resize (A.lit 0) n)
  | .borrow => onVal x (Buf.resizeBorrow n)
  | .sexp => onVal x (Buf.resize (A.lit 0) n)

/-- `AllVars::resizeDerivs`: AllVars.hpp 147-158; the derivatives are buffers for every kind of variable. -/
def resizeDerivs (A : DArith T) (x : DVar) (n : Nat) : M (AV T) Unit := onDer x (Buf.resize (A.lit 0) n)

end AV

/-- `i % n` for `std::size_t`. -/
def modIdx (i n : Nat) : Out Nat := if n = 0 then .ub .modZero else .ok (i % n)

/-- The binary operators for which there is a `walkTD`: Vector/DerivativeCalc.hpp 48-174. -/
inductive DOp
  | add | sub | mul | div | eq | ne | lt | gt | le | ge
  deriving DecidableEq, Repr

/-- The comparisons. -/
def DOp.isCmp : DOp → Bool
  | .eq | .ne | .lt | .gt | .le | .ge => true
  | _ => false

/-- Expressions that can be assigned to a derivative variable: Vector/DerivativeCalc.hpp 35-189.  Other operations and numbers
as operands have no overload of `walkTD`. -/
inductive DExpr
  | con (c : Nat)
  | var (x : DVar)
  | bin (op : DOp) (l r : DExpr)
  | sin (e : DExpr)
  deriving DecidableEq, Repr

namespace DExpr

/-- A constant or a variable. -/
def isLeaf : DExpr → Bool
  | con _ | var _ => true
  | _ => false

/-- `size()`: BinaryCalculations.hpp 106-119, UnaryCalculations.hpp 51-58, VarPointer.hpp 21; and `getSize`: DerivTypes.hpp
20-23, 47-50, 70-72, 93-96, 132-135. -/
def size (s : AV T) : DExpr → Nat
  | con c => (s.con c).sz
  | var x => (s.val x).sz
  | bin _ l r => if l.size s > r.size s then l.size s else r.size s
  | sin e => e.size s

/-- The result of `operator[]` has type `bool`: comparisons, and sums and products of two `bool` (`std::common_type`):
Core/Traits.hpp 235-340. -/
def boolAt : DExpr → Bool
  | con _ | var _ | sin _ => false
  | bin op l r => op.isCmp || (op != .div && l.boolAt && r.boolAt)

/-- The result of `getVal` has type `bool`: Core/Traits.hpp 43-233; `SinusDerivTrait::f` returns the type of its argument. -/
def boolVal : DExpr → Bool
  | con _ | var _ => false
  | bin op l r => op.isCmp || (op != .div && l.boolVal && r.boolVal)
  | sin e => e.boolVal

/-- The result of `getDeriv` has type `bool`: Core/Traits.hpp 43-233. -/
def boolDer : DExpr → Bool
  | con _ | var _ => false
  | bin .mul l r => l.boolVal && r.boolVal
  | bin .div l r => l.boolVal && r.boolVal
  | bin _ l r => l.boolDer && r.boolDer
  | sin e => e.boolDer

end DExpr

namespace DArith

/-- A value of type `bool` as number. -/
def ofBool (A : DArith T) (b : Bool) : T := if b then A.lit 1 else A.lit 0

/-- Conversion of the result to `bool`, if that is the result type. -/
def conv (A : DArith T) (b : Bool) (x : T) : T := if b then A.ofBool (A.nz x) else x

/-- `f` of the traits, `b`: both arguments are `bool`.  Core/Traits.hpp 43-230 (derivative traits) and 235-340 (the traits of
`operator[]`) are the same functions. -/
def op (A : DArith T) (b : Bool) : DOp → T → T → T
  | .add, x, y => A.conv b (A.add x y)
  | .sub, x, y => A.conv b (A.sub x y)
  | .mul, x, y => A.conv b (A.mul x y)
  | .div, x, y => A.div x y
  | .eq, x, y => A.ofBool (A.eqv x y)
  | .ne, x, y => A.ofBool (A.nev x y)
  | .lt, x, y => A.ofBool (A.lt x y)
  | .gt, x, y => A.ofBool (A.lt y x)
  | .le, x, y => A.ofBool (A.le x y)
  | .ge, x, y => A.ofBool (A.le y x)

end DArith

namespace DExpr

/-- `operator[]` of the expression: BinaryCalculations.hpp 95-105, UnaryCalculations.hpp 43-50, VarPointer.hpp 118-130. -/
def elem (A : DArith T) (s : AV T) : DExpr → Nat → Out T
  | con c, i => (s.con c).get i
  | var x, i => (s.val x).get i
  | bin op l r, i => do
    let j ← modIdx i (l.size s)
    let x ← l.elem A s j
    let k ← modIdx i (r.size s)
    let y ← r.elem A s k
    return A.op (l.boolAt && r.boolAt) op x y
  | sin e, i => do
    let j ← modIdx i (e.size s)
    let x ← e.elem A s j
    return A.sin x

/-- `getVal` of a variable: VarPointer.hpp 104-116. -/
def leafVal (b : Buf T) (i : Nat) : Out T := do
  let j ← modIdx i b.sz
  b.get j

/-- `getVal`: DerivTypes.hpp 25-27, 51-53, 73-75, 97-104, 137-144; the index is passed to the leaves unchanged. -/
def getVal (A : DArith T) (s : AV T) : DExpr → Nat → Out T
  | con c, i => leafVal (s.con c) i
  | var x, i => leafVal (s.val x) i
  | bin op l r, i => do
    let x ← l.getVal A s i
    let y ← r.getVal A s i
    return A.op (l.boolVal && r.boolVal) op x y
  | sin e, i => do
    let x ← e.getVal A s i
    return A.conv e.boolVal (A.sin x)

/-- `getDeriv` of a variable: VarPointer.hpp 146-182.  A derivative whose size differs from the size of the value is resized, and
set to one at the first time this happens for a variable with the index of the independent variable. -/
def varDeriv (A : DArith T) (x : DVar) (i : Nat) : M (AV T) T := do
  let s ← M.get
  if (s.der x).sz ≠ (s.val x).sz then
    AV.onDer x (Buf.resize (A.lit 0) (s.val x).sz)
    if x.2 = s.indep ∧ s.derivInit = false then
      AV.onDer x (Buf.fill (A.lit 1))
      M.modify (fun s => { s with derivInit := true })
  M.reads (fun s => leafVal (s.der x) i)

/-- `getDeriv`: DerivTypes.hpp 29-32, 54-57, 76-82, 105-108, 146-149, with the functions `fDeriv` of the traits: Core/Traits.hpp
43-233.  `walkTD` takes `DivideByConstantDerivTrait` when the right operand is a constant: DerivativeCalc.hpp 91-102. -/
def getDeriv (A : DArith T) : DExpr → Nat → M (AV T) T
  | con _, _ => pure (A.lit 0)
  | var x, i => varDeriv A x i
  | bin .add l r, i => do
    let dl ← l.getDeriv A i
    let dr ← r.getDeriv A i
    return A.conv (l.boolDer && r.boolDer) (A.add dl dr)
  | bin .sub l r, i => do
    let dl ← l.getDeriv A i
    let dr ← r.getDeriv A i
    return A.conv (l.boolDer && r.boolDer) (A.sub dl dr)
  | bin .mul l r, i => do
    let x ← M.reads (fun s => l.getVal A s i)
    let y ← M.reads (fun s => r.getVal A s i)
    let dl ← l.getDeriv A i
    let dr ← r.getDeriv A i
    return A.conv (l.boolVal && r.boolVal) (A.add (A.mul dl y) (A.mul dr x))
  | bin .div l r, i => do
    let x ← M.reads (fun s => l.getVal A s i)
    let y ← M.reads (fun s => r.getVal A s i)
    let dl ← l.getDeriv A i
    let dr ← r.getDeriv A i
    match r with
    | con _ => return A.div dl y
    | _ => return A.conv (l.boolVal && r.boolVal) (A.div (A.sub (A.mul dl y) (A.mul x dr)) (A.pow dr 2))
  | bin _ l r, i => do
    let _ ← l.getDeriv A i
    let _ ← r.getDeriv A i
    return A.lit 0
  | sin e, i =>
    if e.isLeaf then do
      let x ← M.reads (fun s => e.getVal A s i)
      return A.cos x
    else do
      let d ← e.getDeriv A i
      return A.conv e.boolDer (A.cos d)

/-- `im()`: BinaryCalculations.hpp 31-42, UnaryCalculations.hpp 16-22, AllVars.hpp 87-102. -/
def im (s : AV T) : DExpr → Bool
  | con c => (s.con c).mp.im
  | var x => (s.val x).mp.im
  | bin _ l r => l.im s || r.im s
  | sin _ => false

/-- `nr()` and `nc()` (the field `f`): BinaryCalculations.hpp 43-84, UnaryCalculations.hpp 24-37, AllVars.hpp 104-132. -/
def dimOf (f : MP → Nat) (s : AV T) : DExpr → Out Nat
  | con _ => .thr "Unsupported type in derivative"
  | var x => .ok (f (s.val x).mp)
  | bin _ l r =>
    if l.im s && r.im s then do
      let a ← l.dimOf f s
      let b ← r.dimOf f s
      return if a > b then a else b
    else if r.im s then r.dimOf f s
    else if l.im s then l.dimOf f s
    else .thr "Matrix calculation failed!"
  | sin e => e.dimOf f s

end DExpr

namespace AV

/-- The matrix part of the assignment: AssignmentOperator.hpp 231-234, VarPointer.hpp 46-59. -/
def setDims (x : DVar) (e : DExpr) : M (AV T) Unit := do
  let s ← M.get
  if e.im s then
    let r ← M.lift (e.dimOf MP.nr s)
    let c ← M.lift (e.dimOf MP.nc s)
    onVal x (M.modify (fun b => { b with mp := ⟨true, r, c⟩ }))

/-- Assignment of a constant: AssignmentOperator.hpp 178-193.  The values are written to `varBuffer`, whatever the kind of the
variable, and the kind of the independent variable is not looked at. -/
def assignCon (A : DArith T) (x : DVar) (c : Nat) : M (AV T) Unit := do
  let s ← M.get
  let n := (s.con c).sz
  resize A x n
  M.forN n (fun i => do
    let v ← M.reads (fun s => (s.con c).get i)
    onVal (.buffer, x.2) (Buf.set i v))
  resizeDerivs A x n
  M.forN n (fun i => onDer x (Buf.set i (if s.indep = x.2 then A.lit 1 else A.lit 0)))

/-- Assignment of an expression: AssignmentOperator.hpp 196-213.  The values are written to `varBuffer`, whatever the kind of the
variable. -/
def assignExpr (A : DArith T) (x : DVar) (e : DExpr) : M (AV T) Unit := do
  let s ← M.get
  let n := e.size s
  M.ass (n ≥ 1) "Size has to be larger than 0"
  let temp ← M.lift (Out.all ((List.range n).map (fun i => e.elem A s i)))
  resizeDerivs A x n
  M.forN n (fun i => do
    let d ← e.getDeriv A i
    onDer x (Buf.set i d))
  resize A x n
  M.forN n (fun i => match temp[i]? with
    | some v => onVal (.buffer, x.2) (Buf.set i v)
    | none => M.lift (.ub .oob))

/-- Assignment of another variable: AssignmentOperator.hpp 215-229. -/
def assignVar (A : DArith T) (x y : DVar) : M (AV T) Unit := do
  let s ← M.get
  let n := (s.val y).sz
  resize A x n
  M.forN n (fun i => do
    let v ← M.reads (fun s => DExpr.leafVal (s.val y) i)
    onVal x (Buf.set i v))
  resizeDerivs A x n
  M.forN n (fun i => do
    let d ← DExpr.varDeriv A y i
    onDer x (Buf.set i d))

/-- `x = e`: AssignmentOperator.hpp 172-239.  `x = x` does not compile. -/
def assign (A : DArith T) (x : DVar) (e : DExpr) : M (AV T) Unit := do
  match e with
  | .con c => assignCon A x c
  | .var y => assignVar A x y
  | e => assignExpr A x e
  setDims x e

/-- `coca<c>(av, ...)` and `scalarDeriv<c>(av, s)`: Coca.hpp 133-182, Allocation/ScalarForDeriv.hpp 8-18; `l` are the values of
the arguments. -/
def setCon (A : DArith T) (c : Nat) (l : List T) : M (AV T) Unit := do
  onCon c (Buf.resize (A.lit 0) l.length)
  M.forN l.length (fun i => match l[i]? with
    | some v => onCon c (Buf.set i v)
    | none => M.lift (.ub .oob))

/-- `initBuffer`: AllVars.hpp 39-47, for one variable that was not used before, with a vector showing `l`. -/
def initBuffer (A : DArith T) (x : Nat) (l : List T) : M (AV T) Unit := do
  onVal (.buffer, x) (Buf.resize (A.lit 0) l.length)
  M.forN l.length (fun i => match l[i]? with
    | some v => onVal (.buffer, x) (Buf.set i v)
    | none => M.lift (.ub .oob))

/-- `initBuffer`: AllVars.hpp 39-47, for one variable that was not used before, with a vector or matrix showing `l`
(AssignmentOperator.hpp, the copy of the dimensions after the elements). -/
def initMatrix (A : DArith T) (x : Nat) (l : List T) (mp : MP) : M (AV T) Unit := do
  initBuffer A x l
  if mp.im then onVal (.buffer, x) (M.modify (fun b => { b with mp := ⟨true, mp.nr, mp.nc⟩ }))

/-- `initBuffer(args...)` of a table in which no variable was used before: AllVars.hpp 39-47; argument `i` goes to variable `n + i`
(`idx++` in the lambda). -/
def initFrom (A : DArith T) : Nat → List (List T) → M (AV T) Unit
  | _, [] => pure ()
  | n, l :: ls => do
    initBuffer A n l
    initFrom A (n + 1) ls

/-- `initBorrow`: AllVars.hpp 49-57, for one variable and a vector showing `l`, with the assignment to a borrowing vector:
AssignmentOperator.hpp 60-76. -/
def initBorrow (x : Nat) (l : List T) : M (AV T) Unit := do
  let s ← M.get
  M.ass (l.length ≤ (s.val (.borrow, x)).cells.length)
    "number of items to replace is not a multiple of replacement length"
  M.ass (l.length ≥ 1) "Size has to be larger than 0"
  M.ass ((s.val (.borrow, x)).sz ≤ l.length) "size cannot be increased above the size of the borrowed object"
  onVal (.borrow, x) (M.modify (fun b => { b with sz := l.length }))
  M.forN l.length (fun i => match l[i]? with
    | some v => onVal (.borrow, x) (Buf.set i v)
    | none => M.lift (.ub .oob))

/-- `initBorrowSEXP`: AllVars.hpp 59-67, for one variable that was not used before, with a vector showing `l`; the assignment to an empty
variable is AssignmentOperator.hpp 76-87 and 146-157 (`resize`, then the memory of `temp` with the elements). -/
def initSEXP (A : DArith T) (x : Nat) (l : List T) : M (AV T) Unit := do
  onVal (.sexp, x) (Buf.resize (A.lit 0) l.length)
  M.forN l.length (fun i => match l[i]? with
    | some v => onVal (.sexp, x) (Buf.set i v)
    | none => M.lift (.ub .oob))

/-- `initBorrowSEXP(args...)` of a table in which no variable of this kind was used before: AllVars.hpp 59-67. -/
def initSEXPFrom (A : DArith T) : Nat → List (List T) → M (AV T) Unit
  | _, [] => pure ()
  | n, l :: ls => do
    initSEXP A n l
    initSEXPFrom A (n + 1) ls

/-- `get_derivs(v)`: getDerivs.hpp 12-20; the new vector `res` (constructed with the size, so not for an empty variable) is a list. -/
def getDerivs (A : DArith T) (x : DVar) : M (AV T) (List T) := do
  let s ← M.get
  M.ass ((s.val x).sz > 0) "Size has to be larger than 0"
  (List.range (s.val x).sz).mapM (fun i => DExpr.varDeriv A x i)

/-- A statement of a program over derivative variables. -/
inductive Stmt (T : Type)
  | setCon (c : Nat) (l : List T)
  | assign (x : DVar) (e : DExpr)

/-- Execution of one statement. -/
def exec (A : DArith T) : Stmt T → M (AV T) Unit
  | .setCon c l => setCon A c l
  | .assign x e => assign A x e

/-- Execution of a program. -/
def run (A : DArith T) : List (Stmt T) → M (AV T) Unit
  | [] => pure ()
  | p :: ps => do exec A p; run A ps

end AV
end ETR
