import Verif.Model.Expr

/-!
# `BorrowSEXP` (`/repo/include/etr_bits/Core/BorrowSEXP.hpp`)

A vector that works on the memory of an R object.  The memory of R is a block of the heap that has not been obtained by `new[]`
(`Heap.foreign`), so that freeing it with `delete[]` is the undefined behaviour `badFree`.

Simplification: only the element type `double` is modelled (`RetType` is always `double`, BorrowSEXP.hpp 9); the checks of the R type
are in `Model/RIface.lean`.
-/

namespace ETR

/-- `BorrowSEXP`: BorrowSEXP.hpp 13-18. -/
structure Sexp where
  p : Ptr := none
  todelete : Bool := false
  allocated : Bool := false
  sz : Nat := 0
  capacity : Nat := 0
  mp : MP := {}
  deriving DecidableEq, Repr

/-- A `Vec` that borrows an R object: the data member `d` and the buffer `temp` (Vector/VectorClass.hpp 18-19). -/
structure SVec where
  d : Sexp := {}
  temp : Store := {}
  deriving DecidableEq, Repr

/-- State of a computation on one such vector. -/
abbrev XM (V α : Type) := M (Heap V × SVec) α

namespace Sexp
variable {V : Type}

def heapM {α : Type} (m : M (Heap V) α) : XM V α := M.zoom Prod.fst (fun h s => (h, s.2)) m
def self : XM V Sexp := fun s => (.ok s.2.d, s)
def upd (f : Sexp → Sexp) : XM V Unit := fun s => (.ok (), (s.1, { s.2 with d := f s.2.d }))
/-- Run an operation of the buffer `temp`. -/
def tempM {α : Type} (m : SM V α) : XM V α :=
  M.zoom (fun s => (s.1, s.2.temp)) (fun t s => (t.1, { s.2 with temp := t.2 })) m

/-- `BorrowSEXP(SEXP)` for an R object with `n` elements at `b`: BorrowSEXP.hpp 34-49. -/
def ofR (b n : Nat) (dim : Option (Nat × Nat)) : Sexp :=
  { p := some b, sz := n, capacity := n, todelete := false, allocated := true,
    mp := match dim with
      | some (r, c) => ⟨true, r, c⟩
      | none => {} }

/-- `operator=(SEXP)` for an R object with `n` elements at `b`: BorrowSEXP.hpp 95-110. -/
def assignSEXP (b n : Nat) (dim : Option (Nat × Nat)) : XM V Unit := do
  let s ← self
  if s.allocated then
    M.ass (s.p ≠ none) "try to delete nullptr"
    heapM (Heap.delete s.p)
    upd (fun s => { s with p := none })
  upd (fun s => { s with p := some b, sz := n, capacity := n })
  match dim with
  | some (r, c) => upd (fun s => { s with mp := ⟨true, r, c⟩ })
  | none => pure ()
  upd (fun s => { s with todelete := false, allocated := true })

/-- `~BorrowSEXP()`: BorrowSEXP.hpp 78-83. -/
def dtor : XM V Unit := do
  let s ← self
  if s.todelete then
    heapM (Heap.delete s.p)
    upd (fun s => { s with p := none })

/-- Checked index: BorrowSEXP.hpp 137-149. -/
def checkIdx (s : Sexp) (i : Nat) : Out Unit := do
  Out.ass (s.p ≠ none) "Subset is pointing to nothing!"
  Out.ass (i < s.sz) "Error: out of boundaries --> value beyond size of vector"

/-- `operator[](i)` used as a value: BorrowSEXP.hpp 144-149. -/
def get (h : Heap V) (s : Sexp) (i : Nat) : Out V := do
  s.checkIdx i
  h.load s.p i

/-- `(*this)[i] = v`: BorrowSEXP.hpp 137-142. -/
def set (i : Nat) (v : V) : XM V Unit := do
  let s ← self
  M.lift (s.checkIdx i)
  heapM (Heap.store s.p i v)

/-- `fill(value)`: BorrowSEXP.hpp 264-273. -/
def fillScalar (v : V) : XM V Unit := do
  let s ← self
  heapM (Heap.fillRange s.p s.sz v)

/-- `init(size)`: BorrowSEXP.hpp 151-162. -/
def init (size : Nat) : XM V Unit := do
  let s ← self
  if s.allocated ∧ s.todelete then
    M.ass (s.p ≠ none) "try to delete nullptr"
    heapM (Heap.delete s.p)
    upd (fun s => { s with p := none })
  upd (fun s => { s with sz := size })
  let c ← M.lift (capOf size)
  upd (fun s => { s with capacity := c })
  let b ← heapM (Heap.new c)
  upd (fun s => { s with p := some b, allocated := true, todelete := true })

/-- `resize(newSize)`: BorrowSEXP.hpp 164-186. -/
def resize (zero : V) (newSize : Nat) : XM V Unit := do
  M.ass (newSize ≥ 1) "Size has to be larger than 0"
  let s ← self
  if ¬ s.allocated then
    init newSize
    fillScalar zero
  else if newSize > s.capacity then
    M.ass (s.p ≠ none) "try to delete nullptr"
    heapM (Heap.delete s.p)
    upd (fun s => { s with sz := newSize })
    let c ← M.lift (capOf newSize)
    upd (fun s => { s with capacity := c })
    let b ← heapM (Heap.new c)
    upd (fun s => { s with p := some b, allocated := true, todelete := true, sz := newSize })
    fillScalar zero
  else
    upd (fun s => { s with sz := newSize })

/-- The exchange of pointers, sizes and capacities with `temp`: BorrowSEXP.hpp 191-199, 201-209 (the flags `allocated` and `todelete`
stay).  Size and capacity coming from `temp` pass through an `int`. -/
def swapTemp : XM V Unit := fun s =>
  (.ok (), (s.1,
    { d := { s.2.d with p := s.2.temp.p, sz := wrap64 (wrapI32 s.2.temp.sz), capacity := wrap64 (wrapI32 s.2.temp.capacity) },
      temp := { s.2.temp with p := s.2.d.p, sz := s.2.d.sz, capacity := s.2.d.capacity } }))

/-- `d.moveit(temp)`: BorrowSEXP.hpp 188-212. -/
def moveit (zero : V) : XM V Unit := do
  let s ← self
  if ¬ s.todelete then
    let t ← tempM Store.self
    resize zero t.sz
    swapTemp
  else swapTemp

/-- `realloc(new_size)`: BorrowSEXP.hpp 218-237, for `new_size` larger than the size (otherwise it returns at once).  The argument is
an `int`; the model takes values that are representable. -/
def realloc (zero : V) (newSize : Nat) : XM V Unit := do
  let s ← self
  if newSize ≤ s.sz then pure ()
  else do
    let c ← M.lift (capOfI32 newSize)
    upd (fun s => { s with capacity := c })
    let b ← heapM (Heap.new c)
    M.forN s.sz (fun i => do
      let v ← M.reads (fun st => st.1.load s.p i)
      heapM (Heap.store (some b) i v))
    M.forN (newSize - s.sz) (fun i => heapM (Heap.store (some b) (s.sz + i) zero))
    upd (fun s => { s with sz := newSize })
    heapM (Heap.delete s.p)
    upd (fun s => { s with p := some b, allocated := true, todelete := true })

/-- `push_back(input)`: BorrowSEXP.hpp 238-255. -/
def pushBack (zero : V) (v : V) : XM V Unit := do
  let s ← self
  if s.sz = s.capacity then
    realloc zero (if s.sz = 0 then 1 else s.sz * 2)
    upd (fun s => { s with capacity := s.sz })
    let s' ← self
    heapM (Heap.store s'.p s.sz v)
    upd (fun t => { t with sz := s.sz + 1 })
  else if s.sz < s.capacity then
    heapM (Heap.store s.p s.sz v)
    upd (fun s => { s with sz := s.sz + 1 })

/-- What an expression sees of the vector (as operand 0). -/
def env (h : Heap V) (s : Sexp) : Env V := ⟨fun _ => s.sz, fun _ i => s.get h i, fun _ => s.mp⟩

/-- What an expression sees of the vector (as operand 0) and of other vectors of the same kind (as operands 1, 2, ...). -/
def envWith (os : List Sexp) (h : Heap V) (s : Sexp) : Env V :=
  ⟨fun x => match x with
    | 0 => s.sz
    | i + 1 => (os.getD i {}).sz,
   fun x j => match x with
    | 0 => s.get h j
    | i + 1 => (os.getD i {}).get h j,
   fun x => match x with
    | 0 => s.mp
    | i + 1 => (os.getD i {}).mp⟩

/-- `x = e`: Vector/AssignmentOperator.hpp 77-88, 146-157 and 106-108, 234-238.  `en` says what the operands of `e` are. -/
def assignBy (zero : V) (en : Heap V → Sexp → Env V) (e : Expr V) : XM V Unit := do
  let n ← M.reads (fun st => .ok (e.size (en st.1 st.2.d)))
  tempM (Store.resize zero n)
  M.forN n (fun i => do
    let v ← M.reads (fun st => e.el (en st.1 st.2.d) i)
    tempM (Store.set i v))
  let s ← self
  if n > s.sz then resize zero n
  moveit zero
  let st ← M.get
  if e.im (en st.1 st.2.d) then
    let r ← M.lift (e.nr (en st.1 st.2.d))
    let c ← M.lift (e.nc (en st.1 st.2.d))
    upd (fun s => { s with mp := ⟨true, r, c⟩ })

/-- `x = e` for an expression whose only named operand is `x` itself: Vector/AssignmentOperator.hpp 77-88, 146-157 and 106-108,
234-238. -/
def assign (zero : V) (e : Expr V) : XM V Unit := assignBy zero env e

/-- The copy constructor: BorrowSEXP.hpp 28-33.  `o` is another object, which does not change. -/
def copyCtor (zero : V) (o : Sexp) : XM V Unit := do
  resize zero o.sz
  let s ← self
  M.forN s.sz (fun i => do
    let v ← M.reads (fun st => o.get st.1 i)
    heapM (Heap.store s.p i v))
  upd (fun s => { s with mp := o.mp })

/-- `x.d = y.d` for another object `o`: BorrowSEXP.hpp 85-93.  (The assignment to itself returns at once.) -/
def copyAssign (zero : V) (o : Sexp) : XM V Unit := do
  resize zero o.sz
  let s ← self
  M.forN s.sz (fun i => do
    let v ← M.reads (fun st => o.get st.1 i)
    heapM (Heap.store s.p i v))
  upd (fun s => { s with mp := o.mp })

/-- `x.d.fill(y)` for a named vector or an operation: element loop, BorrowSEXP.hpp 275-276 and 293-301 (for a named vector `TInp` is a
reference type, for which `IsVec` is false, Concepts.hpp 119-123).  `f i` is the (converted) element `i` of the argument, `n` its
length. -/
def fillLoop (n : Nat) (f : Heap V → Nat → Out V) : XM V Unit := do
  let s ← self
  M.ass (n = s.sz) "cannot use fill with vectors of different lengths"
  M.forN s.sz (fun i => do
    let v ← M.reads (fun st => f st.1 i)
    heapM (Heap.store s.p i v))

/-- `x.d.fill(y)` for the result `y` of a function, of the same element type: BorrowSEXP.hpp 275-276 and 287-292.  The result is the state of
the argument afterwards. -/
def fillRVec (other : Store) : XM V Store := do
  let s ← self
  M.ass (other.sz = s.sz) "cannot use fill with vectors of different lengths"
  heapM (Heap.delete s.p)
  upd (fun s => { s with p := other.p })
  return { other with p := none, allocated := false }

/-- `Vec y(x)`: the implicit copy constructor of `Vec` copies `d` and then `temp` (Vector/VectorClass.hpp 18-19).  When the copy of `d`
throws, the destructors of the members that exist run; `d` itself is not one of them, and it has no memory then. -/
def copyVec (zero : V) (o : SVec) : XM V Unit := do
  copyCtor zero o.d
  tempM (Store.copyCtor o.temp)

/-- `x = v` for a number: Vector/AssignmentOperator.hpp 22-25, 35-38. -/
def assignScalar (zero : V) (v : V) : XM V Unit := do
  resize zero 1
  set 0 v

/-- Destruction of the vector: `temp` first, then `d` (reverse order of declaration, Vector/VectorClass.hpp 18-19). -/
def destroy : XM V Unit := do
  tempM Store.dtor
  dtor

/-- The argument of the lambda in `initBorrowSEXP` is passed by value and therefore copied: Derivatives/AllVars.hpp 62. -/
def copyArg (zero : V) (x : SVec) : XM V SVec := fun st =>
  match copyVec zero x (st.1, {}) with
  | (.ok _, st') => (.ok st'.2, (st'.1, st.2))
  | (.thr m, st') => (.thr m, (st'.1, st.2))
  | (.ub k, st') => (.ub k, (st'.1, st.2))

/-- The copy is destroyed when the lambda returns: Derivatives/AllVars.hpp 65. -/
def dropArg (arg : SVec) : XM V Unit := fun st =>
  match destroy (st.1, arg) with
  | (o, st') => (o, (st'.1, st.2))

/-- One step of `initBorrowSEXP(args...)`: Derivatives/AllVars.hpp 59-66.  The state is the variable `varBorrowSEXP[idx]`, the argument
is the vector `x`.  Simplification: an exception in the assignment leaves the copy undestroyed (there is none in the cases that the
properties describe). -/
def initVar (zero : V) (x : SVec) : XM V Unit := do
  let arg ← copyArg zero x
  assignBy zero (envWith [arg.d]) (.leaf 1)
  dropArg arg

end Sexp
end ETR
