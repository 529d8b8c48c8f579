import Verif.Model.Heap

/-!
# `BaseStore` (`/repo/include/etr_bits/Core/BaseStore.hpp`)

A `Store` is the C++ object (pointer, size, capacity, allocated flag, matrix parameter); the
elements live in the heap.  Operations are state transformers on the heap and the object, so that
an exception leaves both in the state reached.  The element type `V` is a parameter; `zero`
is `T()`.
-/

namespace ETR

/-- `MatrixParameter`: `/repo/include/etr_bits/Core/MatrixParameter.hpp` 5-30. -/
structure MP where
  im : Bool := false
  nr : Nat := 0
  nc : Nat := 0
  deriving DecidableEq, Repr

/-- `BaseStore`: `/repo/include/etr_bits/Core/BaseStore.hpp` 11-19. -/
structure Store where
  p : Ptr := none
  sz : Nat := 0
  capacity : Nat := 0
  allocated : Bool := false
  mp : MP := {}
  deriving DecidableEq, Repr

/-- State of a computation on one store. -/
abbrev SM (V α : Type) := M (Heap V × Store) α

/-- `1.15` as a double. -/
def c115 : F64 := F64.rnd (23 / 20)

/-- `static_cast<std::size_t>(n * 1.15)`: BaseStore.hpp 104, 255, 269. -/
def capOf (n : Nat) : Out Nat := F64.toSizeT (F64.mul (F64.ofNat n) c115)

/-- `static_cast<std::size_t>(n * 1.15)` for an `int` `n`: BaseStore.hpp 114. -/
def capOfInt (n : Int) : Out Nat := F64.toSizeT (F64.mul (F64.ofInt n) c115)

/-- `capacity = static_cast<int>(n * 1.15)` (then converted to `size_t`): BaseStore.hpp 315. -/
def capOfI32 (n : Nat) : Out Nat := do
  let c ← F64.toI32 (F64.mul (F64.ofNat n) c115)
  return wrap64 c

namespace Store
variable {V : Type}

/-- Run a heap operation. -/
def heapM {α : Type} (m : M (Heap V) α) : SM V α := M.zoom Prod.fst (fun h s => (h, s.2)) m
/-- Current object. -/
def self : SM V Store := fun s => (.ok s.2, s)
/-- Update the object. -/
def upd (f : Store → Store) : SM V Unit := fun s => (.ok (), (s.1, f s.2))

/-- `init(size)`: BaseStore.hpp 248-258. -/
def init (size : Nat) : SM V Unit := do
  let s ← self
  if s.allocated then
    M.ass (s.p ≠ none) "try to delete nullptr"
    heapM (Heap.delete s.p)
    upd (fun s => { s with p := none })
  upd (fun s => { s with sz := size })
  let c ← M.lift (capOf size)
  upd (fun s => { s with capacity := c })
  let b ← heapM (Heap.new c)
  upd (fun s => { s with p := some b, allocated := true })

/-- `fill(value)`: BaseStore.hpp 147-156. -/
def fillScalar (v : V) : SM V Unit := do
  let s ← self
  heapM (Heap.fillRange s.p s.sz v)

/-- `resize(newSize)`: BaseStore.hpp 259-279. -/
def resize (zero : V) (newSize : Nat) : SM V Unit := do
  M.ass (newSize ≥ 1) "Size has to be larger than 0"
  let s ← self
  if ¬ s.allocated then
    init newSize
    fillScalar zero
  else if newSize > s.capacity then
    M.ass (s.p ≠ none) "try to delete nullptr"
    heapM (Heap.delete s.p)
    let c ← M.lift (capOf newSize)
    upd (fun s => { s with capacity := c })
    let b ← heapM (Heap.new c)
    upd (fun s => { s with p := some b, sz := newSize, allocated := true })
    fillScalar zero
  else
    upd (fun s => { s with sz := newSize })

/-- Checked index: BaseStore.hpp 281-293 (`idx >= 0` is always true for `size_t`). -/
def checkIdx (s : Store) (idx : Nat) : Out Unit := do
  Out.ass (s.allocated = true) "No memory was allocated"
  Out.ass (idx < s.sz) "Error: out of boundaries --> value beyond size of vector"

/-- `operator[](idx)` used as a value: BaseStore.hpp 281-286. -/
def get (h : Heap V) (s : Store) (idx : Nat) : Out V := do
  s.checkIdx idx
  h.load s.p idx

/-- `(*this)[idx] = v`: BaseStore.hpp 288-293. -/
def set (idx : Nat) (v : V) : SM V Unit := do
  let s ← self
  M.lift (s.checkIdx idx)
  heapM (Heap.store s.p idx v)

/-- `BaseStore(std::size_t)`: BaseStore.hpp 103-111.  Run on a default object. -/
def ctorSize (zero : V) (n : Nat) : SM V Unit := do
  let c ← M.lift (capOf n)
  upd (fun s => { s with sz := n, capacity := c })
  M.ass (n > 0) "Size has to be larger than 0"
  let b ← heapM (Heap.new c)
  upd (fun s => { s with p := some b })
  heapM (Heap.fillRange (some b) c zero)
  upd (fun s => { s with allocated := true })

/-- `BaseStore(int)`: BaseStore.hpp 112-120.  Run on a default object. -/
def ctorInt (zero : V) (n : Int) : SM V Unit := do
  let c ← M.lift (capOfInt n)
  upd (fun s => { s with sz := wrap64 n, capacity := c })
  M.ass (n > 0) "Size has to be larger than 0"
  let b ← heapM (Heap.new c)
  upd (fun s => { s with p := some b })
  heapM (Heap.fillRange (some b) (wrap64 n) zero)
  upd (fun s => { s with allocated := true })

/-- `BaseStore(const BaseStore&)`: BaseStore.hpp 36-44.  Run on a default object.
`mp` is not copied. -/
def copyCtor (other : Store) : SM V Unit := do
  upd (fun s => { s with sz := other.sz, capacity := other.capacity,
                         allocated := other.allocated })
  if other.allocated then
    let b ← heapM (Heap.new other.capacity)
    upd (fun s => { s with p := some b })
    heapM (Heap.copyRange other.p other.capacity (some b))

/-- `BaseStore(BaseStore&&)`: BaseStore.hpp 45-52.  Returns the new object and the moved-from
object; `mp` is not copied. -/
def moveCtor (other : Store) : Store × Store :=
  ({ p := other.p, sz := other.sz, capacity := other.capacity, allocated := other.allocated },
   { other with capacity := 0, sz := 0, allocated := false, p := none })

/-- `realloc(new_size)`: BaseStore.hpp 313-329. -/
def realloc (zero : V) (newSize : Nat) : SM V Unit := do
  let c ← M.lift (capOfI32 newSize)
  upd (fun s => { s with capacity := c })
  let b ← heapM (Heap.new c)
  let s ← self
  M.forN s.sz (fun i => do
    let v ← M.reads (fun st => st.1.load s.p i)
    heapM (Heap.store (some b) i v))
  M.forN (newSize - s.sz) (fun i => heapM (Heap.store (some b) (s.sz + i) zero))
  heapM (Heap.delete s.p)
  upd (fun s => { s with p := some b, sz := newSize, allocated := true })

/-- `operator=(const BaseStore&)`: BaseStore.hpp 130-145, for two different objects (the self
assignment branch 131-132 does nothing).  `mp` is not copied. -/
def assign (zero : V) (other : Store) : SM V Unit := do
  let s ← self
  if other.sz > s.sz then
    if s.allocated then
      realloc zero (s.sz + (other.sz - s.sz))
    else
      resize zero other.sz
  let s ← self
  M.forN s.sz (fun i => do
    let v ← M.reads (fun st => other.get st.1 i)
    heapM (Heap.store s.p i v))

/-- `fill(vec)` when `vec` is a temporary (`RVec`) of the same type, BaseStore.hpp 158-159 and
169-174.  The first component is the state of the temporary afterwards. -/
def fillRVec (other : Store) : SM V Store := do
  let s ← self
  M.ass (other.sz = s.sz) "cannot use fill with vectors of different lengths"
  heapM (Heap.delete s.p)
  upd (fun s => { s with p := other.p })
  return { other with p := none, allocated := false }

/-- `fill(e)` for an operation or a vector of another type: element loop, BaseStore.hpp 162-164 and
176-182.  `f i` is the (converted) element `i` of the argument, `n` its length. -/
def fillLoop (n : Nat) (f : Heap V → Nat → Out V) : SM V Unit := do
  let s ← self
  M.ass (n = s.sz) "cannot use fill with vectors of different lengths"
  M.forN s.sz (fun i => do
    let v ← M.reads (fun st => f st.1 i)
    heapM (Heap.store s.p i v))

/-- `fill(vec)` when `vec` is a named vector of the same type: element loop `p[i] = inp[i]`, BaseStore.hpp 158-159 and
175-178.  (`TInp` is then a reference type, for which `IsVec` is false, Concepts.hpp 119-123, so that the branch 165-167 with
`std::copy` is not chosen.) -/
def fillVec (other : Store) : SM V Unit := fillLoop other.sz (fun h i => other.get h i)

/-- `~BaseStore()`: BaseStore.hpp 236-246. -/
def dtor : SM V Unit := do
  let s ← self
  if s.p ≠ none then
    if s.allocated then
      heapM (Heap.delete s.p)
      upd (fun s => { s with sz := 0, capacity := 0, p := none, allocated := false })

/-- `moveit(other)`: BaseStore.hpp 295-307.  Size and capacity coming from `other` pass through an
`int`.  Returns the new `*this` and the new `other`. -/
def moveit (this other : Store) : Store × Store :=
  ({ this with p := other.p, sz := wrap64 (wrapI32 other.sz),
               capacity := wrap64 (wrapI32 other.capacity), allocated := true },
   { other with p := this.p, sz := this.sz, capacity := this.capacity })

/-- `back()`: BaseStore.hpp 310, used as a value. -/
def back (h : Heap V) (s : Store) : Out V := h.load s.p s.sz

/-- `push_back(input)`: BaseStore.hpp 331-348.  `szOld` is an `int`; using it as an index or in
`szOld + 1` converts it back to `size_t` (the sum is computed in `int`).  The branch 338-340 is
unreachable (`size_t` is never negative). -/
def pushBack (zero : V) (v : V) : SM V Unit := do
  let s ← self
  if s.sz = s.capacity then
    let szOld := wrapI32 s.sz
    realloc zero (if s.sz = 0 then 1 else (s.sz * 2) % two64)
    upd (fun s => { s with capacity := s.sz })
    let s ← self
    heapM (Heap.store s.p (wrap64 szOld) v)
    let n ← M.lift (ckI32 (szOld + 1))
    upd (fun s => { s with sz := wrap64 n })
  else if s.sz < s.capacity then
    heapM (Heap.store s.p s.sz v)
    upd (fun s => { s with sz := s.sz + 1 })

/-- `begin()`/`end()` iteration: BaseStore.hpp 308-309; the values visited by a range-for loop. -/
def iterate (h : Heap V) (s : Store) : Out (List V) :=
  Out.all ((List.range s.sz).map (fun i => h.load s.p i))

end Store
end ETR
