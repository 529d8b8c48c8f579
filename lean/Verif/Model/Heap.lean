import Verif.Base.F64

/-!
# Memory model

Semantic domain for `new[]`, `delete[]` and pointer access of the C++ code
(`/repo/include/etr_bits/Core/BaseStore.hpp`, `Core/Borrow.hpp`).  A block is either obtained by
`new[]` (`newed`) or belongs to the caller (`newed = false`, e.g. memory handed to `Borrow`).
Simplifications: `new[]` throws `std::bad_alloc` when the next entry of the fault schedule says so
or when at least `2^60` elements are requested; fresh cells are indeterminate.
-/

namespace ETR

/-- A memory block. -/
structure Block (V : Type) where
  len : Nat
  cell : Nat → Option V
  live : Bool
  newed : Bool

/-- The heap: blocks `0 .. next-1` have been allocated, `sched` is the fault schedule: the `k`-th
entry says whether the `k`-th following allocation fails (an exhausted schedule never fails). -/
structure Heap (V : Type) where
  blk : Nat → Block V
  next : Nat
  sched : List Bool

/-- A pointer to the first element of a block, or null. -/
abbrev Ptr := Option Nat

namespace Heap
variable {V : Type}

def emptyBlock : Block V := ⟨0, fun _ => none, false, false⟩

/-- Empty heap. -/
def empty (sched : List Bool := []) : Heap V := ⟨fun _ => emptyBlock, 0, sched⟩

def setBlk (h : Heap V) (b : Nat) (x : Block V) : Heap V :=
  { h with blk := fun c => if c = b then x else h.blk c }

/-- Memory of the caller, initialised with the list. -/
def foreign (h : Heap V) (l : List V) : Heap V × Nat :=
  ({ h.setBlk h.next ⟨l.length, fun i => l[i]?, true, false⟩ with next := h.next + 1 }, h.next)

/-- `new T[n]` -/
def new (n : Nat) : M (Heap V) Nat := fun h =>
  if 2 ^ 60 ≤ n then (.thr "std::bad_alloc", h)
  else match h.sched with
    | true :: t => (.thr "std::bad_alloc", { h with sched := t })
    | l => (.ok h.next, { h.setBlk h.next ⟨n, fun _ => none, true, true⟩ with
                          next := h.next + 1, sched := l.tail })

/-- `delete[] p` (a null pointer is ignored). -/
def delete (p : Ptr) : M (Heap V) Unit := fun h =>
  match p with
  | none => (.ok (), h)
  | some b =>
    if ¬ (h.blk b).newed then (.ub .badFree, h)
    else if ¬ (h.blk b).live then (.ub .badFree, h)
    else (.ok (), h.setBlk b { h.blk b with live := false })

/-- The memory cell behind `p[i]`, without using its value. -/
def cellAt (h : Heap V) (p : Ptr) (i : Nat) : Out (Option V) :=
  match p with
  | none => .ub .nullDeref
  | some b =>
    if ¬ (h.blk b).live then .ub .useAfterFree
    else if (h.blk b).len ≤ i then .ub .oob
    else .ok ((h.blk b).cell i)

/-- Read `p[i]`; using an indeterminate value is undefined behaviour. -/
def load (h : Heap V) (p : Ptr) (i : Nat) : Out V :=
  match h.cellAt p i with
  | .ok (some v) => .ok v
  | .ok none => .ub .uninit
  | .thr e => .thr e
  | .ub k => .ub k

/-- Raw write of a cell (used for element copies by `std::copy`, which may copy indeterminate
values of trivial type). -/
def putCell (p : Ptr) (i : Nat) (v : Option V) : M (Heap V) Unit := fun h =>
  match p with
  | none => (.ub .nullDeref, h)
  | some b =>
    if ¬ (h.blk b).live then (.ub .useAfterFree, h)
    else if (h.blk b).len ≤ i then (.ub .oob, h)
    else (.ok (), h.setBlk b { h.blk b with
            cell := fun j => if j = i then v else (h.blk b).cell j })

/-- `p[i] = v` -/
def store (p : Ptr) (i : Nat) (v : V) : M (Heap V) Unit := putCell p i (some v)

/-- `std::fill(p, p + n, v)` -/
def fillRange (p : Ptr) (n : Nat) (v : V) : M (Heap V) Unit := M.forN n (fun i => store p i v)

/-- `std::copy(src, src + n, dst)` -/
def copyRange (src : Ptr) (n : Nat) (dst : Ptr) : M (Heap V) Unit :=
  M.forN n (fun i => do
    let c ← M.reads (fun h => h.cellAt src i)
    putCell dst i c)

end Heap
end ETR
