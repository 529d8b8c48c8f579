import Verif.Model.Machine
import Verif.Model.Subset

/-!
# The function `at`

`/repo/include/etr_bits/Subsetting/at.hpp` 17-134.  `at(inp, i)` on a named vector returns a reference to a cell
of the memory block; reading and writing through it are `atGet` and `atSet`.

Simplification: integral index arguments are `int`s.
-/

namespace ETR

/-- Index arguments of `at`. -/
inductive AtIdx
  | int (k : Int)
  | dbl (x : F64)
  deriving DecidableEq

/-- The index as an `int` (`d2i` for doubles, Core/Utils.hpp 37). -/
def AtIdx.toInt : AtIdx → Out Int
  | .int k => .ok k
  | .dbl x => x.toI32

namespace Mach
variable {V : Type}

/-- The checks for a named vector: at.hpp 30-51. -/
def atPos (st : Store) (k : AtIdx) : Out Nat := do
  let k ← k.toInt
  let i ← ckI32 (k - 1)
  Out.ass (st.allocated = true) "No memory was allocated"
  Out.ass (0 ≤ i) "Error: out of boundaries --> value below 1"
  Out.ass (i < st.sz) "Error: out of boundaries --> value beyond size of vector"
  return i.toNat

/-- The checks for a named matrix: at.hpp 53-92.  The position is computed as `std::size_t`, so the test
`>= 0` never fails. -/
def atPosM (st : Store) (r c : AtIdx) : Out Nat := do
  Out.ass (st.mp.im = true) "Input is not a matrix!"
  Out.ass (st.allocated = true) "No memory was allocated"
  let r ← r.toInt
  let c ← c.toInt
  let r ← ckI32 (r - 1)
  let c ← ckI32 (c - 1)
  let i := wrap64 (c * st.mp.nr + r)
  Out.ass (i < st.sz) "Error: out of boundaries --> value beyond size of vector"
  return i

/-- `at(x, k)` used as a value, `x` a named vector: at.hpp 38, 50. -/
def atGet (s : Mach V) (x : Nat) (k : AtIdx) : Out V := do
  let i ← atPos (s.st (x, false)) k
  s.heap.load (s.st (x, false)).p i

/-- `at(x, k) = v`. -/
def atSet (x : Nat) (k : AtIdx) (v : V) : M (Mach V) Unit := do
  let s ← M.get
  let i ← M.lift (atPos (s.st (x, false)) k)
  onSlot (x, false) (Store.heapM (Heap.store (s.st (x, false)).p i v))

/-- `at(x, r, c)` used as a value, `x` a named matrix. -/
def atGetM (s : Mach V) (x : Nat) (r c : AtIdx) : Out V := do
  let i ← atPosM (s.st (x, false)) r c
  s.heap.load (s.st (x, false)).p i

/-- `at(x, r, c) = v`. -/
def atSetM (x : Nat) (r c : AtIdx) (v : V) : M (Mach V) Unit := do
  let s ← M.get
  let i ← M.lift (atPosM (s.st (x, false)) r c)
  onSlot (x, false) (Store.heapM (Heap.store (s.st (x, false)).p i v))

end Mach

/-- `at(e, k)` for a temporary, a subset or an operation: at.hpp 17-28.  The index is not decremented. -/
def atR {V : Type} (env : Env V) (e : Expr V) (k : AtIdx) : Out V := do
  let i ← k.toInt
  e.el env (wrap64 i)

/-- `at(e, r, c)` for a temporary, a subset or an operation: at.hpp 94-134. -/
def atRM {V : Type} (env : Env V) (e : Expr V) (r c : AtIdx) : Out V := do
  Out.ass (e.im env = true) "Input is not a matrix!"
  let r ← r.toInt
  let c ← c.toInt
  let r ← ckI32 (r - 1)
  let c ← ckI32 (c - 1)
  let nr ← e.nr env
  let i := wrap64 (c * nr + r)
  Out.ass (i < e.size env) "Error: out of boundaries --> value beyond size of vector"
  e.el env i

end ETR
