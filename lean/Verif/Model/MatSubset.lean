import Verif.Model.Subset

/-!
# Index computation of matrix subsetting

`/repo/include/etr_bits/Subsetting/MatrixSubsetting.hpp` 38-596.  The C++ function selects one of its
branches by the types of the two index arguments; here this is a match on two `Index` values, one
definition per kind of the row index.

Simplifications: as in `Model/Subset`; products of a number of rows and a number of columns that are
only used as the size of the index store are not reduced modulo `2^64`.
-/

namespace ETR

/-- What `calcIndMatrix` sees of the object: `size()`, `nr()`, `nc()` and the matrix parameters `d.mp`. -/
structure MatDim where
  n : Nat
  nr : Nat
  nc : Nat
  dmp : MP

/-- Result of `calcIndMatrix`: the stores `ind` and `mp`. -/
abbrev MatInd := List Nat × MP

/-- The matrix parameters of a new `Subset`, and `mp.setMatrix(false, 0, 0)`. -/
def noMat : MP := ⟨false, 0, 0⟩

/-- `convertSize(double)`: `/repo/include/etr_bits/Allocation/AllocationUtils.hpp` 26-31. -/
def convertSizeD (x : F64) : L Nat := do
  let b ← M.lift (isDoubleInt x)
  warn b fracMsg
  M.ass (F64.le (.fin 1) x = true) "invalid times argument"
  M.lift x.toSizeT

/-- `convertSize(std::size_t)`: AllocationUtils.hpp 23-25. -/
def convertSizeN (n : Nat) : L Nat := do
  M.ass (1 ≤ n) "invalid times argument"
  return n

/-- `(a - 1) * nr + i` for an `int` `a`: the product is computed as `std::size_t`.
MatrixSubsetting.hpp 61, 132, 159, 199, 231, 271, 379, 388, 394. -/
def colI (nr : Nat) (a : Int) (i : Nat) : Out Nat := do
  let k ← ckI32 (a - 1)
  return wrap64 (k * nr + i)

/-- `(a - 1) * nr + i` for an element `a` of an integer vector (a `double` if the vector is an operation
or a subset, see `Model/Subset`): MatrixSubsetting.hpp 132, 200, 272. -/
def colS (nr : Nat) (a : Scal) (i : Nat) : Out Nat :=
  match a with
  | .i k => colI nr k i
  | .b v => colI nr (if v then 1 else 0) i
  | .d x => F64.toSizeT (F64.add (F64.mul (F64.sub x (.fin 1)) (F64.ofNat nr)) (F64.ofNat i))

/-- `(d2i(x) - 1) * nr + i`: MatrixSubsetting.hpp 118, 206, 278, 516. -/
def colD (nr : Nat) (x : F64) (i : Nat) : Out Nat := do
  let k ← x.toI32
  colI nr k i

/-- `(static_cast<std::size_t>(x) - 1) * nr + i`: MatrixSubsetting.hpp 72, 164. -/
def colT (nr : Nat) (x : F64) (i : Nat) : Out Nat := do
  let k ← x.toSizeT
  return wrap64 ((pred64 k : Int) * nr + i)

/-- `base + (a - 1)` for an `int` `a`. -/
def rowI (base : Nat) (a : Int) : Out Nat := do
  let k ← ckI32 (a - 1)
  return wrap64 (base + k)

/-- `base + (a - 1)` for an element of an integer vector: MatrixSubsetting.hpp 331, 388, 434. -/
def rowS (base : Nat) (a : Scal) : Out Nat :=
  match a with
  | .i k => rowI base k
  | .b v => rowI base (if v then 1 else 0)
  | .d x => F64.toSizeT (F64.add (F64.ofNat base) (F64.sub x (.fin 1)))

/-- `base + (d2i(x) - 1)`: MatrixSubsetting.hpp 345, 394, 559-560. -/
def rowD (base : Nat) (x : F64) : Out Nat := do
  let k ← x.toI32
  rowI base k

/-- `base + d2i(x) - 1`: MatrixSubsetting.hpp 545. -/
def rowD' (base : Nat) (x : F64) : Out Nat := do
  let k ← x.toI32
  return wrap64 (base + k - 1)

/-- `d2i(a)` for an element of an integer or double vector: Core/Utils.hpp 37. -/
def d2iS : Scal → F64
  | .i k => F64.ofInt k
  | .b v => F64.ofInt (if v then 1 else 0)
  | .d x => x

/-- `((*idxR) - 1) * vec.nr() + (d2i(x) - 1)` for a double column: MatrixSubsetting.hpp 440. The whole
expression is computed with doubles. -/
def dblDbl (nr : Nat) (c : F64) (x : F64) : Out Nat := do
  let k ← x.toI32
  let k' ← ckI32 (k - 1)
  F64.toSizeT (F64.add (F64.mul (F64.sub c (.fin 1)) (F64.ofNat nr)) (F64.ofInt k'))

/-- The loop that collects the positions of a mask without recycling, `counter2` counts the completed
rounds of `n`: MatrixSubsetting.hpp 92-99, 303-310, 462-470, 479-487, 505-513, 532-540. -/
def maskLoop (n : Nat) : List Bool → Nat → Nat → Out (List Nat)
  | [], _, _ => .ok []
  | b :: t, i, c2 => do
    let m ← modz i n
    let c2' := if m = 0 ∧ i ≠ 0 then c2 + 1 else c2
    let r ← maskLoop n t (i + 1) c2'
    return if b then (i - c2' * n) :: r else r

/-- Count, allocate the store of positions (which must not be empty), collect:
MatrixSubsetting.hpp 84-99, 295-310, 455-470 and so on. -/
def maskRaw (n : Nat) (l : List Bool) : L (List Nat) := do
  M.ass (l.count true > 0) "Size has to be larger than 0"
  M.lift (maskLoop n l 0 0)

/-- The same with recycling over `n` positions; MatrixSubsetting.hpp 174-187, 246-259, 362-378,
408-424. -/
def maskRec (n : Nat) (l : List Bool) : L (List Nat) := do
  let ps ← M.lift (maskPos n l)
  M.ass (ps.length > 0) "Size has to be larger than 0"
  return ps

/-- `static_cast<std::size_t>(k)` followed by `--`: MatrixSubsetting.hpp 156-157. -/
def rowOfInt (k : Int) : Nat := pred64 (wrap64 k)

def ffMsg : String := "Variable[FALSE, FALSE] subsetting is not supported. Sorry"

/-- `for j in cols, for i in rows: ind[counter++] = f j i`. -/
def grid {α β : Type} (cols : List α) (rows : List β) (f : α → β → Out Nat) : L (List Nat) := do
  resizeInd (rows.length * cols.length)
  M.lift (Out.all (cols.flatMap (fun j => rows.map (fun i => f j i))))

/-- Row index `bool`: MatrixSubsetting.hpp 43-142. -/
def calcLgl (d : MatDim) (b : Bool) : Index → L MatInd
  | .lgl b' =>
    if b && b' then do
      resizeInd d.n
      return (List.range d.n, d.dmp)
    else M.lift (.thr ffMsg)
  | .int k => do
    M.ass (b = true) ffMsg
    let ind ← grid [k] (List.range d.nr) (fun k j => colI d.nr k j)
    return (ind, noMat)
  | .dbl x => do
    M.ass (b = true) ffMsg
    let ind ← grid [x] (List.range d.nr) (fun x j => colT d.nr x j)
    return (ind, noMat)
  | .vlgl l => do
    M.ass (b = true) ffMsg
    M.ass (l.count true > 0) "subset has to have at least one element"
    let ps ← maskRaw d.nc l
    let ind ← grid ps (List.range d.nr) (fun j i => .ok (wrap64 ((j : Int) * d.nr + i)))
    return (ind, ⟨true, d.nr, ps.length⟩)
  | .vdbl l => do
    M.ass (b = true) ffMsg
    let ind ← grid l (List.range d.nr) (fun x i => colD d.nr x i)
    return (ind, ⟨true, d.nr, l.length⟩)
  | .vint l => do
    M.ass (b = true) ffMsg
    let ind ← grid l (List.range d.nr) (fun x i => colS d.nr x i)
    return (ind, ⟨true, d.nr, l.length⟩)

/-- Row index `int`: MatrixSubsetting.hpp 143-214. -/
def calcInt (d : MatDim) (k : Int) : Index → L MatInd
  | .lgl b => do
    M.ass (b = true) ffMsg
    let ind ← grid (List.range d.nc) [rowOfInt k] (fun j i => .ok (wrap64 ((j : Int) * d.nr + i)))
    return (ind, noMat)
  | .int k' => do
    let ind ← grid [k'] [rowOfInt k] (fun k' i => colI d.nr k' i)
    return (ind, noMat)
  | .dbl x => do
    let ind ← grid [x] [rowOfInt k] (fun x i => colT d.nr x i)
    return (ind, noMat)
  | .vlgl l => do
    M.ass (l.length ≤ d.nc) "Error in matrix: logical subscript too long"
    let ps ← maskRec d.nc l
    let ind ← grid ps [rowOfInt k] (fun j i => .ok (wrap64 ((j : Int) * d.nr + i)))
    return (ind, noMat)
  | .vint l => do
    let ind ← grid l [rowOfInt k] (fun x i => colS d.nr x i)
    return (ind, noMat)
  | .vdbl l => do
    let ind ← grid l [rowOfInt k] (fun x i => colD d.nr x i)
    return (ind, noMat)

/-- Row index `double`: MatrixSubsetting.hpp 215-286.  Line 236 computes
`c - 1 * nr + (r - 1)`. -/
def calcDbl (d : MatDim) (x : F64) (c : Index) : L MatInd := do
  let r ← convertSizeD x
  match c with
  | .lgl b => do
    M.ass (b = true) ffMsg
    resizeInd d.nc
    M.ass (1 ≤ d.nr) "invalid times argument"
    let ind ← grid (List.range d.nc) [pred64 r] (fun j i => .ok (wrap64 ((j : Int) * d.nr + i)))
    return (ind, noMat)
  | .int k' => do
    resizeInd 1
    let m ← convertSizeN d.nr
    let ind ← grid [k'] [pred64 r] (fun k' i => colI m k' i)
    return (ind, noMat)
  | .dbl y => do
    resizeInd 1
    let c ← convertSizeD y
    return ([wrap64 ((c : Int) - d.nr + pred64 r)], noMat)
  | .vlgl l => do
    M.ass (l.length ≤ d.nc) "Error in matrix: logical subscript too long"
    let ps ← maskRec d.nc l
    let ind ← grid ps [pred64 r] (fun j i => .ok (wrap64 ((j : Int) * d.nr + i)))
    return (ind, noMat)
  | .vint l => do
    let ind ← grid l [pred64 r] (fun x i => colS d.nr x i)
    return (ind, noMat)
  | .vdbl l => do
    let ind ← grid l [pred64 r] (fun x i => colD d.nr x i)
    return (ind, noMat)

/-- Row index a logical vector: MatrixSubsetting.hpp 290-321, 359-384, 405-430, 452-524. -/
def calcVlgl (d : MatDim) (l : List Bool) : Index → L MatInd
  | .lgl b => do
    M.ass (b = true) ffMsg
    let ps ← maskRaw d.nr l
    let ind ← grid (List.range d.nc) ps (fun j i => .ok (wrap64 ((j : Int) * d.nr + i)))
    return (ind, ⟨true, ps.length, d.nc⟩)
  | .int k => do
    let ps ← M.lift (maskPos d.nr l)
    M.ass (l.length ≤ d.nr) "Error in matrix: logical subscript too long"
    M.ass (ps.length > 0) "Size has to be larger than 0"
    let ind ← grid [k] ps (fun k i => colI d.nr k i)
    return (ind, noMat)
  | .dbl x => do
    let ps ← M.lift (maskPos d.nr l)
    M.ass (l.length ≤ d.nr) "Error in matrix: logical subscript too long"
    M.ass (ps.length > 0) "Size has to be larger than 0"
    resizeInd ps.length
    let ind ← ps.mapM (fun (i : Nat) => do
      let c ← convertSizeD x
      return wrap64 ((pred64 c : Int) * d.nr + i))
    return (ind, noMat)
  | .vlgl l' => do
    let rs ← maskRaw d.nr l
    let cs ← maskRaw d.nc l'
    let ind ← grid cs rs (fun j i => .ok (wrap64 ((j : Int) * d.nr + i)))
    return (ind, ⟨true, rs.length, cs.length⟩)
  | .vint l' => do
    let rs ← maskRaw d.nr l
    let ind ← grid l' rs (fun x i => colD d.nr (d2iS x) i)
    return (ind, noMat)
  | .vdbl l' => do
    let rs ← maskRaw d.nr l
    let ind ← grid l' rs (fun x i => colD d.nr x i)
    return (ind, noMat)

/-- `(d2i(c) - 1) * nr + (d2i(r) - 1)`: MatrixSubsetting.hpp 559-560. -/
def colRow (nr : Nat) (c r : F64) : Out Nat := do
  let k ← c.toI32
  let k1 ← ckI32 (k - 1)
  rowD (wrap64 (k1 * nr)) r

/-- Row index a vector of integers: MatrixSubsetting.hpp 322-336, 385-390, 431-436, 525-565. -/
def calcVint (d : MatDim) (l : List Scal) : Index → L MatInd
  | .lgl b => do
    M.ass (b = true) ffMsg
    let ind ← grid (List.range d.nc) l (fun i x => rowS (wrap64 ((i : Int) * d.nr)) x)
    return (ind, ⟨true, l.length, d.nc⟩)
  | .int k => do
    let ind ← grid [k] l (fun k x => do
      let k1 ← ckI32 (k - 1)
      rowS (wrap64 (k1 * d.nr)) x)
    return (ind, noMat)
  | .dbl y => do
    resizeInd l.length
    let ind ← l.mapM (fun x => do
      let c ← convertSizeD y
      M.lift (rowS (wrap64 ((pred64 c : Int) * d.nr)) x))
    return (ind, noMat)
  | .vlgl l' => do
    let cs ← maskRaw d.nc l'
    let ind ← grid cs l (fun j x => rowD' (wrap64 ((j : Int) * d.nr)) (d2iS x))
    return (ind, ⟨true, l.length, cs.length⟩)
  | .vint l' => do
    let ind ← grid l' l (fun c r => colRow d.nr (d2iS c) (d2iS r))
    return (ind, ⟨true, l.length, l'.length⟩)
  | .vdbl l' => do
    let ind ← grid l' l (fun c r => colRow d.nr c (d2iS r))
    return (ind, ⟨true, l.length, l'.length⟩)

/-- Row index a vector of doubles: MatrixSubsetting.hpp 337-350, 391-396, 437-442, 525-565. -/
def calcVdbl (d : MatDim) (l : List F64) : Index → L MatInd
  | .lgl b => do
    M.ass (b = true) ffMsg
    let ind ← grid (List.range d.nc) l (fun i x => rowD (wrap64 ((i : Int) * d.nr)) x)
    return (ind, ⟨true, l.length, d.nc⟩)
  | .int k => do
    let ind ← grid [k] l (fun k x => do
      let k1 ← ckI32 (k - 1)
      rowD (wrap64 (k1 * d.nr)) x)
    return (ind, noMat)
  | .dbl y => do
    let ind ← grid [y] l (fun y x => dblDbl d.nr y x)
    return (ind, noMat)
  | .vlgl l' => do
    let cs ← maskRaw d.nc l'
    let ind ← grid cs l (fun j x => rowD' (wrap64 ((j : Int) * d.nr)) x)
    return (ind, ⟨true, l.length, cs.length⟩)
  | .vint l' => do
    let ind ← grid l' l (fun c r => colRow d.nr (d2iS c) r)
    return (ind, ⟨true, l.length, l'.length⟩)
  | .vdbl l' => do
    let ind ← grid l' l (fun c r => colRow d.nr c r)
    return (ind, ⟨true, l.length, l'.length⟩)

/-- `calcIndMatrix` after the test `im()`: MatrixSubsetting.hpp 42-573. -/
def calcIndMatrix (d : MatDim) : Index → Index → L MatInd
  | .lgl b, c => calcLgl d b c
  | .int k, c => calcInt d k c
  | .dbl x, c => calcDbl d x c
  | .vlgl l, c => calcVlgl d l c
  | .vint l, c => calcVint d l c
  | .vdbl l, c => calcVdbl d l c

namespace Expr
variable {V : Type}

/-- The member `d.mp`, which only containers keep up to date: `/repo/include/etr_bits/UnaryCalculations.hpp` 15,
`BinaryCalculations.hpp` 29. -/
def dmp (env : Env V) : Expr V → MP
  | leaf x => env.mp x
  | rvec _ mp => mp
  | sub _ _ mp => mp
  | _ => noMat

end Expr

/-- The expression `m(r, c)`: MatrixSubsetting.hpp 38-41 and 575-596.  `nr()` and `nc()` do not throw if `im()` is true,
so it does not matter that they are called once. -/
def subsetM {V : Type} (env : Env V) (e : Expr V) (r c : Index) : L (Expr V) := do
  M.ass (e.im env = true) "incorrect number of dimensions"
  let nr ← M.lift (e.nr env)
  let nc ← M.lift (e.nc env)
  let im ← calcIndMatrix ⟨e.size env, nr, nc, e.dmp env⟩ r c
  return .sub e im.1 im.2

end ETR
