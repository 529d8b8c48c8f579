import Verif.Model.Utils

/-!
# Index computation of vector subsetting

`/repo/include/etr_bits/Subsetting/VectorSubsetting.hpp` 15-89.  `Index` is the index argument: the C++
code distinguishes its type at compile time.  For vectors the elements are given as `(*idx)[i]`
delivers them: for a named or temporary integer vector these are `int`s, for an integer-typed
operation or subset they are `double`s (`RetType` of operations and subsets is `double`,
Core/Traits.hpp 25-30, Core/SubsetClass.hpp 7, and `Vec::operator[]` returns `RetType`,
Vector/VectorClass.hpp 40-41).

Simplifications: the list of the index elements is computed before the call; the memory of `Indices`
(a `BaseStore<std::size_t>`) is not tracked, only that `resize(0)` throws.
-/

namespace ETR

/-- The index argument of a subset call. -/
inductive Index
  | lgl (b : Bool)
  | int (n : Int)
  | dbl (x : F64)
  | vlgl (l : List Bool)
  | vint (l : List Scal)
  | vdbl (l : List F64)
  deriving DecidableEq

/-- `ind.resize(n)` for a fresh `Indices`: Core/BaseStore.hpp 259-260. -/
def resizeInd (n : Nat) : L Unit := M.ass (n ≥ 1) "Size has to be larger than 0"

/-- `std::size_t sizeTIdx = (*idx)[i] - 1;`: VectorSubsetting.hpp 56. -/
def intPos : Scal → Out Nat
  | .d x => F64.toSizeT (F64.sub x (.fin 1))
  | .i n => do
    let k ← ckI32 (n - 1)
    return wrap64 k
  | .b v => do
    let k ← ckI32 ((if v then 1 else 0) - 1)
    return wrap64 k

/-- `static_cast<std::size_t>((*idx)[i]) - 1`: VectorSubsetting.hpp 62. -/
def dblPos (x : F64) : Out Nat := do
  let k ← x.toSizeT
  return pred64 k

/-- The positions selected by a mask, recycled over `n` elements: VectorSubsetting.hpp 40-52. -/
def maskPos (n : Nat) (l : List Bool) : Out (List Nat) := do
  let bs ← Out.all ((List.range n).map (fun i => do
    let k ← modz i l.length
    getL l k))
  return (List.range n).filter (fun i => (bs[i]?).getD false)

/-- `calcIndVector(vec, ind, idx)` for a `vec` of size `n`: VectorSubsetting.hpp 15-69. -/
def calcIndVector (n : Nat) : Index → L (List Nat)
  | .lgl b =>
    if b then do
      resizeInd n
      return List.range n
    else M.lift (.thr "Variable[FALSE] subsetting is not supported. Sorry")
  | .int k => do
    resizeInd 1
    let j ← M.lift (intPos (.i k))
    M.ass (0 ≤ j) "invalid index argument"
    return [j]
  | .dbl x => do
    resizeInd 1
    let j ← convertSizeSubsettingD x
    return [pred64 j]
  | .vlgl l => do
    let ps ← M.lift (maskPos n l)
    resizeInd ps.length
    return ps
  | .vint l => do
    resizeInd l.length
    M.lift (Out.all (l.map intPos))
  | .vdbl l => do
    resizeInd l.length
    M.lift (Out.all (l.map dblPos))

/-- The expression `v(idx)` with computed indices; a vector subset is never a matrix
(`MatrixParameter` of a new `Subset`): VectorSubsetting.hpp 71-89. -/
def subset {V : Type} (env : Env V) (e : Expr V) (idx : Index) : L (Expr V) := do
  let ind ← calcIndVector (e.size env) idx
  return .sub e ind {}

/-- `calcIndVector(vec, ind, idx)` for an index whose type is neither `bool`, `int`, `double` nor a vector (`std::size_t`, `long`,
`unsigned`, `float`, ...): no branch applies and `ind` stays the empty `Indices` it was constructed as: VectorSubsetting.hpp 16-69. -/
def calcIndOther (_n : Nat) (_k : ℚ) : L (List Nat) := pure []

/-- The expression `v(idx)` for such an index: VectorSubsetting.hpp 71-89. -/
def subsetOther {V : Type} (env : Env V) (e : Expr V) (k : ℚ) : L (Expr V) := do
  let ind ← calcIndOther (e.size env) k
  return .sub e ind {}

end ETR
