import Verif.Model.Expr

/-!
# Exchange of vectors with R, Rcpp and Armadillo

`/repo/include/etr_bits/Core/BaseStore.hpp` 55-101 and 188-233, `SEXPConversions.hpp` 38-129, `Vector/AssignmentOperator.hpp`
244-247, `Vector/VectorClass.hpp` 98-191.

Objects of R are outside of the C++ heap and are represented by their contents.  Simplifications: `Rf_length` throws for vectors
with `2^31` or more elements; the allocation functions of R do not run out of memory; `Rf_allocMatrix` throws for negative extents
and for more than `2^31 - 1` elements.
-/

namespace ETR

/-- Types of R objects; `other` stands for everything that is rejected by `Rf_isReal`, `Rf_isInteger` (factors included) and
`Rf_isLogical`. -/
inductive RTy
  | real | integer | logical | other
  deriving DecidableEq, Repr

/-- An R vector or matrix (`dim` is the attribute of length two that `Rf_isMatrix`, `Rf_nrows`, `Rf_ncols` look at). -/
structure RObj (W : Type) where
  ty : RTy
  el : List W
  dim : Option (Nat × Nat)
  deriving DecidableEq, Repr

/-- `Rf_length(s)`. -/
def RObj.length {W : Type} (r : RObj W) : Out Nat :=
  if r.el.length < 2 ^ 31 then .ok r.el.length else .thr "long vectors not supported yet"

section
variable {V W : Type}

/-- `initSEXP(s)`: BaseStore.hpp 188-233, and `operator=(SEXP)` of a vector: Vector/AssignmentOperator.hpp 244-247; also the
constructor `BaseStore(SEXP)`: BaseStore.hpp 55-101, when run on a default object.  `ty` is the R type that belongs to the element
type, `conv` the conversion of an element. -/
def Store.initSEXP (ty : RTy) (conv : W → V) (r : RObj W) : SM V Unit := do
  let s ← Store.self
  if s.allocated then
    M.ass (s.p ≠ none) "try to delete nullptr"
    Store.heapM (Heap.delete s.p)
    Store.upd (fun s => { s with p := none })
  M.ass (r.ty = ty) "R object is not of the right type"
  let n ← M.lift r.length
  Store.upd (fun s => { s with sz := n, capacity := n })
  let b ← Store.heapM (Heap.new n)
  Store.upd (fun s => { s with p := some b })
  match r.dim with
  | some (a, c) => Store.upd (fun s => { s with mp := ⟨true, a, c⟩ })
  | none => pure ()
  M.forN n (fun i => do
    let v ← M.reads (fun _ => match r.el[i]? with
      | some w => .ok (conv w)
      | none => .ub .oob)
    Store.heapM (Heap.store (some b) i v))
  Store.upd (fun s => { s with allocated := true })

/-- A named vector as the only operand. -/
def Store.env (h : Heap V) (s : Store) : Env V := ⟨fun _ => s.sz, fun _ i => s.get h i, fun _ => s.mp⟩

/-- The R object allocated by `cpp2R` before the elements are copied: SEXPConversions.hpp 41-46, 54-59, 67-72, 88-93, 101-106,
114-119; number of elements and dimensions. -/
def cpp2RAlloc (env : Env V) (e : Expr V) : Out (Nat × Option (Nat × Nat)) :=
  if e.im env then do
    let r ← e.nr env
    let c ← e.nc env
    Out.ass (e.size env = (r * c) % two64) "size does not match ncol*nrow"
    let r' := wrapI32 r
    let c' := wrapI32 c
    Out.ass (0 ≤ r' ∧ 0 ≤ c') "negative extents to matrix"
    Out.ass (r' * c' ≤ 2147483647) "allocMatrix: too many elements specified"
    return ((r' * c').toNat, some (r'.toNat, c'.toNat))
  else return (e.size env, none)

/-- `cpp2R(res)` for a vector: SEXPConversions.hpp 38-82 and 84-129.  The counter of the loop is an `int`. -/
def cpp2R (ty : RTy) (back : V → W) (env : Env V) (e : Expr V) : Out (RObj W) := do
  let (n, dim) ← cpp2RAlloc env e
  let l ← Out.all ((List.range (e.size env)).map (fun i =>
    if 2 ^ 31 ≤ i then .ub .intOverflow
    else do
      let v ← e.el env i
      if i < n then .ok (back v) else .ub .oob))
  return ⟨ty, l, dim⟩

/-- The loop of `cpp2R` over the elements, `n` is the length of the R object: SEXPConversions.hpp 47-49, 60-62, 73-75, 94-96,
107-109, 120-122. -/
def cpp2RElems (back : V → W) (env : Env V) (e : Expr V) (n : Nat) : Out (List W) :=
  Out.all ((List.range (e.size env)).map (fun i =>
    if 2 ^ 31 ≤ i then .ub .intOverflow
    else do
      let v ← e.el env i
      if i < n then .ok (back v) else .ub .oob))

/-- `cpp2R(res)` together with the number of objects on the protection stack of R: `PROTECT` of the new object
(SEXPConversions.hpp 43, 45, 56, 58, 69, 71, 90, 92, 103, 105, 116, 118), the loop, `UNPROTECT(1)` (50, 63, 76, 97, 110, 123). -/
def cpp2RProt (ty : RTy) (back : V → W) (env : Env V) (e : Expr V) : M Nat (RObj W) := do
  let (n, dim) ← M.lift (cpp2RAlloc env e)
  M.modify (· + 1)
  let l ← M.lift (cpp2RElems back env e n)
  M.modify (· - 1)
  return ⟨ty, l, dim⟩

/-- A vector (`dim = none`) or matrix of Rcpp or Armadillo. -/
structure Foreign (V : Type) where
  el : List V
  dim : Option (Nat × Nat)

/-- Assignment of an `Rcpp::NumericVector`, `Rcpp::NumericMatrix`, `arma::vec` or `arma::mat`: VectorClass.hpp 100-131; the
constructors 132-159 are the same on a default object. -/
def Store.fromForeign (zero : V) (r : Foreign V) : SM V Unit := do
  Store.resize zero r.el.length
  match r.dim with
  | some (a, c) => Store.upd (fun s => { s with mp := ⟨true, a, c⟩ })
  | none => Store.upd (fun s => { s with mp := ⟨false, 0, 0⟩ })
  M.forN r.el.length (fun i => do
    let v ← M.lift (match r.el[i]? with
      | some w => .ok w
      | none => .ub .oob)
    Store.set i v)

/-- `operator Rcpp::NumericVector()` and `operator arma::vec()`: VectorClass.hpp 161-167, 176-182. -/
def Store.toVector (h : Heap V) (s : Store) : Out (Foreign V) := do
  let l ← Out.all ((List.range s.sz).map (fun i => s.get h i))
  return ⟨l, none⟩

/-- `operator Rcpp::NumericMatrix()` and `operator arma::mat()`: VectorClass.hpp 168-175, 183-190.  The result has `nr * nc`
elements, whatever the size of the vector is. -/
def Store.toMatrix (h : Heap V) (s : Store) : Out (Foreign V) := do
  Out.ass (s.mp.im = true) "Object cannot be converted to a matrix"
  let l ← Out.all ((List.range (s.mp.nr * s.mp.nc)).map (fun i => s.get h i))
  return ⟨l, some (s.mp.nr, s.mp.nc)⟩

end
end ETR
