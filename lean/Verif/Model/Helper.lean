import Verif.Model.Alloc
import Verif.Model.Interp

/-!
# `isNA`, `isInf`, `length`, `dim`, conversion to a scalar, iteration over a subset

`/repo/include/etr_bits/Helper.hpp` and parts of `Vector/VectorClass.hpp`.  The result is built like in
`Model/Alloc.lean`.

Simplification: the result is returned without a copy (C++ elides it or moves it).
-/

namespace ETR

/-- `std::isnan`: Helper.hpp 13-17, 26-30 (integers and logicals are converted to `double`). -/
def Scal.isNA : Scal → Bool
  | .d .nan => true
  | _ => false

/-- `std::isinf`: Helper.hpp 19-23, 32-36. -/
def Scal.isInf : Scal → Bool
  | .d (.inf _) => true
  | _ => false

/-- The common form of `isNA` and `isInf` of a vector: Helper.hpp 38-60, 63-83. -/
def flagVec (flag : Scal → Bool) (env : Env Scal) (e : Expr Scal) : AM Bool Unit := do
  retM (Store.ctorSize false (e.size env))
  retM (do
    let s ← Store.self
    M.forN s.sz (fun i => do
      let v ← M.lift (e.el env i)
      Store.set i (flag v)))

/-- `isNA(inp)`: Helper.hpp 38-60. -/
def isNAVec : Env Scal → Expr Scal → AM Bool Unit := flagVec Scal.isNA

/-- `isInf(inp)`: Helper.hpp 63-83. -/
def isInfVec : Env Scal → Expr Scal → AM Bool Unit := flagVec Scal.isInf

section
variable {V : Type}

/-- `length(inp)`: `std::size_t` for numbers, `int` for vectors. Helper.hpp 85-101. -/
def lengthOf (env : Env V) : Expr V → Int
  | .scal _ => 1
  | e => wrapI32 (e.size env)

/-- `dim(inp)`: Helper.hpp 103-127. -/
def dim (env : Env V) (e : Expr V) : AM Int Unit := do
  M.ass (¬ e.isScal = true ∧ e.im env = true) "dim can only be called with matrix"
  retM (Store.ctorSize 0 2)
  let r ← M.lift (e.nr env)
  retM (Store.set 0 (wrapI32 r))
  let c ← M.lift (e.nc env)
  retM (Store.set 1 (wrapI32 c))

def ifMsg : String := "Error in if: the condition has length > 1"

/-- `operator RetType()`, the conversion of a vector to its element type; `bool` says whether the
element type is `bool`.  Vector/VectorClass.hpp 43-54. -/
def toScalar (bool : Bool) (env : Env V) (e : Expr V) : L V := do
  if bool then warn (decide (e.size env = 1)) ifMsg
  M.lift (e.el env 0)

/-- The values visited by a range-for loop over a vector that owns or borrows its memory: Vector/VectorClass.hpp 61-74
(the branch that is not for subsets), Core/BaseStore.hpp 308-309, Core/Borrow.hpp 155-156. -/
def iterVec (h : Heap V) (s : Store) : Out (List V) := s.iterate h

/-- The values visited by a range-for loop over a subset of `s` with the 0-based indices `ind`: the loop runs through the memory
of `s` (`d.p->p`), for as many elements as there are indices.  Vector/VectorClass.hpp 61-74. -/
def iterSubset (h : Heap V) (s : Store) (ind : List Nat) : Out (List V) :=
  Out.all ((List.range ind.length).map (fun i => h.load s.p i))

end
end ETR
