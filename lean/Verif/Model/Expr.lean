import Verif.Model.Store

/-!
# Expression trees (`UnaryOperation`, `BinaryOperation`, `Subset`)

`/repo/include/etr_bits/UnaryCalculations.hpp` 9-60, `BinaryCalculations.hpp` 19-120,
`Core/SubsetClass.hpp` 7-138.  Element functions are arbitrary partial functions on the element type
`V`, so that the model covers all operators and all element types (for mixed element types take
a sum type for `V`).

Simplifications: a temporary vector (`RVec`) inside an expression is represented by its elements;
it lives until the end of the full expression.  The order in which the two operands of a binary
operation are evaluated is unspecified in C++; the model takes the left one first, which matters
only for the choice of the error when both fail.
-/

namespace ETR

/-- What an expression can see of the named vectors. -/
structure Env (V : Type) where
  size : Nat → Nat
  get : Nat → Nat → Out V
  mp : Nat → MP

/-- Expression trees.  `leaf x` is the named vector `x`, `rvec l mp` a temporary vector, `scal v` an
arithmetic value, `sub e ind mp` a subset with computed 0-based indices. -/
inductive Expr (V : Type) where
  | leaf (x : Nat)
  | rvec (l : List V) (mp : MP)
  | scal (v : V)
  | un (f : V → Out V) (e : Expr V)
  | bin (f : V → V → Out V) (l r : Expr V)
  | sub (e : Expr V) (ind : List Nat) (mp : MP)

/-- `i % n` on `size_t`: division by zero is undefined. -/
def modz (i n : Nat) : Out Nat := if n = 0 then .ub .modZero else .ok (i % n)

/-- Position used for an operand: an arithmetic operand has no index
(UnaryCalculations.hpp 46-50, BinaryCalculations.hpp 98-106). -/
def posOf (scal : Bool) (n i : Nat) : Out Nat := if scal then .ok 0 else modz i n

/-- Element of a plain list-like container with a checked `operator[]`
(`/repo/include/etr_bits/Core/BaseStore.hpp` 281-286). -/
def getL {α : Type} (l : List α) (i : Nat) : Out α :=
  match l[i]? with
  | some v => .ok v
  | none => .thr "Error: out of boundaries --> value beyond size of vector"

namespace Expr
variable {V : Type}

/-- `std::is_arithmetic_v<L>` for an operand type. -/
def isScal : Expr V → Bool
  | scal _ => true
  | _ => false

/-- `size()`: UnaryCalculations.hpp 53-60, BinaryCalculations.hpp 108-120, SubsetClass.hpp 16. -/
def size (env : Env V) : Expr V → Nat
  | leaf x => env.size x
  | rvec l _ => l.length
  | scal _ => 1
  | un _ e => size env e
  | bin _ l r =>
    if l.isScal ∧ r.isScal then 1
    else if r.isScal then size env l
    else if l.isScal then size env r
    else if size env l > size env r then size env l else size env r
  | sub _ ind _ => ind.length

/-- `operator[](i)`: UnaryCalculations.hpp 45-52, BinaryCalculations.hpp 97-107, SubsetClass.hpp
67-70 and 130-133.  (A binary operation on two scalars is not a vector; the model gives it the
obvious value.) -/
def el (env : Env V) : Expr V → Nat → Out V
  | leaf x, i => env.get x i
  | rvec l _, i => getL l i
  | scal v, _ => .ok v
  | un f e, i => do
    let k ← posOf e.isScal (e.size env) i
    let v ← el env e k
    f v
  | bin f l r, i => do
    let k ← posOf l.isScal (l.size env) i
    let a ← el env l k
    let k' ← posOf r.isScal (r.size env) i
    let b ← el env r k'
    f a b
  | sub e ind _, i => do
    let k ← modz i (e.size env)
    let j ← getL ind k
    el env e j

/-- `im()`: UnaryCalculations.hpp 16-22 (false unless the operand is arithmetic, in which case
the call does not compile), BinaryCalculations.hpp 32-43, SubsetClass.hpp 17. -/
def im (env : Env V) : Expr V → Bool
  | leaf x => (env.mp x).im
  | rvec _ mp => mp.im
  | scal _ => false
  | un _ _ => false
  | bin _ l r => if l.isScal then im env r else if r.isScal then im env l else im env l || im env r
  | sub _ _ mp => mp.im

/-- `nr()`: UnaryCalculations.hpp 31-37, BinaryCalculations.hpp 67-87, SubsetClass.hpp 19. -/
def nr (env : Env V) : Expr V → Out Nat
  | leaf x => .ok (env.mp x).nr
  | rvec _ mp => .ok mp.nr
  | scal _ => .ok 0
  | un _ e => if e.isScal then .ok 0 else nr env e
  | bin _ l r =>
    if l.isScal then nr env r
    else if r.isScal then nr env l
    else if im env l && im env r then do
      let a ← nr env l
      let b ← nr env r
      return if a > b then a else b
    else if im env r then nr env r
    else if im env l then nr env l
    else .thr "Matrix calculation failed!"
  | sub _ _ mp => .ok mp.nr

/-- `nc()`: UnaryCalculations.hpp 24-30, BinaryCalculations.hpp 44-66, SubsetClass.hpp 18. -/
def nc (env : Env V) : Expr V → Out Nat
  | leaf x => .ok (env.mp x).nc
  | rvec _ mp => .ok mp.nc
  | scal _ => .ok 0
  | un _ e => if e.isScal then .ok 0 else nc env e
  | bin _ l r =>
    if l.isScal then nc env r
    else if r.isScal then nc env l
    else if im env l && im env r then do
      let a ← nc env l
      let b ← nc env r
      return if a > b then a else b
    else if im env r then nc env r
    else if im env l then nc env l
    else .thr "Matrix calculation failed!"
  | sub _ _ mp => .ok mp.nc

end Expr
end ETR
