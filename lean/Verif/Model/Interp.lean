import Verif.Model.Alloc

/-!
# Interpolation

`/repo/include/etr_bits/Interpolation.hpp`.  The functions are modelled for any arithmetic `Arith T`, so that
they can be read over binary64 (`Arith.f64`) and over the numbers of an ordered field (`Arith.field`).
-/

namespace ETR

/-- The operations on numbers used by the interpolation functions; `pow` is `std::pow` with an integer exponent,
`lit` the value of a literal. -/
structure Arith (T : Type) where
  add : T → T → T
  sub : T → T → T
  mul : T → T → T
  div : T → T → T
  pow : T → Nat → T
  lt : T → T → Bool
  le : T → T → Bool
  lit : Int → T

namespace Arith

/-- binary64; the function `pow` of the C library is a parameter. -/
def f64 (pow : F64 → Nat → F64) : Arith F64 where
  add := F64.add
  sub := F64.sub
  mul := F64.mul
  div := F64.div
  pow := pow
  lt := F64.lt
  le := F64.le
  lit := F64.ofInt

/-- Exact arithmetic. -/
def field (K : Type) [Field K] [LinearOrder K] : Arith K where
  add := (· + ·)
  sub := (· - ·)
  mul := (· * ·)
  div := (· / ·)
  pow := (· ^ ·)
  lt x y := decide (x < y)
  le x y := decide (x ≤ y)
  lit n := n

end Arith

variable {T : Type}

/-- A vector as the interpolation functions see it: `size()`, `operator[]` and `back()`. -/
structure View (T : Type) where
  size : Nat
  el : Nat → Out T
  back : Out T

/-- The view of a vector that owns or borrows its memory: Vector/VectorClass.hpp 40-41, 56 and 86, Core/BaseStore.hpp
281-293, Core/Borrow.hpp 140-152. -/
def Store.view (h : Heap T) (s : Store) : View T := ⟨s.sz, s.get h, s.back h⟩

/-- The eight variables set by the loop of `cmrInternal`. -/
structure Seg (T : Type) where
  t0 : T
  t1 : T
  t2 : T
  t3 : T
  y0 : T
  y1 : T
  y2 : T
  y3 : T

/-- A `std::size_t` assigned to one of the variables `idx`, which are of type `int`, and used as index: Interpolation.hpp
83. -/
def ix (k : Nat) : Nat := wrap64 (wrapI32 k)

/-- The values used in the last round: Interpolation.hpp 101-113. -/
def cmrLast (time par : View T) : Out (Seg T) := do
  let n := time.size
  let t0 ← time.el (ix (n - 2))
  let y0 ← par.el (ix (n - 2))
  let t1 ← time.el (ix (n - 1))
  let y1 ← par.el (ix (n - 1))
  let t2 ← time.el (ix (n - n))
  let y2 ← par.el (ix (n - n))
  let t3 ← time.el (ix (n + 1 - n))
  let y3 ← par.el (ix (n + 1 - n))
  return ⟨t0, t1, t2, t3, y0, y1, y2, y3⟩

/-- The values used for an interval: Interpolation.hpp 115-144.  The branches for `i == timeVec->size() - 1` are not
reached, because that value of `i` is handled in line 100. -/
def cmrSegment (A : Arith T) (time par : View T) (i : Nat) : Out (Seg T) := do
  let n := time.size
  let idx0 := if i = 0 then ix (n - 1) else ix (i - 1)
  let t0 ← time.el idx0
  let y0 ← par.el idx0
  let t1 ← time.el (ix i)
  let y1 ← par.el (ix i)
  let t2 ← time.el (ix (i + 1))
  let y2 ← par.el (ix (i + 1))
  if i = n - 2 then do
    let x ← time.el (ix 0)
    let b ← time.back
    let y3 ← par.el (ix 0)
    return ⟨t0, t1, t2, A.add x b, y0, y1, y2, y3⟩
  else do
    let t3 ← time.el (ix (i + 2))
    let y3 ← par.el (ix (i + 2))
    return ⟨t0, t1, t2, t3, y0, y1, y2, y3⟩

/-- The loop, with `f` rounds left: Interpolation.hpp 99-147. -/
def cmrLoop (A : Arith T) (t : T) (time par : View T) : Nat → Nat → Out (Seg T)
  | 0, _ => .ok ⟨A.lit 0, A.lit 0, A.lit 0, A.lit 0, A.lit 0, A.lit 0, A.lit 0, A.lit 0⟩
  | f + 1, i =>
    if i = time.size - 1 then cmrLast time par
    else do
      let a ← time.el i
      if A.le a t then
        let b ← time.el (i + 1)
        if A.lt t b then cmrSegment A time par i else cmrLoop A t time par f (i + 1)
      else cmrLoop A t time par f (i + 1)

/-- The formula: Interpolation.hpp 148-156. -/
def cmrFormula (A : Arith T) (t : T) (s : Seg T) : T :=
  let x := A.div (A.sub t s.t1) (A.sub s.t2 s.t1)
  let m1 := A.div (A.sub s.y2 s.y0) (A.sub s.t2 s.t0)
  let m2 := A.div (A.sub s.y3 s.y1) (A.sub s.t3 s.t1)
  A.add (A.add (A.add
    (A.mul (A.add (A.sub (A.mul (A.lit 2) (A.pow x 3)) (A.mul (A.lit 3) (A.pow x 2))) (A.lit 1)) s.y1)
    (A.mul (A.mul (A.add (A.sub (A.pow x 3) (A.mul (A.lit 2) (A.pow x 2))) x) (A.sub s.t2 s.t1)) m1))
    (A.mul (A.add (A.mul (A.lit (-2)) (A.pow x 3)) (A.mul (A.lit 3) (A.pow x 2))) s.y2))
    (A.mul (A.mul (A.sub (A.pow x 3) (A.pow x 2)) (A.sub s.t2 s.t1)) m2)

/-- `cmrInternal`: Interpolation.hpp 79-157. -/
def cmrInternal (A : Arith T) (t : T) (time par : View T) : Out T := do
  Out.ass (time.size = par.size) "x and y differ in length"
  Out.ass (time.size ≥ 4) "time and parameter require at least 4 elements"
  let a ← time.el 0
  if A.lt t a then par.el 0
  else do
    let b ← time.el (time.size - 1)
    if A.lt b t then par.el (par.size - 1)
    else do
      let s ← cmrLoop A t time par (time.size + 1) 0
      return cmrFormula A t s

def cmrMsg : String := "time point has more than one element only the first one is used"

/-- `cmr(tInp, timeVec, parVec)` with a vector `tInp`, given by its size and its first element: Interpolation.hpp
159-178; the conversion `double t = *tInp` is VectorClass.hpp 43-54. -/
def cmrVec (A : Arith T) (size : Nat) (first : Out T) (time par : View T) : L T := do
  warn (decide (size > 1)) cmrMsg
  let t ← M.lift first
  M.lift (cmrInternal A t time par)

/-- The loop of `li`: Interpolation.hpp 36-46; `ret` is the variable of this name, `m` is never initialised. -/
def liLoop (A : Arith T) (t : T) (time par : View T) : Nat → Nat → Option T → Out (Option T)
  | 0, _, ret => .ok ret
  | f + 1, i, ret => do
    let a ← time.el i
    if A.le a t then
      let b ← time.el (i + 1)
      if A.lt t b then do
        let _ ← par.el i
        let _ ← par.el (i + 1)
        .ub .uninit
      else liLoop A t time par f (i + 1) ret
    else liLoop A t time par f (i + 1) ret

/-- `li(t, timeVec, parVec)` for vectors: Interpolation.hpp 10-48. -/
def li (A : Arith T) (tv time par : View T) : Out T := do
  Out.ass (tv.size = 1) "timepoint input has to have length == 1"
  let t ← tv.el 0
  Out.ass (time.size = par.size) "x and y differ in length"
  let b ← time.el time.size
  if A.le b t then par.el par.size
  else do
    let a ← time.el 0
    if A.le t a then par.el 0
    else do
      match ← liLoop A t time par time.size 0 none with
      | some v => return v
      | none => .ub .uninit

end ETR
