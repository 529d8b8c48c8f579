import Verif.Model.Store
import Verif.Model.MatSubset

/-!
# Functions that create vectors

`/repo/include/etr_bits/Allocation/*.hpp` and `Coca.hpp`: `vector_*`, `matrix`, `rep`, `colon`, `coca`.  The
state consists of the warnings printed so far, the heap and the vector `ret` that is returned; `ret`
is built by the operations of `BaseStore`.

Simplifications: the arguments are evaluated in the environment at the time of the call (`ret` has its own
memory, so that building it does not change them); where C++ leaves the evaluation order of
two arguments open, the left one is evaluated first.
-/

namespace ETR

/-- Computations that print warnings and build a vector. -/
abbrev AM (V α : Type) : Type := M (List String × (Heap V × Store)) α

section
variable {V : Type}

/-- A part that only prints. -/
def sayM {α : Type} (m : L α) : AM V α := M.zoom Prod.fst (fun w s => (w, s.2)) m
/-- A part that only works on `ret`. -/
def retM {α : Type} (m : SM V α) : AM V α := M.zoom Prod.snd (fun r s => (s.1, r)) m

/-- Numbers that are used as sizes: `std::size_t` or an element. -/
inductive Num
  | n (k : Nat)
  | s (v : Scal)
  deriving DecidableEq

/-- `convertSize` of a number: AllocationUtils.hpp 23-34. -/
def convertSize : Num → L Nat
  | .n k => convertSizeN k
  | .s (.d x) => convertSizeD x
  | .s (.i k) => do
    M.ass (1 ≤ k) "invalid times argument"
    return wrap64 k
  | .s (.b v) => do
    M.ass (v = true) "invalid times argument"
    return 1

/-- A size argument: a number, or a vector, given by its size and its first element. -/
inductive SizeArg
  | one (a : Num)
  | vec (size : Nat) (first : Out Num)

/-- `convertSize` of a vector: AllocationUtils.hpp 35-38. -/
def convertSizeVec (size : Nat) (first : Out Scal) : L Nat := do
  M.ass (size = 1) "invalid times argument"
  let x ← M.lift first
  match x with
  | .d x => do
    M.ass (F64.le (.fin 1) x = true) "invalid times argument"
    M.lift x.toSizeT
  | .i k => do
    M.ass (1 ≤ k) "invalid times argument"
    return wrap64 k
  | .b v => do
    M.ass (v = true) "invalid times argument"
    return 1

/-! ## `vector_*` -/

/-- Implicit conversion of a number to `int`. -/
def Num.toI : Num → Out Int
  | .n k => .ok (wrapI32 k)
  | .s (.i k) => .ok k
  | .s (.b v) => .ok (if v then 1 else 0)
  | .s (.d x) => x.toI32

/-- Implicit conversion of a number to `bool`. -/
def Num.toB : Num → Bool
  | .n k => decide (k ≠ 0)
  | .s (.i k) => decide (k ≠ 0)
  | .s (.b v) => v
  | .s (.d x) => x.toBool

/-- Implicit conversion of a number to `double`. -/
def Num.toD : Num → F64
  | .n k => F64.ofNat k
  | .s v => v.toD

/-- The template argument of `createRVec<T>(s)`.  It is the type of the parameter `s`, to which the size
is converted, not the type of the elements: AllocationUtils.hpp 51. -/
inductive STy
  | int
  | bool
  | double
  deriving DecidableEq

/-- Conversion of the argument to the type of the parameter. -/
def Num.to (t : STy) (a : Num) : Out Num :=
  match t with
  | .int => do
    let k ← a.toI
    return .s (.i k)
  | .bool => .ok (.s (.b a.toB))
  | .double => .ok (.s (.d a.toD))

/-- `createRVec<T>(s)`: AllocationUtils.hpp 51-56. -/
def createRVec (zero : V) (t : STy) (a : Num) : AM V Unit := do
  let a ← M.lift (a.to t)
  let size ← sayM (convertSize a)
  M.ass (size > 0) "invalid length argument"
  retM (Store.ctorSize zero size)

/-- The common form of the functions `vector_*`: Vector.hpp 10-98. -/
def vectorOf (zero : V) (t : STy) : SizeArg → AM V Unit
  | .one a => createRVec zero t a
  | .vec size first => do
    M.ass (size = 1) "invalid length argument"
    let a ← M.lift first
    createRVec zero t a

/-- `vector_integer`: Vector.hpp 10-38. -/
def vectorInteger (zero : V) : SizeArg → AM V Unit := vectorOf zero .int

/-- `vector_logical`; `lv`: the argument is a variable that is not `const`.  Vector.hpp 40-68. -/
def vectorLogical (zero : V) (lv : Bool) : SizeArg → AM V Unit := vectorOf zero (if lv then .bool else .int)

/-- `vector_numeric`: Vector.hpp 70-98. -/
def vectorNumeric (zero : V) : SizeArg → AM V Unit := vectorOf zero .double

/-! ## `matrix` -/

/-- An argument that is a number or a vector. -/
inductive Arg (V : Type)
  | scal (v : V)
  | vec (e : Expr V)

def colsMsg : String := "ncols in fct matrix has more than one element. Only the first one is used"
def rowsMsg : String := "nrows in fct matrix has more than one element. Only the first one is used"

/-- The warnings of `matrix`: Matrix.hpp 48, 56, 65, 73, 82-85, 92-95. -/
def matrixWarn : SizeArg → SizeArg → L Unit
  | .one _, .one _ => pure ()
  | .vec n _, .one _ => warn (decide (n > 1)) rowsMsg
  | .one _, .vec n _ => warn (decide (n > 1)) colsMsg
  | .vec n _, .vec k _ => do
    warn (decide (k > 2)) colsMsg
    warn (decide (n > 1)) rowsMsg

/-- `convertSize(a)` or `convertSize(a[0])`. -/
def firstSize : SizeArg → L Nat
  | .one a => convertSize a
  | .vec _ first => do
    let a ← M.lift first
    convertSize a

/-- `matrix(x, nrows, ncols)`: Matrix.hpp 31-105.  The constructor is Vector/Constructors.hpp 117-119.  `x` is a
temporary or an operation (`const V &&`), so that `fill` is the element loop: BaseStore.hpp 176-182. -/
def matrix (zero : V) (env : Env V) (x : Arg V) (nrows ncols : SizeArg) : AM V Unit := do
  sayM (matrixWarn nrows ncols)
  let r ← sayM (firstSize nrows)
  let c ← sayM (firstSize ncols)
  retM (Store.ctorSize zero ((r * c) % two64))
  retM (Store.upd (fun d => { d with mp := ⟨true, r, c⟩ }))
  match x with
  | .scal v => retM (Store.fillScalar v)
  | .vec e => retM (Store.fillLoop (e.size env) (fun _ i => e.el env i))

/-! ## `rep` -/

def timesMsg : String := "times in fct rep has more than one element. Only the first one is used"

/-- The warning of `rep`: Rep.hpp 46-48, 54-56. -/
def repWarn : SizeArg → L Unit
  | .one _ => pure ()
  | .vec n _ => warn (!decide (n > 1)) timesMsg

/-- The loop of `rep`, with `k` rounds left: Rep.hpp 38-43, 62-67. -/
def repLoop (env : Env V) (e : Expr V) : Nat → Nat → Nat → SM V Unit
  | 0, _, _ => pure ()
  | k + 1, i, counter => do
    let v ← M.lift (e.el env counter)
    Store.set i v
    repLoop env e k (i + 1) (if counter + 1 ≥ e.size env then 0 else counter + 1)

/-- `rep(x, times)`: Rep.hpp 25-78. -/
def rep (zero : V) (env : Env V) (x : Arg V) (times : SizeArg) : AM V Unit := do
  sayM (repWarn times)
  let k ← sayM (firstSize times)
  match x with
  | .scal v => do
    retM (Store.ctorSize zero k)
    retM (Store.fillScalar v)
  | .vec e => do
    let length := (k * e.size env) % two64
    retM (Store.ctorSize zero length)
    retM (repLoop env e length 0 0)

end

/-! ## `colon` -/

/-- `while (go(start)) { ret[counter] = start; step(start); counter++; }`: Colon.hpp 29-33 and 39-43, with
`start <= end` and `start++`, or `end <= start` and `start--`.  `counter` grows in each round and
`ret[counter]` throws if it has reached the size, so that there are at most size + 1 rounds; `fuel` is their
number. -/
def seqLoop {T : Type} (go : T → Bool) (step : T → Out T) : (fuel : Nat) → (start : T) → (counter : Nat) → SM T Unit
  | 0, _, _ => M.lift (.thr "not reached")
  | f + 1, start, counter =>
    if go start then do
      Store.set counter start
      let start ← M.lift (step start)
      seqLoop go step f start (counter + 1)
    else pure ()

/-- `colonInternal<int>`: Colon.hpp 24-46. -/
def colonI (start stop : Int) : AM Int Unit :=
  if start < stop then do
    let d ← M.lift (ckI32 (stop - start))
    let d ← M.lift (ckI32 (d + 1))
    let length ← sayM (convertSize (.s (.i d)))
    retM (Store.ctorSize 0 length)
    retM (seqLoop (fun x => decide (x ≤ stop)) (fun x => ckI32 (x + 1)) (length + 1) start 0)
  else do
    let d ← M.lift (ckI32 (start - stop))
    let d ← M.lift (ckI32 (d + 1))
    let length ← sayM (convertSize (.s (.i d)))
    retM (Store.ctorSize 0 length)
    retM (seqLoop (fun x => decide (stop ≤ x)) (fun x => ckI32 (x - 1)) (length + 1) start 0)

/-- `colonInternal<double>`: Colon.hpp 24-46. -/
def colonD (start stop : F64) : AM F64 Unit :=
  if F64.lt start stop then do
    let length ← sayM (convertSizeD (F64.add (F64.sub stop start) (.fin 1)))
    retM (Store.ctorSize (.fin 0) length)
    retM (seqLoop (fun x => F64.le x stop) (fun x => .ok (F64.add x (.fin 1))) (length + 1) start 0)
  else do
    let length ← sayM (convertSizeD (F64.add (F64.sub start stop) (.fin 1)))
    retM (Store.ctorSize (.fin 0) length)
    retM (seqLoop (fun x => F64.le stop x) (fun x => .ok (F64.sub x (.fin 1))) (length + 1) start 0)

def colonMsg : String := "expression has more than one element only the first is used"

/-- An argument of `colon` with elements of type `T`: a number, or a vector, given by its size and its first
element (converted to `T`, the common type of both arguments). -/
inductive CArg (T : Type)
  | one (x : T)
  | vec (size : Nat) (first : Out T)

/-- The warning for one argument: Colon.hpp 66, 85, 107, 126, 148-151 and so on. -/
def colonWarn {T : Type} : CArg T → L Unit
  | .one _ => pure ()
  | .vec n _ => warn (decide (n = 1)) colonMsg

/-- The number used. -/
def CArg.value {T : Type} : CArg T → Out T
  | .one x => .ok x
  | .vec _ first => first

/-- `colon(start, end)` of integers: Colon.hpp 48-246; the warning for `end` comes first. -/
def colonInt (start stop : CArg Int) : AM Int Unit := do
  sayM (colonWarn stop)
  sayM (colonWarn start)
  let a ← M.lift start.value
  let b ← M.lift stop.value
  colonI a b

/-- `colon(start, end)` of doubles. -/
def colonDbl (start stop : CArg F64) : AM F64 Unit := do
  sayM (colonWarn stop)
  sayM (colonWarn start)
  let a ← M.lift start.value
  let b ← M.lift stop.value
  colonD a b

/-! ## `coca` -/

/-- Element types in the order of the conversions. -/
inductive Ty
  | bool
  | int
  | double
  deriving DecidableEq

/-- `std::common_type` of arithmetic element types. -/
def Ty.common : Ty → Ty → Ty
  | .double, _ => .double
  | _, .double => .double
  | .int, _ => .int
  | _, .int => .int
  | .bool, .bool => .bool

/-- `static_cast<T>` of an element. -/
def Scal.to (t : Ty) (v : Scal) : Out Scal :=
  match t, v with
  | .double, v => .ok (.d v.toD)
  | .int, .d x => do
    let k ← x.toI32
    return .i k
  | .int, .i k => .ok (.i k)
  | .int, .b v => .ok (.i (if v then 1 else 0))
  | .bool, .d x => .ok (.b x.toBool)
  | .bool, .i k => .ok (.b (decide (k ≠ 0)))
  | .bool, .b v => .ok (.b v)

/-- The element type of a number. -/
def Scal.ty : Scal → Ty
  | .b _ => .bool
  | .i _ => .int
  | .d _ => .double

/-- An argument of `coca`: a number or a vector with the element type `t`. -/
inductive CoArg
  | scal (v : Scal)
  | vec (t : Ty) (e : Expr Scal)

def CoArg.ty : CoArg → Ty
  | .scal v => v.ty
  | .vec t _ => t

/-- `determine_type`: Coca.hpp 14-74. -/
def determineType : CoArg → List CoArg → Ty
  | a, [] => a.ty
  | a, b :: rest => a.ty.common (determineType b rest)

/-- The computation of the size: Coca.hpp 84-94 (`size` is an `int`, `arg.size()` a `std::size_t`, so
that the sum is computed modulo `2^64` and converted to `int`; `size++` overflows). -/
def cocaSize (env : Env Scal) : List CoArg → Int → Out Int
  | [], n => .ok n
  | .scal _ :: rest, n => do
    let n ← ckI32 (n + 1)
    cocaSize env rest n
  | .vec _ e :: rest, n => cocaSize env rest (wrapI32 (wrap64 (n + e.size env)))

/-- Copying the arguments: Coca.hpp 99-129. `index + i` is a `std::size_t`; the loop variable `i` is an
`int`, the loop is modelled for sizes below `2^31`, beyond it overflows. -/
def cocaFill (env : Env Scal) (t : Ty) : List CoArg → Nat → SM Scal Unit
  | [], _ => pure ()
  | .scal v :: rest, index => do
    let w ← M.lift (v.to t)
    Store.set index w
    cocaFill env t rest (index + 1)
  | .vec _ e :: rest, index => do
    if e.size env < 2147483648 then
      M.forN (e.size env) (fun i => do
        let v ← M.lift (e.el env i)
        let w ← M.lift (v.to t)
        Store.set (index + i) w)
    else M.lift (.ub .intOverflow)
    cocaFill env t rest (index + e.size env)

/-- The value `T()`. -/
def Ty.zero : Ty → Scal
  | .bool => .b false
  | .int => .i 0
  | .double => .d (.fin 0)

/-- `coca(a, rest...)`: Coca.hpp 82-131; `SI{size}` converts the `int` to `std::size_t`,
Core/Utils.hpp 76. -/
def coca (env : Env Scal) (a : CoArg) (rest : List CoArg) : AM Scal Unit := do
  let t := determineType a rest
  let size ← M.lift (cocaSize env (a :: rest) 0)
  retM (Store.ctorSize t.zero (wrap64 size))
  retM (cocaFill env t (a :: rest) 0)

end ETR
