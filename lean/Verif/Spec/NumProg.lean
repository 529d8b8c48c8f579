import Verif.Spec.Numeric
import Verif.Spec.Control
import Verif.Model.Condition

/-!
# Numerical programs over other kinds of numbers

Programs on vectors of doubles: declarations, assignments, writes to elements, blocks, loops over a range of integers, `if` and `while`
with comparisons.  Such a program is read over a given kind of numbers (`Spec/Numeric.lean`): over the rational numbers it has its
mathematical meaning.  Vectors have between 1 and `2^30` elements.  Nothing here mentions how the library computes.
-/

namespace ETR
namespace Spec

/-- Programs.  The vectors are numbered in the order of their declarations; the temporary vector of `lit` takes a number, too. -/
inductive NProg
  | skip
  /-- `Vec<double> x(SI{n});`: zeros. -/
  | zeros (n : Nat)
  /-- `Vec<double> x = coca(...);`. -/
  | lit (l : List ℚ)
  /-- `Vec<double> x = e;`. -/
  | decl (e : TForm)
  /-- `x = e;`. -/
  | assign (x : Nat) (e : TForm)
  /-- `x[i] = e;`: the first element of `e`. -/
  | put (x i : Nat) (e : TForm)
  | seq (a b : NProg)
  /-- `for (auto i : colon(a, b)) body`. -/
  | forInt (a b : Int) (body : Int → NProg)
  /-- `{ body }`. -/
  | block (body : NProg)
  /-- `if (l < r) a else b`, also with another comparison: the first elements decide. -/
  | ite (o : BinO) (l r : TForm) (a b : NProg)
  /-- `while (l < r) body`, also with another comparison. -/
  | loop (o : BinO) (l r : TForm) (body : NProg)

/-- The elements of the vectors, and the next number. -/
structure NState (α : Type) where
  next : Nat
  vars : Nat → Option (List α)

namespace NState
variable {α : Type}

/-- No vectors. -/
def empty : NState α := ⟨0, fun _ => none⟩

/-- A new vector, after `k` temporaries. -/
def new (η : NState α) (k : Nat) (l : List α) : NState α :=
  ⟨η.next + k + 1, fun y => if y = η.next + k then some l else η.vars y⟩

/-- The vector `x` has the elements `l`. -/
def put (η : NState α) (x : Nat) (l : List α) : NState α := ⟨η.next, fun y => if y = x then some l else η.vars y⟩

/-- The vectors from `lo` on are gone. -/
def leave (lo : Nat) (η : NState α) : NState α := ⟨η.next, fun y => if y < lo then η.vars y else none⟩

end NState

/-- The outcome of a comparison of two formulas: the first elements decide. -/
def compares {α : Type} (N : Numbers α) (o : BinO) (l r : TForm) (η : NState α) : Option Bool := do
  let a ← overL N η.vars l
  let b ← overL N η.vars r
  let u ← a.head?
  let v ← b.head?
  N.cmp o u v

/-- The rounds of a `while` loop, less than the given number. -/
def repeats {σ : Type} (test : σ → Option Bool) (body : σ → Option σ) : Nat → σ → Option σ
  | 0, _ => none
  | n + 1, s => do
    let t ← test s
    if t then body s >>= repeats test body n else some s

/-- The program over a kind of numbers; `fuel` bounds the rounds of each `while` loop. -/
def NProg.over {α : Type} (N : Numbers α) (fuel : Nat) : NProg → NState α → Option (NState α)
  | .skip, η => some η
  | .zeros n, η => do
    let l ← lim (List.replicate n 0)
    let l ← allSome (l.map N.num)
    some (η.new 0 l)
  | .lit l, η => do
    let l ← lim l
    let l ← allSome (l.map N.num)
    some (η.new 1 l)
  | .decl e, η => do
    let l ← overL N η.vars e
    let l ← lim l
    some (η.new 0 l)
  | .assign x e, η => do
    let _ ← η.vars x
    let l ← overL N η.vars e
    let l ← lim l
    some (η.put x l)
  | .put x i e, η => do
    let w ← η.vars x
    let l ← overL N η.vars e
    let v ← l.head?
    if i < w.length then some (η.put x (w.set i v)) else none
  | .seq a b, η => a.over N fuel η >>= b.over N fuel
  | .forInt a b body, η =>
    if -2 ^ 29 ≤ a ∧ a ≤ 2 ^ 29 ∧ -2 ^ 29 ≤ b ∧ b ≤ 2 ^ 29 then (intSeq a b).foldlM (fun η i => (body i).over N fuel η) η else none
  | .block body, η => (body.over N fuel η).map (NState.leave η.next)
  | .ite o l r a b, η => do
    let t ← compares N o l r η
    if t then a.over N fuel η else b.over N fuel η
  | .loop o l r body, η => repeats (compares N o l r) (body.over N fuel) fuel η

/-- The conversion of the elements of a right-hand side that are stored in a vector of doubles. -/
def toDouble (e : TForm) (v : Scal) : Out Scal := do
  let w ← (e.conv v).to e.retTy
  w.to .double

/-- The conversion of the first element of a condition to `bool`. -/
def isTrue (e : TForm) (v : Scal) : Bool :=
  match (e.conv v).to e.retTy with
  | .ok w => w.truth
  | _ => false

/-- The C++ program. -/
def NProg.toProg : NProg → Prog Scal
  | .skip => .skip
  | .zeros n => .cmd (.declSize n)
  | .lit l => .cmd (.declTemp (l.map fun q => .d (.fin q)) {})
  | .decl e => .cmd (.declExpr (toDouble e) e.toExpr)
  | .assign x e => .cmd (.assign (toDouble e) x e.toExpr)
  | .put x i e => .read false e.toExpr (fun v => .cmd (.setElem x i v))
  | .seq a b => .seq a.toProg b.toProg
  | .forInt a b body => .forInt a b (fun i => (body i).toProg)
  | .block body => .block body.toProg
  | .ite o l r a b => .ite (decide ((TForm.bin o l r).retTy = .bool)) (TForm.bin o l r).toExpr (isTrue (.bin o l r)) a.toProg b.toProg
  | .loop o l r body => .loop (decide ((TForm.bin o l r).retTy = .bool)) (TForm.bin o l r).toExpr (isTrue (.bin o l r)) body.toProg

end Spec
end ETR
