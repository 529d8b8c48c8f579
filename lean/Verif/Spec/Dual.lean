import Verif.Spec.Numeric
import Verif.Spec.Deriv

/-!
# Values with derivatives

A program over derivative variables, read over a kind of numbers (`Numbers`): every element is a value together with its derivative,
computed by the rules for sums, differences, products and quotients by constants.
-/

namespace ETR

/-- The statement with other numbers. -/
def AV.Stmt.map {T U : Type} (f : T → U) : AV.Stmt T → AV.Stmt U
  | .setCon c l => .setCon c (l.map f)
  | .assign x e => .assign x e

namespace Spec
variable {α : Type}

/-- Constants, and variables as lists of values with derivatives. -/
structure Duals (α : Type) where
  con : Nat → List α
  var : DVar → List (α × α)

/-- Element `i` of a recycled list. -/
def cyc {β : Type} (l : List β) (i : Nat) : Option β := l[i % l.length]?

/-- Length of an expression: the longest operand. -/
def Duals.len (V : Duals α) : DExpr → Nat
  | .con c => (V.con c).length
  | .var x => (V.var x).length
  | .bin _ l r => max (V.len l) (V.len r)
  | .sin e => V.len e

/-- Element `i` of an expression: value and derivative. -/
def Duals.elem (N : Numbers α) (V : Duals α) : DExpr → Nat → Option (α × α)
  | .con c, i => do
    let a ← cyc (V.con c) i
    let z ← N.num 0
    return (a, z)
  | .var x, i => cyc (V.var x) i
  | .bin .add l r, i => do
    let a ← V.elem N l i
    let b ← V.elem N r i
    let v ← N.op .plus a.1 b.1
    let d ← N.op .plus a.2 b.2
    return (v, d)
  | .bin .sub l r, i => do
    let a ← V.elem N l i
    let b ← V.elem N r i
    let v ← N.op .minus a.1 b.1
    let d ← N.op .minus a.2 b.2
    return (v, d)
  | .bin .mul l r, i => do
    let a ← V.elem N l i
    let b ← V.elem N r i
    let v ← N.op .times a.1 b.1
    let p ← N.op .times a.2 b.1
    let q ← N.op .times b.2 a.1
    let d ← N.op .plus p q
    return (v, d)
  | .bin .div l (.con c), i => do
    let a ← V.elem N l i
    let b ← cyc (V.con c) i
    let v ← N.op .divide a.1 b
    let d ← N.op .divide a.2 b
    return (v, d)
  | _, _ => none

/-- The elements of the variable `x` after `x = e`; `k` is the index of the independent variable, which has derivative one when it is
given a value. -/
def newElems (N : Numbers α) (k : Nat) (x : DVar) (V : Duals α) : DExpr → Option (List (α × α))
  | .con c => (N.num (if x.2 = k then 1 else 0)).map fun d => (V.con c).map fun a => (a, d)
  | .var y => some (V.var y)
  | e => allSome ((List.range (V.len e)).map (V.elem N e))

/-- The effect of a statement. -/
def dualStep (N : Numbers α) (k : Nat) : AV.Stmt ℚ → Duals α → Option (Duals α)
  | .setCon c l, V => do
    let m ← allSome (l.map N.num)
    return { V with con := fun d => if d = c then m else V.con d }
  | .assign x e, V => do
    let m ← newElems N k x V e
    return { V with var := fun y => if y = x then m else V.var y }

/-- The effect of a program. -/
def dualSteps (N : Numbers α) (k : Nat) : List (AV.Stmt ℚ) → Duals α → Option (Duals α)
  | [], V => some V
  | p :: ps, V => do
    let W ← dualStep N k p V
    dualSteps N k ps W

/-- At the start all constants and variables are empty. -/
def Duals.start : Duals α := ⟨fun _ => [], fun _ => []⟩

end Spec
end ETR
