import Verif.Model.Deriv
import Mathlib.Analysis.SpecialFunctions.Trigonometric.Basic

/-! Specification vocabulary for derivatives. -/

namespace ETR
variable {T : Type}

/-- The vector has exactly the elements `l`. -/
def Buf.Is (b : Buf T) (l : List T) : Prop := b.sz = l.length ∧ ∀ i (hi : i < l.length), b.get i = .ok l[i]

/-- Exact arithmetic over the real numbers. -/
noncomputable def DArith.real : DArith ℝ where
  toArith := Arith.field ℝ
  sin := Real.sin
  cos := Real.cos
  eqv x y := decide (|x - y| < 1 / 1000)
  nev x y := decide (|x - y| > 1 / 1000)
  nz x := decide (x ≠ 0)

namespace Spec

/-- The operands of an expression. -/
inductive Leaf
  | con (c : Nat)
  | var (x : DVar)
  deriving DecidableEq, Repr

/-- The operands that occur in an expression. -/
def leaves : DExpr → List Leaf
  | .con c => [.con c]
  | .var x => [.var x]
  | .bin _ l r => leaves l ++ leaves r
  | .sin e => leaves e

/-- The expression reads the variable. -/
def Occurs (x : DVar) (e : DExpr) : Prop := Leaf.var x ∈ leaves e

/-- Values of constants and variables. -/
structure Vals (K : Type) where
  con : Nat → List K
  var : DVar → List K

variable {K : Type}

/-- The elements of an operand. -/
def Vals.leaf (E : Vals K) : Leaf → List K
  | .con c => E.con c
  | .var x => E.var x

/-- Length of an expression: the longest operand. -/
def Vals.len (E : Vals K) : DExpr → Nat
  | .con c => (E.con c).length
  | .var x => (E.var x).length
  | .bin _ l r => max (E.len l) (E.len r)
  | .sin e => E.len e

/-- Element `i` of an operand, where an operand of length one is used for every `i`. -/
def pick (l : List ℝ) (i : Nat) : ℝ := if l.length = 1 then l.getD 0 0 else l.getD i 0

/-- Element `i` of an expression over the real numbers.  A comparison is one or zero; `==` and `!=` compare up to `1/1000`, the
tolerance of the library. -/
noncomputable def Vals.elem (E : Vals ℝ) : DExpr → Nat → ℝ
  | .con c, i => pick (E.con c) i
  | .var x, i => pick (E.var x) i
  | .bin .add l r, i => E.elem l i + E.elem r i
  | .bin .sub l r, i => E.elem l i - E.elem r i
  | .bin .mul l r, i => E.elem l i * E.elem r i
  | .bin .div l r, i => E.elem l i / E.elem r i
  | .bin .lt l r, i => if E.elem l i < E.elem r i then 1 else 0
  | .bin .gt l r, i => if E.elem l i > E.elem r i then 1 else 0
  | .bin .le l r, i => if E.elem l i ≤ E.elem r i then 1 else 0
  | .bin .ge l r, i => if E.elem l i ≥ E.elem r i then 1 else 0
  | .bin .eq l r, i => if |E.elem l i - E.elem r i| < 1 / 1000 then 1 else 0
  | .bin .ne l r, i => if |E.elem l i - E.elem r i| > 1 / 1000 then 1 else 0
  | .sin e, i => Real.sin (E.elem e i)

/-- The effect of a statement on the values.  `k` is the independent variable, `t` the change of its value: whenever a constant
is assigned to it, `t` is added. -/
noncomputable def deval (k : DVar) (t : ℝ) : AV.Stmt ℝ → Vals ℝ → Vals ℝ
  | .setCon c l, E => { E with con := fun d => if d = c then l else E.con d }
  | .assign x e, E => { E with var := fun y => if y = x then match e with
      | .con c => (E.con c).map (fun a => a + if x = k then t else 0)
      | .var z => E.var z
      | e => (List.range (E.len e)).map (E.elem e) else E.var y }

/-- The effect of a program. -/
noncomputable def devals (k : DVar) (t : ℝ) : List (AV.Stmt ℝ) → Vals ℝ → Vals ℝ
  | [], E => E
  | p :: ps, E => devals k t ps (deval k t p E)

/-- The values after variables were given the vectors `ls`, where `t` is added to the elements of the independent variable `k`. -/
noncomputable def Vals.args (k : DVar) (t : ℝ) (ls : List (List ℝ)) : Vals ℝ where
  con _ := []
  var x := if x.1 = .buffer then ((ls[x.2]?).getD []).map (fun a => a + if x = k then t else 0) else []

/-- The values after variables were given vectors (`g`), where `t` is added to the elements of the independent variable `k`. -/
noncomputable def Vals.given (k : DVar) (t : ℝ) (g : DVar → List ℝ) : Vals ℝ where
  con _ := []
  var x := (g x).map (fun a => a + if x = k then t else 0)

/-- The vectors of the arguments of `initBuffer` and of `initBorrowSEXP`. -/
def handed (lb ls : List (List ℝ)) (x : DVar) : List ℝ :=
  match x.1 with
  | .buffer => (lb[x.2]?).getD []
  | .sexp => (ls[x.2]?).getD []
  | .borrow => []

/-- At the start all constants and variables are empty. -/
def Vals.start : Vals K := ⟨fun _ => [], fun _ => []⟩

/-- Expressions built from `+`, `-`, `*` and division by constants. -/
def Poly : DExpr → Prop
  | .con _ => True
  | .var _ => True
  | .bin .div l r => Poly l ∧ ∃ c, r = .con c
  | .bin .add l r => Poly l ∧ Poly r
  | .bin .sub l r => Poly l ∧ Poly r
  | .bin .mul l r => Poly l ∧ Poly r
  | .bin _ _ _ => False
  | .sin _ => False

/-- No division by zero. -/
def Nonzero (E : Vals ℝ) : DExpr → Prop
  | .con _ => True
  | .var _ => True
  | .bin .div l r => Nonzero E l ∧ ∀ i, i < E.len r → E.elem r i ≠ 0
  | .bin _ l r => Nonzero E l ∧ Nonzero E r
  | .sin e => Nonzero E e

/-- All operands are not empty, and as long as the expression or of length one. -/
def Conform (E : Vals K) (e : DExpr) : Prop :=
  ∀ v ∈ leaves e, (E.leaf v).length ≠ 0 ∧ ((E.leaf v).length = E.len e ∨ (E.leaf v).length = 1)

/-- The program that is a candidate for `Spec.Fits`, without its last condition. -/
def FitsWeak (E : Vals ℝ) : AV.Stmt ℝ → Prop
  | .setCon _ l => 1 ≤ l.length ∧ l.length ≤ 2 ^ 59
  | .assign x e => Poly e ∧ Nonzero E e ∧ Conform E e ∧ E.len e ≤ 2 ^ 59 ∧ e ≠ .var x ∧ x.1 = .buffer ∧
      ∀ y, Occurs y e → y.1 = .buffer

/-- The statement stays within `+`, `-`, `*`, division by nonzero constants, constants and copies of variables that are
buffers, on equally long or scalar vectors of a possible length; a variable that is read by its own new value keeps its length. -/
def Fits (E : Vals ℝ) (p : AV.Stmt ℝ) : Prop :=
  FitsWeak E p ∧ match p with
    | .setCon _ _ => True
    | .assign x e => Occurs x e → (E.var x).length = E.len e

/-- All statements of a program fit. -/
def FitsAll (k : DVar) : List (AV.Stmt ℝ) → Vals ℝ → Prop
  | [], _ => True
  | p :: ps, E => Fits E p ∧ FitsAll k ps (deval k 0 p E)

/-- All statements of a program fit, without the last condition of `Fits`. -/
def FitsWeakAll (k : DVar) : List (AV.Stmt ℝ) → Vals ℝ → Prop
  | [], _ => True
  | p :: ps, E => FitsWeak E p ∧ FitsWeakAll k ps (deval k 0 p E)

/-- Comparisons and products of them. -/
def Truth : DExpr → Prop
  | .bin op l r => op ∈ [.lt, .gt, .le, .ge, .eq, .ne] ∨ op = .mul ∧ Truth l ∧ Truth r
  | _ => False

/-- Expressions built from `+`, `-`, `*`, division by constants and comparisons. -/
def Piece : DExpr → Prop
  | .con _ => True
  | .var _ => True
  | .bin .div l r => Piece l ∧ ∃ c, r = .con c
  | .bin _ l r => Piece l ∧ Piece r
  | .sin _ => False

/-- No sum and no difference has comparisons, or products of them, on both sides. -/
def Mixed : DExpr → Prop
  | .bin op l r => Mixed l ∧ Mixed r ∧ (op ∈ [.add, .sub] → ¬ (Truth l ∧ Truth r))
  | .sin e => Mixed e
  | _ => True

/-- No comparison that is part of the expression is at a point where its result changes, in any of `n` elements. -/
def Steady (E : Vals ℝ) (n : Nat) : DExpr → Prop
  | .bin op l r => Steady E n l ∧ Steady E n r ∧
      (op ∈ [.lt, .gt, .le, .ge] → ∀ i, i < n → E.elem l i ≠ E.elem r i) ∧
      (op ∈ [.eq, .ne] → ∀ i, i < n → |E.elem l i - E.elem r i| ≠ 1 / 1000)
  | .sin e => Steady E n e
  | _ => True

/-- As `Fits`, with comparisons. -/
def FitsPiece (E : Vals ℝ) : AV.Stmt ℝ → Prop
  | .setCon _ l => 1 ≤ l.length ∧ l.length ≤ 2 ^ 59
  | .assign x e => Piece e ∧ Steady E (E.len e) e ∧ Nonzero E e ∧ Conform E e ∧ E.len e ≤ 2 ^ 59 ∧ e ≠ .var x ∧ x.1 = .buffer ∧
      (∀ y, Occurs y e → y.1 = .buffer) ∧ (Occurs x e → (E.var x).length = E.len e)

/-- The expression of an assignment is `Mixed`. -/
def StmtMixed : AV.Stmt ℝ → Prop
  | .setCon _ _ => True
  | .assign _ e => Mixed e

/-- All statements of a program fit, with comparisons. -/
def FitsPieceAll (k : DVar) : List (AV.Stmt ℝ) → Vals ℝ → Prop
  | [], _ => True
  | p :: ps, E => FitsPiece E p ∧ FitsPieceAll k ps (deval k 0 p E)

/-- As `FitsPiece`, for variables of all kinds: new values go to buffers, copies of variables also to variables that hold an R object; a
constant that is assigned to a variable with the index of the independent variable `k` is assigned to `k`. -/
def FitsKinds (k : DVar) (E : Vals ℝ) : AV.Stmt ℝ → Prop
  | .setCon _ l => 1 ≤ l.length ∧ l.length ≤ 2 ^ 59
  | .assign x e => Piece e ∧ Steady E (E.len e) e ∧ Nonzero E e ∧ Conform E e ∧ E.len e ≤ 2 ^ 59 ∧ e ≠ .var x ∧
      (x.1 = .buffer ∨ x.1 = .sexp ∧ ∃ y, e = .var y) ∧ ((∃ c, e = .con c) → x.2 = k.2 → x = k) ∧
      (Occurs x e → (E.var x).length = E.len e)

/-- All statements of a program fit, for variables of all kinds. -/
def FitsKindsAll (k : DVar) : List (AV.Stmt ℝ) → Vals ℝ → Prop
  | [], _ => True
  | p :: ps, E => FitsKinds k E p ∧ FitsKindsAll k ps (deval k 0 p E)

/-- The variables that were given a value from outside and have been neither read nor assigned, after a statement. -/
def stillNew (P : DVar → Prop) : AV.Stmt ℝ → DVar → Prop
  | .setCon _ _, y => P y
  | .assign x e, y => P y ∧ y ≠ x ∧ ¬ Occurs y e

/-- The statement does not assign to a variable that it is the first one to read. -/
def FirstUse (P : DVar → Prop) : AV.Stmt ℝ → Prop
  | .setCon _ _ => True
  | .assign x e => P x → ¬ Occurs x e

/-- No statement assigns to a variable that it is the first one to read. -/
def FirstUses : (DVar → Prop) → List (AV.Stmt ℝ) → Prop
  | _, [] => True
  | P, p :: ps => FirstUse P p ∧ FirstUses (stillNew P p) ps

/-- The operands of an expression have the values `E` and the derivatives `D`. -/
def Shows (s : AV T) (E : Vals T) (D : DVar → List T) (e : DExpr) : Prop :=
  ∀ v ∈ leaves e, match v with
    | .con c => (s.con c).Is (E.con c)
    | .var y => (s.val y).Is (E.var y) ∧ (s.der y).Is (D y) ∧ (D y).length = (E.var y).length

/-- No comparison occurs. -/
def Plain : DExpr → Prop
  | .con _ => True
  | .var _ => True
  | .bin op l r => op ∈ [.add, .sub, .mul, .div] ∧ Plain l ∧ Plain r
  | .sin e => Plain e

/-- The derivative of the variable is read when the derivative of the expression is computed: the derivative of the sinus of a
constant or variable is computed without it. -/
def ReadsDer (x : DVar) : DExpr → Prop
  | .con _ => False
  | .var y => y = x
  | .bin _ l r => ReadsDer x l ∨ ReadsDer x r
  | .sin e => e.isLeaf = false ∧ ReadsDer x e

/-- Number of elements of an operand. -/
def Leaf.size (s : AV T) : Leaf → Nat
  | .con c => (s.con c).sz
  | .var x => (s.val x).sz

/-- The operand elements from which element `i` of an expression is computed: shorter operands are recycled at each operator. -/
def operands (s : AV T) : DExpr → Nat → List (Leaf × Nat)
  | .con c, i => [(.con c, i)]
  | .var x, i => [(.var x, i)]
  | .bin _ l r, i => operands s l (i % l.size s) ++ operands s r (i % r.size s)
  | .sin e, i => operands s e (i % e.size s)

/-- The states agree on the value and the derivative of one element of an operand. -/
def SameElem (s s' : AV T) : Leaf → Nat → Prop
  | .con c, j => (s.con c).get j = (s'.con c).get j
  | .var x, j => (s.val x).get j = (s'.val x).get j ∧ (s.der x).get j = (s'.der x).get j

/-- The states agree on all lengths. -/
def SameSizes (s s' : AV T) : Prop :=
  (∀ c, (s.con c).sz = (s'.con c).sz) ∧ (∀ x, (s.val x).sz = (s'.val x).sz) ∧ ∀ x, (s.der x).sz = (s'.der x).sz

/-- Each operand of an operator evenly divides into that operator's operand expression. -/
def Even (s : AV T) : DExpr → Prop
  | .con _ => True
  | .var _ => True
  | .bin _ l r => Even s l ∧ Even s r ∧ (∀ v ∈ leaves l, v.size s ∣ l.size s) ∧ ∀ v ∈ leaves r, v.size s ∣ r.size s
  | .sin e => Even s e ∧ ∀ v ∈ leaves e, v.size s ∣ e.size s

/-- The dimensions of the matrices from which the expression takes its dimensions: all operands except those of `sin`. -/
def mats (s : AV T) : DExpr → List MP
  | .con c => if (s.con c).mp.im then [(s.con c).mp] else []
  | .var x => if (s.val x).mp.im then [(s.val x).mp] else []
  | .bin _ l r => mats s l ++ mats s r
  | .sin _ => []

/-- The largest number of a list. -/
def largest (l : List Nat) : Nat := l.foldr max 0

/-- Every matrix has as many elements as its dimensions say. -/
def WellShaped (s : AV T) : Prop := ∀ y, (s.val y).mp.im = true → (s.val y).mp.nr * (s.val y).mp.nc = (s.val y).sz

/-- No constant is a matrix. -/
def VectorCons (s : AV T) : Prop := ∀ c, (s.con c).mp.im = false

/-- The operands of `x = e` fit together: all matrices have the same dimensions, nothing is longer than them; if there is no matrix
and `x` is one, `x` keeps its length. -/
def DimsFit (s : AV T) (x : DVar) (e : DExpr) : Prop :=
  (mats s e ≠ [] → ∃ r c, (∀ m ∈ mats s e, m.nr = r ∧ m.nc = c) ∧ ∀ v ∈ leaves e, v.size s ≤ r * c) ∧
  (mats s e = [] → (s.val x).mp.im = true → e.size s = (s.val x).sz)

/-- All assignments of a program fit. -/
def DimsFitAll (A : DArith T) : List (AV.Stmt T) → AV T → Prop
  | [], _ => True
  | p :: ps, s => (match p with
      | .setCon _ _ => True
      | .assign x e => DimsFit s x e) ∧ ∀ s', AV.exec A p s = (.ok (), s') → DimsFitAll A ps s'

end Spec
end ETR
