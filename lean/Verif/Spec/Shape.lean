import Verif.Model.Machine

/-!
# Lengths and dimensions of the variables of a program

The shape of a variable is its length and, if it is a matrix, its dimensions.  `Shapes.step` says how a
command changes the shapes; no elements, no memory.
-/

namespace ETR
namespace Spec
variable {V : Type}

/-- Length, and rows and columns of a matrix. -/
structure Shape where
  len : Nat
  dim : Option (Nat × Nat)

/-- Shapes of all variables, the next free identifier, and which variables borrow their memory. -/
structure Shapes where
  next : Nat
  sh : Nat → Shape
  bor : Nat → Bool

/-- Dimensions given by a matrix parameter. -/
def dimMP (mp : MP) : Option (Nat × Nat) := if mp.im then some (mp.nr, mp.nc) else none

/-- Dimensions of an expression: two matrices give the larger number of rows and of columns, a matrix and
something else the dimensions of the matrix, a function of a matrix is no matrix. -/
def dimsOf (δ : Nat → Option (Nat × Nat)) : Expr V → Option (Nat × Nat)
  | .leaf x => δ x
  | .rvec _ mp => dimMP mp
  | .scal _ => none
  | .un _ _ => none
  | .bin _ l r =>
    match dimsOf δ l, dimsOf δ r with
    | some a, some b => some (max a.1 b.1, max a.2 b.2)
    | some a, none => some a
    | none, b => b
  | .sub _ _ mp => dimMP mp

/-- Length of an expression; a number takes the length of the other operand. -/
def lenOf (ℓ : Nat → Nat) : Expr V → Nat
  | .leaf x => ℓ x
  | .rvec l _ => l.length
  | .scal _ => 1
  | .un _ e => lenOf ℓ e
  | .bin _ (.scal _) r => lenOf ℓ r
  | .bin _ l (.scal _) => lenOf ℓ l
  | .bin _ l r => max (lenOf ℓ l) (lenOf ℓ r)
  | .sub _ ind _ => ind.length

namespace Shapes

def start : Shapes := ⟨0, fun _ => ⟨0, none⟩, fun _ => false⟩

def len (S : Shapes) (e : Expr V) : Nat := lenOf (fun x => (S.sh x).len) e
def dims (S : Shapes) (e : Expr V) : Option (Nat × Nat) := dimsOf (fun x => (S.sh x).dim) e

/-- A new variable, after `k` temporaries. -/
def new (S : Shapes) (k : Nat) (σ : Shape) : Shapes :=
  { S with next := S.next + k + 1, sh := fun y => if y = S.next + k then σ else S.sh y }

def put (S : Shapes) (x : Nat) (σ : Shape) : Shapes := { S with sh := fun y => if y = x then σ else S.sh y }

/-- Effect of a command that ends normally. -/
def step (S : Shapes) : Cmd V → Shapes
  | .callerArray _ => S
  | .declDefault => S.new 0 ⟨0, none⟩
  | .declSize n => S.new 0 ⟨n, none⟩
  | .declScalar _ => S.new 0 ⟨1, none⟩
  | .declMat r c => S.new 0 ⟨r * c, some (r, c)⟩
  | .declMatVal r c _ => S.new 0 ⟨r * c, some (r, c)⟩
  | .declCopy y =>
    -- a copy of an owning matrix is no matrix
    if S.bor y then { S.new 0 (S.sh y) with bor := fun z => if z = S.next then true else S.bor z }
    else S.new 0 ⟨(S.sh y).len, none⟩
  | .declExpr _ e => S.new 0 ⟨S.len e, S.dims e⟩
  | .declTemp l mp => S.new 1 ⟨l.length, dimMP mp⟩
  | .declPtr _ n => S.new 0 ⟨n, none⟩
  | .declBorrow _ n => { S.new 0 ⟨n, none⟩ with bor := fun z => if z = S.next then true else S.bor z }
  | .assign _ x e =>
    -- without a matrix on the right, a matrix keeps its dimensions
    S.put x ⟨S.len e, match S.dims e with
      | some d => some d
      | none => (S.sh x).dim⟩
  | .assignScalar x _ => S.put x ⟨1, (S.sh x).dim⟩
  | .subAssign _ same x ind _ =>
    { (if same ∧ (S.sh x).len < ind.length then S.put x ⟨ind.length, (S.sh x).dim⟩ else S) with
      next := S.next + 1 }
  | .subAssignScalar _ _ _ => S
  | .setElem _ _ _ => S
  | .resize x n => S.put x ⟨n, (S.sh x).dim⟩
  | .fill _ _ => S
  | .fillVec _ _ => S
  | .pushBack _ _ => S
  | .storeAssign x y => S.put x ⟨max (S.sh x).len (S.sh y).len, (S.sh x).dim⟩
  | .destroy x => { S.put x ⟨0, none⟩ with bor := fun z => if z = x then false else S.bor z }

def after (S : Shapes) (cs : List (Cmd V)) : Shapes := cs.foldl step S

/-- Sizes up to `2^30`, existing targets; `push_back` is left out (C84). -/
def Covered (S : Shapes) : Cmd V → Prop
  | .declMat r c | .declMatVal r c _ => r * c ≤ 2 ^ 30
  | .assign _ x e => x < S.next ∧ S.len e ≤ 2 ^ 30
  | .declExpr _ e => S.len e ≤ 2 ^ 30
  | .pushBack _ _ => False
  | .assignScalar x _ | .subAssign _ _ x _ _ | .resize x _ | .storeAssign x _ => x < S.next
  | _ => True

def CoveredAll (S : Shapes) : List (Cmd V) → Prop
  | [] => True
  | c :: cs => S.Covered c ∧ CoveredAll (S.step c) cs

/-- Every matrix has as many elements as its dimensions say. -/
def Well (S : Shapes) : Prop := ∀ x d, (S.sh x).dim = some d → d.1 * d.2 = (S.sh x).len

/-- The parts of the expression fit to a matrix with the dimensions `d`: matrices have these dimensions,
other parts are not longer. -/
def Conforms (S : Shapes) (d : Nat × Nat) : Expr V → Prop
  | .leaf x => match (S.sh x).dim with
    | some d' => d' = d
    | none => (S.sh x).len ≤ d.1 * d.2
  | .rvec l mp => match dimMP mp with
    | some d' => d' = d ∧ l.length = d.1 * d.2
    | none => l.length ≤ d.1 * d.2
  | .scal _ => 1 ≤ d.1 * d.2
  | .un _ e => S.len e ≤ d.1 * d.2
  | .bin _ l r => Conforms S d l ∧ Conforms S d r
  | .sub _ ind mp => match dimMP mp with
    | some d' => d' = d ∧ ind.length = d.1 * d.2
    | none => ind.length ≤ d.1 * d.2

/-- The command respects the shapes: the parts of a right-hand side with matrices fit together; a matrix is not given another length without new dimensions. -/
def Fits (S : Shapes) : Cmd V → Prop
  | .declExpr _ e => ∀ d, S.dims e = some d → S.Conforms d e
  | .declTemp l mp => ∀ d, dimMP mp = some d → l.length = d.1 * d.2
  | .assign _ x e => (∀ d, S.dims e = some d → S.Conforms d e) ∧
      (S.dims e = none → (S.sh x).dim ≠ none → S.len e = (S.sh x).len)
  | .assignScalar x _ => (S.sh x).dim ≠ none → (S.sh x).len = 1
  | .subAssign _ same x ind _ => same = true → (S.sh x).dim ≠ none → ind.length ≤ (S.sh x).len
  | .resize x n => (S.sh x).dim ≠ none → n = (S.sh x).len
  | .storeAssign x y => (S.sh x).dim ≠ none → (S.sh y).len ≤ (S.sh x).len
  | _ => True

def FitsAll (S : Shapes) : List (Cmd V) → Prop
  | [] => True
  | c :: cs => S.Fits c ∧ FitsAll (S.step c) cs

end Shapes
end Spec
end ETR
