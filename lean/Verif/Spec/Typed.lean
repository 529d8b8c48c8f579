import Verif.Model.Typed

/-!
# Formulas over numbers, independent of element types

What is said here about a formula does not mention how the library computes.
-/

namespace ETR
namespace Spec

/-- The same formula, up to the element types of its vectors and arithmetic operands. -/
def Retyped : TForm → TForm → Prop
  | .leaf _ x, .leaf _ y => x = y
  | .scal v, .scal w => v.toD = w.toD
  | .un o e, .un o' e' => o = o' ∧ Retyped e e'
  | .bin o l r, .bin o' l' r' => o = o' ∧ Retyped l l' ∧ Retyped r r'
  | .sub e ind mp, .sub e' ind' mp' => ind = ind' ∧ mp = mp' ∧ Retyped e e'
  | _, _ => False

/-- The two outcomes are the same, numbers compared as numbers. -/
def SameNumber (a b : Out Scal) : Prop := (do let v ← a; return v.toD) = (do let v ← b; return v.toD)

/-- The vectors hold the same numbers. -/
def SameVectors (env env' : Env Scal) : Prop :=
  (∀ x, env.size x = env'.size x) ∧ ∀ x i, SameNumber (env.get x i) (env'.get x i)

/-- The integers are 32-bit integers. -/
def IntOk (v : Scal) : Prop := ∀ n, v = .i n → InI32 n

/-- The vectors have the element types that the formula gives them. -/
def TypedIn (env : Env Scal) : TForm → Prop
  | .leaf t x => ∀ i v, env.get x i = .ok v → v.ty = t ∧ IntOk v
  | .scal v => IntOk v
  | .un _ e => TypedIn env e
  | .bin _ l r => TypedIn env l ∧ TypedIn env r
  | .sub e _ _ => TypedIn env e

/-- `+`, `-`, `*`. -/
def arithmetic : BinO → Bool
  | .plus => true
  | .minus => true
  | .times => true
  | _ => false

/-- No `+`, `-`, `*` has two logical operands. -/
def NoLogical : TForm → Prop
  | .leaf _ _ => True
  | .scal _ => True
  | .un _ e => NoLogical e
  | .bin o l r => NoLogical l ∧ NoLogical r ∧ ¬ (arithmetic o = true ∧ l.ty = .bool ∧ r.ty = .bool)
  | .sub e _ _ => NoLogical e

/-- Integer operation. -/
def intOp : BinO → Option (ℤ → ℤ → ℤ)
  | .plus => some (· + ·)
  | .minus => some (· - ·)
  | .times => some (· * ·)
  | _ => none

/-- All elements are 32-bit integers; then the list itself. -/
def fits (l : List ℤ) : Option (List ℤ) := if ∀ z ∈ l, InI32 z then some l else none

/-- The list of integers that a formula of `+`, `-`, `*`, unary minus and subsets denotes, over the
integers and with the recycling of R, if no intermediate result leaves the 32-bit range.  (A subset
with more indices than elements has no value here; the library reads it wrongly, see C31.) -/
def exact (ρ : Nat → List ℤ) : TForm → Option (List ℤ)
  | .leaf _ x => if ρ x = [] then none else fits (ρ x)
  | .scal (.b v) => some [if v then 1 else 0]
  | .scal (.i n) => fits [n]
  | .scal (.d _) => none
  | .un .neg e => do
    let l ← exact ρ e
    fits (l.map (fun z => -z))
  | .un (.fn _) _ => none
  | .bin o l r => do
    let f ← intOp o
    let a ← exact ρ l
    let b ← exact ρ r
    fits ((List.range (max a.length b.length)).map
      (fun i => f (a[i % a.length]?.getD 0) (b[i % b.length]?.getD 0)))
  | .sub e ind _ => do
    let l ← exact ρ e
    if ind ≠ [] ∧ ind.length ≤ l.length ∧ ∀ j ∈ ind, j < l.length then
      some (ind.map (fun j => l[j]?.getD 0))
    else none

end Spec
end ETR
