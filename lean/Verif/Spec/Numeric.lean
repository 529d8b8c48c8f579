import Verif.Spec.Typed

/-!
# Formulas on doubles over other kinds of numbers

A formula of `+`, `-`, `*`, `/`, unary minus and subsets is read over a given kind of numbers, with the recycling of R: over the
rational numbers (the exact value), over rational numbers with an error bound, and so on.  Nothing here mentions how the library computes.
-/

namespace ETR
namespace Spec

/-- A kind of numbers: what a rational number becomes, unary minus and the four operations; `none`: no value.  `cmp`: the outcome of a
comparison, where it is certain. -/
structure Numbers (α : Type) where
  num : ℚ → Option α
  neg : α → Option α
  op : BinO → α → α → Option α
  cmp : BinO → α → α → Option Bool := fun _ _ _ => none

/-- The list, if all its members have a value. -/
def allSome {α : Type} : List (Option α) → Option (List α)
  | [] => some []
  | none :: _ => none
  | some a :: l => (allSome l).map (a :: ·)

/-- The value of a formula on vectors with the elements `η`. -/
def overL {α : Type} (N : Numbers α) (η : Nat → Option (List α)) : TForm → Option (List α)
  | .leaf .double x => do
    let l ← η x
    if l = [] then none else some l
  | .leaf _ _ => none
  | .scal (.d (.fin q)) => allSome [N.num q]
  | .scal _ => none
  | .un .neg e => do
    let l ← overL N η e
    allSome (l.map N.neg)
  | .un (.fn _) _ => none
  | .bin o l r => do
    let a ← overL N η l
    let b ← overL N η r
    allSome ((List.range (max a.length b.length)).map fun i => do
      let u ← a[i % a.length]?
      let v ← b[i % b.length]?
      N.op o u v)
  | .sub e ind _ => do
    let l ← overL N η e
    if ind ≠ [] ∧ ind.length ≤ l.length then allSome (ind.map (l[·]?)) else none

/-- The value of a formula on vectors of doubles `ρ`. -/
def over {α : Type} (N : Numbers α) (ρ : Nat → List ℚ) : TForm → Option (List α) :=
  overL N (fun x => allSome ((ρ x).map N.num))

/-- The exact result of an operation. -/
def opQ : BinO → ℚ → ℚ → Option ℚ
  | .plus, p, q => some (p + q)
  | .minus, p, q => some (p - q)
  | .times, p, q => some (p * q)
  | .divide, p, q => if q = 0 then none else some (p / q)
  | _, _, _ => none

/-- The outcome of a comparison.  Numbers count as equal if they differ by less than `1/1000`. -/
def cmpQ : BinO → ℚ → ℚ → Option Bool
  | .lt, p, q => some (decide (p < q))
  | .le, p, q => some (decide (p ≤ q))
  | .gt, p, q => some (decide (q < p))
  | .ge, p, q => some (decide (q ≤ p))
  | .eq, p, q => some (decide (|p - q| < 1 / 1000))
  | .ne, p, q => some (decide (1 / 1000 < |p - q|))
  | _, _, _ => none

/-- The rational numbers. -/
def rational : Numbers ℚ where
  num := some
  neg q := some (-q)
  op := opQ
  cmp := cmpQ

/-- A result with the exact value `v`, computed from operands so inaccurate that it is off by at most `d`: rounding adds half a
unit in the last place, at most a part of `2^53` or `2^(-1075)`.  No value if the result may overflow. -/
def settle (v d : ℚ) : Option (ℚ × ℚ) :=
  if |v| + d ≤ 2 ^ 1023 then some (v, d + ((|v| + d) / 2 ^ 53 + 1 / 2 ^ 1075)) else none

/-- The comparison of a number with exact value `v` and error at most `d` with zero: `some true` if it is positive, `some false` if it
is negative, whatever the error is. -/
def sign (v d : ℚ) : Option Bool := if 0 < v ∧ d < v then some true else if v < 0 ∧ d < -v then some false else none

/-- Exact value and error bound.  Comparisons are certain where the errors cannot change them. -/
def withError : Numbers (ℚ × ℚ) where
  num q := some (q, 0)
  neg a := some (-a.1, a.2)
  op
    | .plus, a, b => settle (a.1 + b.1) (a.2 + b.2)
    | .minus, a, b => settle (a.1 - b.1) (a.2 + b.2)
    | .times, a, b => settle (a.1 * b.1) (|a.1| * b.2 + |b.1| * a.2 + a.2 * b.2)
    | .divide, a, b =>
      if b.1 ≠ 0 ∧ b.2 < |b.1| then settle (a.1 / b.1) ((|a.1| * b.2 + |b.1| * a.2) / (|b.1| * (|b.1| - b.2))) else none
    | _, _, _ => none
  cmp
    | .lt, a, b | .le, a, b => sign (b.1 - a.1) (a.2 + b.2)
    | .gt, a, b | .ge, a, b => sign (a.1 - b.1) (a.2 + b.2)
    | .eq, a, b => do
      let c ← settle (a.1 - b.1) (a.2 + b.2)
      sign (1 / 1000 - |c.1|) (c.2 + 1 / 2 ^ 60)
    | .ne, a, b => do
      let c ← settle (a.1 - b.1) (a.2 + b.2)
      sign (|c.1| - 1 / 1000) (c.2 + 1 / 2 ^ 60)
    | _, _, _ => none

/-- A positive number far from overflow and underflow. -/
def moderate (v : ℚ) (n : Nat) : Option (ℚ × Nat) :=
  if 1 / 2 ^ 1000 ≤ v ∧ v ≤ 2 ^ 1000 ∧ n ≤ 2 ^ 40 then some (v, n) else none

/-- Exact value, positive, and the number of roundings that it went through. -/
def counted : Numbers (ℚ × Nat) where
  num q := moderate q 0
  neg _ := none
  op
    | .plus, a, b => moderate (a.1 + b.1) (max a.2 b.2 + 1)
    | .times, a, b => moderate (a.1 * b.1) (a.2 + b.2 + 1)
    | .divide, a, b => moderate (a.1 / b.1) (a.2 + b.2 + 1)
    | _, _, _ => none
  cmp
    | .lt, a, b | .le, a, b => sign (b.1 - a.1) (a.1 * (a.2 / 2 ^ 52) + b.1 * (b.2 / 2 ^ 52))
    | .gt, a, b | .ge, a, b => sign (a.1 - b.1) (a.1 * (a.2 / 2 ^ 52) + b.1 * (b.2 / 2 ^ 52))
    | _, _, _ => none

end Spec
end ETR
