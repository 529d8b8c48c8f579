import Mathlib.Data.Rat.Floor
import Verif.Model.Subset

/-!
# What an index argument denotes

`positions n idx`: the (0-based) positions that an index argument denotes in a vector of `n` elements,
in order; `none` if the index argument has to be rejected.  Indices are 1-based, a fractional index
denotes its integer part, a mask is recycled.
-/

namespace ETR
namespace Spec

/-- A 1-based index into `n` elements. -/
def pos1 (n : Nat) (k : Int) : Option Nat := if 1 ≤ k ∧ k ≤ n then some (k - 1).toNat else none

/-- A real index: its integer part. -/
def posD (n : Nat) : F64 → Option Nat
  | .fin q => pos1 n ⌊q⌋
  | _ => none

/-- An element of an integer index vector, delivered as `int` or as a `double` of integral value. -/
def posI (n : Nat) : Scal → Option Nat
  | .i k => pos1 n k
  | .d x => posD n x
  | .b v => pos1 n (if v then 1 else 0)

/-- The positions selected by a recycled mask. -/
def posM (n : Nat) (mask : List Bool) : List Nat :=
  (List.range n).filter (fun i => mask[i % mask.length]? = some true)

/-- An index argument denotes a non-empty list of positions or nothing. -/
def positions (n : Nat) : Index → Option (List Nat)
  | .lgl b => if b ∧ 0 < n then some (List.range n) else none
  | .int k => (pos1 n k).map (fun j => [j])
  | .dbl x => (posD n x).map (fun j => [j])
  | .vlgl l => if posM n l = [] then none else some (posM n l)
  | .vint l => if l = [] then none else l.mapM (posI n)
  | .vdbl l => if l = [] then none else l.mapM (posD n)

variable {V : Type}

/-- The expression `e` has the elements `l`. -/
def Denotes (env : Env V) (e : Expr V) (l : List V) : Prop :=
  e.size env = l.length ∧ ∀ i (hi : i < l.length), e.el env i = .ok l[i]

/-- The list of the elements of `l` at the positions `r` is `l'`. -/
def Gather (l : List V) (r : List Nat) (l' : List V) : Prop :=
  l'.map some = r.map (fun j => l[j]?)

/-- Rejected: reading the subset throws at some element. -/
def ReadThrows (env : Env V) (e : Expr V) : Prop := ∃ i, i < e.size env ∧ ∃ m, e.el env i = .thr m

end Spec

/-- The index argument is one that C++ can pass: `int`s are in the range of `int`, integer index vectors
deliver `int`s or `double`s of integral value. -/
def Scal.Pass : Scal → Prop
  | .i k => InI32 k
  | .d (.fin q) => ∃ k : Int, q = k ∧ InI32 k
  | .d _ => False
  | .b _ => False

def Index.Pass : Index → Prop
  | .int k => InI32 k
  | .vint l => ∀ x ∈ l, x.Pass
  | _ => True

/-- The index arguments for which evaluation of the index has no undefined behaviour: the code
converts doubles to `int` and to `size_t` without a check, and computes `INT_MIN - 1`. -/
def Scal.NoUB : Scal → Prop
  | .i k => k ≠ -2147483648
  | .d (.fin q) => 1 ≤ q ∧ q < 2 ^ 31
  | _ => False

def F64.NoUB : F64 → Prop
  | .fin q => -1 < q ∧ q < 2 ^ 64
  | _ => False

def Index.NoUB : Index → Prop
  | .lgl _ => True
  | .int k => k ≠ -2147483648
  | .dbl (.fin q) => -2147483649 < q ∧ q < 2147483648
  | .dbl _ => False
  | .vlgl l => l ≠ []
  | .vint l => ∀ x ∈ l, x.NoUB
  | .vdbl l => ∀ x ∈ l, x.NoUB

end ETR
