import Verif.Model.Alloc
import Verif.Spec.Store

/-! Specification vocabulary for the functions that create vectors. -/

namespace ETR
variable {V : Type}

/-- Called with heap `h` and warnings `ws`, the function returns a vector with exactly the elements `l` and
the matrix parameter `mp`; the warnings printed afterwards are `ws'` and no memory that existed before
has been changed. -/
def Returns (m : AM V Unit) (h : Heap V) (ws ws' : List String) (l : List V) (mp : MP) : Prop :=
  ∃ h' d, m (ws, (h, {})) = (.ok (), (ws', (h', d))) ∧ Shows h' d l ∧ d.mp = mp ∧
    ∀ b, b < h.next → h'.blk b = h.blk b

/-- The function throws. -/
def Rejects (m : AM V Unit) (h : Heap V) (ws : List String) : Prop :=
  ∃ e st, m (ws, (h, {})) = (.thr e, st)

namespace Spec

/-- The value of a number used as a size, if it is at least 1: the integer part. -/
def asSize : Num → Option Nat
  | .n k => if 1 ≤ k then some k else none
  | .s (.i k) => if 1 ≤ k then some k.toNat else none
  | .s (.b v) => if v then some 1 else none
  | .s (.d (.fin q)) => if 1 ≤ q then some ⌊q⌋.toNat else none
  | .s (.d _) => none

/-- `a, a + 1, …` or `a, a - 1, …` up to `b`. -/
def intSeq (a b : Int) : List Int :=
  if a ≤ b then (List.range (b - a + 1).toNat).map (fun (i : Nat) => a + i)
  else (List.range (a - b + 1).toNat).map (fun (i : Nat) => a - i)

/-- The position of an element type in the order `bool`, `int`, `double`. -/
def rank : Ty → Nat
  | .bool => 0
  | .int => 1
  | .double => 2

/-- The widest of some element types. -/
def widest (ts : List Ty) : Ty :=
  if .double ∈ ts then .double else if .int ∈ ts then .int else .bool

/-- The same number as an element of a wider type: TRUE is 1, FALSE is 0. -/
def widen : Ty → Scal → Scal
  | .int, .b v => .i (if v then 1 else 0)
  | .double, .b v => .d (F64.ofInt (if v then 1 else 0))
  | .double, .i n => .d (F64.ofInt n)
  | _, v => v

end Spec
end ETR
