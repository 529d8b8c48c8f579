import Verif.Spec.Shape

/-!
# Lengths and dimensions in programs that append

`push_back` has an effect on a vector unless it was initialised from a temporary and has not been given a new
value or length since.  `Growth.step` says how a command changes the shapes and the set of these vectors.
-/

namespace ETR
namespace Spec
variable {V : Type}

/-- The shapes of all variables, and the variables to which `push_back` appends nothing. -/
structure Growth where
  shapes : Shapes
  stuck : Nat → Bool

namespace Growth

def start : Growth := ⟨Shapes.start, fun _ => false⟩

/-- The variable accepts new elements. -/
def free (G : Growth) (x : Nat) : Nat → Bool := fun y => if y = x then false else G.stuck y

/-- The variables that accept no new elements after a command that ends normally. -/
def stuckAfter (G : Growth) : Cmd V → Nat → Bool
  | .declTemp _ _ => fun y => if y = G.shapes.next + 1 then true else G.stuck y
  | .assign _ x _ | .assignScalar x _ | .resize x _ | .destroy x => G.free x
  | .subAssign _ same x ind _ => if same ∧ (G.shapes.sh x).len < ind.length then G.free x else G.stuck
  | .storeAssign x y => if (G.shapes.sh x).len < (G.shapes.sh y).len then G.free x else G.stuck
  | _ => G.stuck

/-- Effect of a command that ends normally. -/
def step (G : Growth) : Cmd V → Growth
  | .pushBack x _ =>
    if G.stuck x then G
    else { G with shapes := G.shapes.put x ⟨(G.shapes.sh x).len + 1, (G.shapes.sh x).dim⟩ }
  | c => ⟨G.shapes.step c, G.stuckAfter c⟩

def after (G : Growth) (cs : List (Cmd V)) : Growth := cs.foldl step G

/-- The command respects the shapes, see `Shapes.Fits`; nothing is appended to a matrix. -/
def Fits (G : Growth) : Cmd V → Prop
  | .pushBack x _ => G.stuck x = false → (G.shapes.sh x).dim = none
  | c => G.shapes.Fits c

def FitsAll (G : Growth) : List (Cmd V) → Prop
  | [] => True
  | c :: cs => G.Fits c ∧ FitsAll (G.step c) cs

end Growth
end Spec
end ETR
