import Verif.Spec.Control
import Verif.Spec.Shape
import Verif.Model.RCall

/-! # What a function called from R should return -/

namespace ETR
namespace Spec
variable {V W : Type}

/-- The arguments are the variables `0`, `1`, ... -/
def argState (ls : List (List V)) : PState V := ⟨ls.length, fun x => (ls[x]?).map (fun l => ⟨l, .std⟩), fun _ => none, fun _ => none⟩

/-- The shapes of the arguments. -/
def argShapes (rs : List (RObj W)) : Shapes :=
  ⟨rs.length, fun x => match rs[x]? with
    | some r => ⟨r.el.length, r.dim⟩
    | none => ⟨0, none⟩, fun _ => false⟩

/-- An R vector or an R matrix with the elements `l`; R has no matrices whose dimensions do not fit the elements. -/
def toR (ty : RTy) (back : V → W) (l : List V) : Option (Nat × Nat) → Out (RObj W)
  | none => .ok ⟨ty, l.map back, none⟩
  | some d => if l.length = d.1 * d.2 then .ok ⟨ty, l.map back, some d⟩ else .thr "size does not match ncol*nrow"

/-- One operation after the other. -/
def oneByOne : List (Cmd V) → Prog V
  | [] => .skip
  | c :: cs => .seq (.cmd c) (oneByOne cs)

end Spec
end ETR
