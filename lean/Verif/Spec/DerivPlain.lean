import Verif.Spec.Deriv
import Verif.Model.DerivF64
import Verif.Model.Typed
import Verif.Model.DerivControl

/-!
# Formulas without derivatives

The formula of a statement as a formula over plain vectors of doubles, which is evaluated by the operators of the library without
derivatives.
-/

namespace ETR
namespace Spec

/-- The operator for vectors without derivatives. -/
def plainOp : DOp → BinO
  | .add => .plus
  | .sub => .minus
  | .mul => .times
  | .div => .divide
  | .eq => .eq
  | .ne => .ne
  | .lt => .lt
  | .gt => .gt
  | .le => .le
  | .ge => .ge

/-- There are no named vectors. -/
def nowhere : Env Scal := ⟨fun _ => 0, fun _ _ => .ub .oob, fun _ => {}⟩

/-- The formula over plain vectors with the elements `E`. -/
def plainOf (sin : F64 → F64) (E : Vals F64) : DExpr → Expr Scal
  | .con c => .rvec ((E.con c).map .d) {}
  | .var x => .rvec ((E.var x).map .d) {}
  | .bin op l r => .bin (plainOp op).f (plainOf sin E l) (plainOf sin E r)
  | .sin e => .un (UnO.fn sin).f (plainOf sin E e)

/-- The elements of a plain formula as doubles are `l`. -/
def PlainValues (e : Expr Scal) (l : List F64) : Prop :=
  e.size nowhere = l.length ∧ ∀ i (hi : i < l.length), ∃ v, e.el nowhere i = .ok v ∧ v.toD = l[i]

/-- One statement without derivatives: the new value of a variable is the value of the formula. -/
def PlainStep (sin : F64 → F64) (E : Vals F64) : AV.Stmt F64 → Vals F64 → Prop
  | .setCon c l, E' => E' = { E with con := fun y => if y = c then l else E.con y }
  | .assign x e, E' => ∃ l, PlainValues (plainOf sin E e) l ∧ E' = { E with var := fun y => if y = x then l else E.var y }

/-- A program without derivatives. -/
inductive PlainRun (sin : F64 → F64) : Vals F64 → List (AV.Stmt F64) → Vals F64 → Prop
  | nil (E) : PlainRun sin E [] E
  | cons {E E1 E2 p ps} : PlainStep sin E p E1 → PlainRun sin E1 ps E2 → PlainRun sin E (p :: ps) E2

/-- A number in a condition; there is none beyond the end of a vector. -/
def numberIn (E : Vals F64) : DRead F64 → Option F64
  | .var x i => (E.var x)[i]?
  | .con c i => (E.con c)[i]?
  | .num v => some v

/-- The truth of a condition on doubles, if all numbers that it needs exist. -/
def condIn (E : Vals F64) : DCond F64 → Option Bool
  | .lt a b => do return F64.lt (← numberIn E a) (← numberIn E b)
  | .le a b => do return F64.le (← numberIn E a) (← numberIn E b)
  | .not c => do return !(← condIn E c)
  | .and c d => do if ← condIn E c then condIn E d else return false
  | .or c d => do if ← condIn E c then return true else condIn E d

/-- A program with branches and loops without derivatives. -/
inductive PlainProg (sin : F64 → F64) : DProg F64 → Vals F64 → Vals F64 → Prop
  | skip (E) : PlainProg sin .skip E E
  | stmt {p E E'} : PlainStep sin E p E' → PlainProg sin (.stmt p) E E'
  | seq {p q E E1 E2} : PlainProg sin p E E1 → PlainProg sin q E1 E2 → PlainProg sin (.seq p q) E E2
  | ifTrue {c p q E E'} : condIn E c = some true → PlainProg sin p E E' → PlainProg sin (.ite c p q) E E'
  | ifFalse {c p q E E'} : condIn E c = some false → PlainProg sin q E E' → PlainProg sin (.ite c p q) E E'
  | noRound {body E} : PlainProg sin (.rounds 0 body) E E
  | round {n body E E1 E2} : PlainProg sin (body 0) E E1 → PlainProg sin (.rounds n (fun i => body (i + 1))) E1 E2 →
      PlainProg sin (.rounds (n + 1) body) E E2
  | stop {c body E} : condIn E c = some false → PlainProg sin (.loop c body) E E
  | more {c body E E1 E2} : condIn E c = some true → PlainProg sin body E E1 → PlainProg sin (.loop c body) E1 E2 →
      PlainProg sin (.loop c body) E E2

/-- All assignments are to buffer variables. -/
def ToBuffers : DProg F64 → Prop
  | .skip => True
  | .stmt (.setCon _ _) => True
  | .stmt (.assign x _) => x.1 = .buffer
  | .seq p q => ToBuffers p ∧ ToBuffers q
  | .ite _ p q => ToBuffers p ∧ ToBuffers q
  | .rounds _ body => ∀ i, ToBuffers (body i)
  | .loop _ body => ToBuffers body

/-- The constants and variables have these elements. -/
def Holds (s : AV F64) (E : Vals F64) : Prop := (∀ c, (s.con c).Is (E.con c)) ∧ ∀ x, (s.val x).Is (E.var x)

end Spec
end ETR
