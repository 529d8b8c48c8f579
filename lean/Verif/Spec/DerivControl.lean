import Verif.Spec.Deriv
import Verif.Model.DerivControl

/-! Specification vocabulary for derivatives of programs with branches and loops. -/

namespace ETR.Spec

/-- A number in a condition; there is none beyond the end of a vector. -/
def Vals.read? (E : Vals ℝ) : DRead ℝ → Option ℝ
  | .var x i => (E.var x)[i]?
  | .con c i => (E.con c)[i]?
  | .num v => some v

/-- The truth of a condition, if all numbers that it needs exist. -/
noncomputable def Vals.truth? (E : Vals ℝ) : DCond ℝ → Option Bool
  | .lt a b => match E.read? a, E.read? b with
    | some x, some y => some (decide (x < y))
    | _, _ => none
  | .le a b => match E.read? a, E.read? b with
    | some x, some y => some (decide (x ≤ y))
    | _, _ => none
  | .not c => (E.truth? c).map (!·)
  | .and c d => match E.truth? c with
    | some true => E.truth? d
    | r => r
  | .or c d => match E.truth? c with
    | some false => E.truth? d
    | r => r

/-- No comparison that is made is one of equal numbers. -/
def Sharp (E : Vals ℝ) : DCond ℝ → Prop
  | .lt a b => E.read? a ≠ E.read? b
  | .le a b => E.read? a ≠ E.read? b
  | .not c => Sharp E c
  | .and c d => Sharp E c ∧ (E.truth? c = some true → Sharp E d)
  | .or c d => Sharp E c ∧ (E.truth? c = some false → Sharp E d)

/-- What happens when a program runs: statements and tests. -/
inductive Happens
  | stmt (p : AV.Stmt ℝ)
  | test (c : DCond ℝ)

/-- The statements among them. -/
def stmtsOf : List Happens → List (AV.Stmt ℝ)
  | [] => []
  | .stmt p :: h => p :: stmtsOf h
  | .test _ :: h => stmtsOf h

/-- The values after a run. -/
noncomputable def after (k : DVar) (t : ℝ) (h : List Happens) (E : Vals ℝ) : Vals ℝ := devals k t (stmtsOf h) E

/-- `n` rounds, from round `i` on. -/
noncomputable def roundsOf (k : DVar) (t : ℝ) (f : Nat → Vals ℝ → Option (List Happens)) : Nat → Nat → Vals ℝ → Option (List Happens)
  | 0, _, _ => some []
  | n + 1, i, E => do
    let a ← f i E
    let b ← roundsOf k t f n (i + 1) (after k t a E)
    return a ++ b

/-- Rounds as long as the condition is true, at most `n` tests. -/
noncomputable def roundsWhile (k : DVar) (t : ℝ) (c : DCond ℝ) (f : Vals ℝ → Option (List Happens)) : Nat → Vals ℝ → Option (List Happens)
  | 0, _ => none
  | n + 1, E => do
    let v ← E.truth? c
    if v then
      let a ← f E
      let b ← roundsWhile k t c f n (after k t a E)
      return .test c :: (a ++ b)
    else return [.test c]

/-- The run of a program on values: `k` is the independent variable, `t` the change of its value. -/
noncomputable def happens (k : DVar) (t : ℝ) (fuel : Nat) : DProg ℝ → Vals ℝ → Option (List Happens)
  | .skip, _ => some []
  | .stmt p, _ => some [.stmt p]
  | .seq p q, E => do
    let a ← happens k t fuel p E
    let b ← happens k t fuel q (after k t a E)
    return a ++ b
  | .ite c p q, E => do
    let v ← E.truth? c
    let a ← (if v then happens k t fuel p E else happens k t fuel q E)
    return .test c :: a
  | .rounds n body, E => roundsOf k t (fun i => happens k t fuel (body i)) n 0 E
  | .loop c body, E => roundsWhile k t c (happens k t fuel body) fuel E

/-- The values after a program. -/
noncomputable def dprog (k : DVar) (t : ℝ) (fuel : Nat) (p : DProg ℝ) (E : Vals ℝ) : Option (Vals ℝ) :=
  (happens k t fuel p E).map (fun h => after k t h E)

/-- All statements of a run fit, and no test is at a point where its result changes. -/
def FitsRun (k : DVar) : List Happens → Vals ℝ → Prop
  | [], _ => True
  | .stmt p :: h, E => FitsKinds k E p ∧ FitsRun k h (deval k 0 p E)
  | .test c :: h, E => Sharp E c ∧ FitsRun k h E

end ETR.Spec
