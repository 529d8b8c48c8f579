import Verif.Props.Program

/-! C105: exchange of statements on different variables. -/

namespace ETR
open Store

namespace Spec
variable {V : Type}

/-- The vectors that an expression reads. -/
def exprReads : Expr V → List Nat
  | .leaf x => [x]
  | .rvec _ _ => []
  | .scal _ => []
  | .un _ e => exprReads e
  | .bin _ a b => exprReads a ++ exprReads b
  | .sub e _ _ => exprReads e

/-- A statement that changes the vector `x` and reads the vectors `r` besides it. -/
inductive Changes : Cmd V → Nat → List Nat → Prop
  | assign {conv : V → Out V} {x : Nat} {e : Expr V} : Changes (.assign conv x e) x (exprReads e)
  | assignScalar {x : Nat} {v : V} : Changes (.assignScalar x v) x []
  | subAssign {conv : V → Out V} {same : Bool} {x : Nat} {ind : List Nat} {e : Expr V} :
      Changes (.subAssign conv same x ind e) x (exprReads e)
  | subAssignScalar {x : Nat} {ind : List Nat} {v : V} : Changes (.subAssignScalar x ind v) x []
  | setElem {x i : Nat} {v : V} : Changes (.setElem x i v) x []
  | resize {x n : Nat} : Changes (.resize x n) x []
  | fill {x : Nat} {v : V} : Changes (.fill x v) x []
  | fillVec {x y : Nat} : Changes (.fillVec x y) x [y]
  | pushBack {x : Nat} {v : V} : Changes (.pushBack x v) x []

/-- Two vectors without common memory: different ones that do not borrow the same array. -/
def Apart (p : PState V) (x y : Nat) : Prop :=
  x ≠ y ∧ ∀ β γ, p.bors x = some β → p.bors y = some γ → β.arr ≠ γ.arr

/-- A variable does not both own and borrow its elements. -/
def Clean (p : PState V) : Prop := ∀ x, p.vars x = none ∨ p.bors x = none

/-- The statements do not depend on each other: they change different vectors without common memory, and none reads what the other one
changes. -/
def Independent (p : PState V) (c d : Cmd V) : Prop :=
  ∃ x r y t, Changes c x r ∧ Changes d y t ∧ Apart p x y ∧ (∀ z ∈ r, Apart p y z) ∧ ∀ z ∈ t, Apart p x z

/-- `es` contains the statements of `cs` and those of `ds`, each in their order. -/
inductive Interleaved {α : Type} : List α → List α → List α → Prop
  | nil : Interleaved [] [] []
  | left {c : α} {cs ds es : List α} : Interleaved cs ds es → Interleaved (c :: cs) ds (c :: es)
  | right {d : α} {cs ds es : List α} : Interleaved cs ds es → Interleaved cs (d :: ds) (d :: es)

end Spec

open Spec
variable {V : Type}

theorem eval_reads {ρ ρ' : Nat → Option (List V)} : ∀ (e : Expr V), (∀ z ∈ exprReads e, ρ z = ρ' z) → eval ρ e = eval ρ' e
  | .leaf x, h => by simp only [eval, h x (by simp [exprReads])]
  | .rvec _ _, _ => rfl
  | .scal _, _ => rfl
  | .un f e, h => by simp only [eval, eval_reads e h]
  | .bin f a b, h => by
    simp only [eval, eval_reads a (fun z hz => h z (by simp [exprReads, hz])), eval_reads b (fun z hz => h z (by simp [exprReads, hz]))]
  | .sub e _ _, h => by simp only [eval, eval_reads e h]

/-- The right-hand side of an assignment. -/
def newValue (ρ : Nat → Option (List V)) (conv : V → Out V) (e : Expr V) : Option (List V) := do
  let l ← eval ρ e
  let l' ← l.mapM (fun v => val (conv v))
  lim l'

/-- What a statement makes of a vector that owns its elements, and how many temporaries it declares. -/
def effO (ρ : Nat → Option (List V)) (w : Var V) : Cmd V → Option (Var V × Nat)
  | .assign conv _ e => do
    let l ← newValue ρ conv e
    let k ← w.kind.assigned
    return (⟨l, k⟩, 0)
  | .assignScalar _ v => some (⟨[v], w.kind.resized⟩, 0)
  | .subAssign conv _ _ ind e => do
    let l ← newValue ρ conv e
    if l.length = ind.length ∧ ind.length ≤ w.val.length then
      let r ← writeAll w.val ind l
      return (⟨r, w.kind⟩, 1)
    else none
  | .subAssignScalar _ ind v =>
    if ind.length ≤ w.val.length then do
      let r ← writeAll w.val ind (List.replicate ind.length v)
      return (⟨r, w.kind⟩, 0)
    else none
  | .setElem _ i v => if i < w.val.length then some (⟨w.val.set i v, w.kind⟩, 0) else none
  | .resize _ n => if (w.kind = .std ∨ w.kind = .once) ∧ 1 ≤ n ∧ n ≤ w.val.length then some (⟨w.val.take n, w.kind⟩, 0) else none
  | .fill _ v => some (⟨List.replicate w.val.length v, w.kind⟩, 0)
  | .fillVec _ y => do
    let u ← ρ y
    if u.length = w.val.length then return (⟨u, w.kind⟩, 0) else none
  | .pushBack _ v => if (w.kind = .std ∨ w.kind = .once) ∧ w.val.length < 2 ^ 29 then some (⟨w.val ++ [v], w.kind⟩, 0) else none
  | _ => none

/-- What a statement makes of a vector that borrows the array `a`. -/
def effB (ρ : Nat → Option (List V)) (β : Bor) (a : List V) : Cmd V → Option (List V × Nat)
  | .assign conv _ e => do
    let l ← newValue ρ conv e
    if β.size ≤ l.length ∧ l.length ≤ β.cap then return (l, 0) else none
  | .assignScalar _ v => some ([v], 0)
  | .subAssign conv _ _ ind e => do
    let l ← newValue ρ conv e
    if l.length = ind.length ∧ ind.length ≤ β.size then
      let r ← writeAll (a.take β.size) ind l
      return (r, 1)
    else none
  | .subAssignScalar _ ind v =>
    if ind.length ≤ β.size then do
      let r ← writeAll (a.take β.size) ind (List.replicate ind.length v)
      return (r, 0)
    else none
  | .setElem _ i v => if i < β.size then some ((a.take β.size).set i v, 0) else none
  | .resize _ n => if 1 ≤ n ∧ n ≤ β.cap then some (a.take n, 0) else none
  | .fill _ v => some (List.replicate β.size v, 0)
  | .fillVec _ y => do
    let u ← ρ y
    if u.length = β.size then return (u, 0) else none
  | _ => none

theorem effO_reads {ρ ρ' : Nat → Option (List V)} {c : Cmd V} {x : Nat} {r : List Nat} (h : Changes c x r) (e : ∀ z ∈ r, ρ z = ρ' z) (w : Var V) :
    effO ρ w c = effO ρ' w c := by
  cases h <;> simp only [effO, newValue]
  case assign => rw [eval_reads _ e]
  case subAssign => rw [eval_reads _ e]
  case fillVec => rw [e _ (by simp)]

theorem effB_reads {ρ ρ' : Nat → Option (List V)} {c : Cmd V} {x : Nat} {r : List Nat} (h : Changes c x r) (e : ∀ z ∈ r, ρ z = ρ' z)
    (β : Bor) (a : List V) : effB ρ β a c = effB ρ' β a c := by
  cases h <;> simp only [effB, newValue]
  case assign => rw [eval_reads _ e]
  case subAssign => rw [eval_reads _ e]
  case fillVec => rw [e _ (by simp)]

theorem view_of_none {p : PState V} {x : Nat} (h : p.bors x = none) : p.view x = none := by simp [PState.view, h]

theorem step_of_none {zero : V} {p : PState V} {c : Cmd V} (h : stepBor p c = none) : step zero p c = stepOwn zero p c := by
  unfold step
  split
  · rename_i q hq; exact hq.symm
  · rename_i hq; rw [h, hq]

/-- A statement on a vector that owns its elements. -/
theorem step_own {zero : V} {p : PState V} {c : Cmd V} {x : Nat} {r : List Nat} (h : Changes c x r) {w : Var V} (hw : p.vars x = some w)
    (hb : p.bors x = none) : step zero p c = (effO p.lists w c).map fun v => { p.put x (some v.1) with next := p.next + v.2 } := by
  have hv := view_of_none hb
  cases h with
  | @fillVec x y =>
    rcases hy : p.vars y with _ | u
    · rcases hu : p.lists y with _ | u
      · simp [step, stepOwn, stepBor, effO, hw, hy, hu]
      · by_cases hl : u.length = w.val.length
        · simp [step, stepOwn, stepBor, effO, hw, hy, hu, hl]; rfl
        · simp [step, stepOwn, stepBor, effO, hw, hy, hu, hl]
    · have hu : p.lists y = some u.val := by simp [PState.lists, hy]
      by_cases hl : u.val.length = w.val.length
      · simp [step, stepOwn, effO, hw, hy, hu, hl]; rfl
      · simp [step, stepOwn, stepBor, effO, hw, hy, hu, hl]
  | @assign conv x e =>
    rw [step_of_none (by simp [stepBor, hv])]
    simp only [stepOwn, effO, newValue, hw, Option.bind_eq_bind, Option.bind_some, Option.bind_assoc]
    rcases eval p.lists e with _ | l
    · rfl
    simp only [Option.bind_some]
    rcases l.mapM (fun v => val (conv v)) with _ | l'
    · rfl
    simp only [Option.bind_some]
    rcases lim l' with _ | l''
    · rfl
    simp only [Option.bind_some]
    rcases w.kind.assigned with _ | k <;> rfl
  | assignScalar =>
    rw [step_of_none (by simp [stepBor, hv])]
    simp only [stepOwn, effO, hw, Option.bind_eq_bind, Option.bind_some]
    rfl
  | @subAssign conv same x ind e =>
    rw [step_of_none (by simp [stepBor, hv])]
    simp only [stepOwn, effO, newValue, hw, Option.bind_eq_bind, Option.bind_some, Option.bind_assoc]
    rcases eval p.lists e with _ | l
    · rfl
    simp only [Option.bind_some]
    rcases l.mapM (fun v => val (conv v)) with _ | l'
    · rfl
    simp only [Option.bind_some]
    unfold lim
    split
    · simp only [Option.bind_some]
      split
      · rcases writeAll w.val ind l' with _ | r <;> rfl
      · rfl
    · rfl
  | subAssignScalar =>
    rw [step_of_none (by simp [stepBor, hv])]
    simp only [stepOwn, effO, hw, Option.bind_eq_bind, Option.bind_some]
    split
    · rw [Option.map_bind]; rfl
    · rfl
  | setElem => rw [step_of_none (by simp [stepBor, hv])]; simp only [stepOwn, effO, hw, Option.bind_eq_bind, Option.bind_some]; split <;> rfl
  | resize => rw [step_of_none (by simp [stepBor, hv])]; simp only [stepOwn, effO, hw, Option.bind_eq_bind, Option.bind_some]; split <;> rfl
  | fill => rw [step_of_none (by simp [stepBor, hv])]; simp only [stepOwn, effO, hw, Option.bind_eq_bind, Option.bind_some]; rfl
  | pushBack => rw [step_of_none (by simp [stepBor])]; simp only [stepOwn, effO, hw, Option.bind_eq_bind, Option.bind_some]; split <;> rfl

/-- A statement on a vector that borrows. -/
theorem step_bor {zero : V} {p : PState V} {c : Cmd V} {x : Nat} {r : List Nat} (h : Changes c x r) {β : Bor} {a : List V}
    (hw : p.vars x = none) (hb : p.view x = some (β, a)) :
    step zero p c = (effB p.lists β a c).map fun v => { p.write x β a v.1 with next := p.next + v.2 } := by
  have ho : stepOwn zero p c = none := by cases h <;> simp [stepOwn, hw]
  unfold step
  rw [ho]
  simp only
  cases h with
  | @fillVec x y =>
    simp only [stepBor, effB, hw, hb, Option.bind_eq_bind, Option.bind_some]
    rcases p.lists y with _ | u
    · rfl
    · simp only [Option.bind_some]; split <;> rfl
  | @assign conv x e =>
    simp only [stepBor, effB, newValue, hb, Option.bind_eq_bind, Option.bind_some, Option.bind_assoc]
    rcases eval p.lists e with _ | l
    · rfl
    simp only [Option.bind_some]
    rcases l.mapM (fun v => val (conv v)) with _ | l'
    · rfl
    simp only [Option.bind_some]
    rcases lim l' with _ | l''
    · rfl
    simp only [Option.bind_some]
    split <;> rfl
  | @subAssign conv same x ind e =>
    simp only [stepBor, effB, newValue, hb, Option.bind_eq_bind, Option.bind_some, Option.bind_assoc]
    rcases eval p.lists e with _ | l
    · rfl
    simp only [Option.bind_some]
    rcases l.mapM (fun v => val (conv v)) with _ | l'
    · rfl
    simp only [Option.bind_some]
    unfold lim
    split
    · simp only [Option.bind_some]
      split
      · rcases writeAll (a.take β.size) ind l' with _ | r <;> rfl
      · rfl
    · rfl
  | subAssignScalar =>
    simp only [stepBor, effB, hb, Option.bind_eq_bind, Option.bind_some]
    split
    · rw [Option.map_bind]; rfl
    · rfl
  | assignScalar => simp only [stepBor, effB, hb, Option.bind_eq_bind, Option.bind_some]; rfl
  | setElem => simp only [stepBor, effB, hb, Option.bind_eq_bind, Option.bind_some]; split <;> rfl
  | resize => simp only [stepBor, effB, hb, Option.bind_eq_bind, Option.bind_some]; split <;> rfl
  | fill => simp only [stepBor, effB, hb, Option.bind_eq_bind, Option.bind_some]; rfl
  | pushBack => rfl

/-- A statement on a vector that does not exist has no meaning. -/
theorem step_absent {zero : V} {p : PState V} {c : Cmd V} {x : Nat} {r : List Nat} (h : Changes c x r)
    (hw : p.vars x = none) (hb : p.view x = none) : step zero p c = none := by
  have ho : stepOwn zero p c = none := by cases h <;> simp [stepOwn, hw]
  unfold step
  rw [ho]
  cases h <;> simp [stepBor, hw, hb]

/-- The change of one vector: it owns its elements, or it shows a part of the array it borrows, or it is as before. -/
inductive Upd (V : Type) where
  | own (v : Var V) (k : Nat)
  | bor (β : Bor) (a l : List V) (k : Nat)
  | skip (k : Nat)

/-- The state after the change of `x`. -/
def act (p : PState V) (x : Nat) : Upd V → PState V
  | .own v k => { p.put x (some v) with next := p.next + k }
  | .bor β a l k => { p.write x β a l with next := p.next + k }
  | .skip k => { p with next := p.next + k }

/-- The change that a statement makes. -/
def eff (ρ : Nat → Option (List V)) (c : Cmd V) : Option (Var V) → Option (Bor × List V) → Option (Upd V)
  | some w, _ => (effO ρ w c).map fun v => .own v.1 v.2
  | none, some (β, a) => (effB ρ β a c).map fun v => .bor β a v.1 v.2
  | none, none => none

theorem step_eff {zero : V} {p : PState V} (hp : Clean p) {c : Cmd V} {x : Nat} {r : List Nat} (h : Changes c x r) :
    step zero p c = (eff p.lists c (p.vars x) (p.view x)).map (act p x) := by
  rcases hw : p.vars x with _ | w
  · rcases hb : p.view x with _ | ⟨β, a⟩
    · rw [step_absent h hw hb]; rfl
    · rw [step_bor h hw hb]; simp only [eff, Option.map_map]; rfl
  · have hb : p.bors x = none := (hp x).resolve_left (by rw [hw]; simp)
    rw [step_own h hw hb]; simp only [eff, Option.map_map]; rfl

theorem eff_reads {ρ ρ' : Nat → Option (List V)} {c : Cmd V} {x : Nat} {r : List Nat} (h : Changes c x r) (e : ∀ z ∈ r, ρ z = ρ' z)
    (w : Option (Var V)) (b : Option (Bor × List V)) : eff ρ c w b = eff ρ' c w b := by
  rcases w with _ | w
  · rcases b with _ | ⟨β, a⟩
    · rfl
    · simp only [eff, effB_reads h e]
  · simp only [eff, effO_reads h e]

/-- The change fits to the vector: its elements are owned, or they are those of the array that the vector borrows. -/
def Fit (p : PState V) (x : Nat) : Upd V → Prop
  | .own _ _ => p.bors x = none
  | .bor β a _ _ => p.vars x = none ∧ p.view x = some (β, a)
  | .skip _ => True

theorem eff_fit {p : PState V} (hp : Clean p) {ρ : Nat → Option (List V)} {c : Cmd V} {x : Nat} {u : Upd V}
    (h : eff ρ c (p.vars x) (p.view x) = some u) : Fit p x u := by
  rcases hw : p.vars x with _ | w
  · rcases hb : p.view x with _ | ⟨β, a⟩
    · rw [hw, hb] at h; cases h
    · rw [hw, hb] at h
      obtain ⟨v, _, rfl⟩ := Option.map_eq_some_iff.1 h
      exact ⟨hw, hb⟩
  · rw [hw] at h
    obtain ⟨v, _, rfl⟩ := Option.map_eq_some_iff.1 h
    exact (hp x).resolve_left (by rw [hw]; simp)

theorem bors_of_view {p : PState V} {x : Nat} {β : Bor} {a : List V} (h : p.view x = some (β, a)) : p.bors x = some β ∧ p.arrays β.arr = some a := by
  unfold PState.view at h
  simp only [Option.bind_eq_bind, Option.bind_eq_some_iff, Option.pure_def, Option.some.injEq] at h
  obtain ⟨b, h1, l, h2, h3⟩ := h
  cases h3
  exact ⟨h1, h2⟩

theorem act_vars {p : PState V} {x z : Nat} (u : Upd V) (h : z ≠ x) : (act p x u).vars z = p.vars z := by
  cases u <;> simp [act, PState.put, PState.write, h]

theorem act_bors {p : PState V} {x z : Nat} (u : Upd V) (h : z ≠ x) : (act p x u).bors z = p.bors z := by
  cases u <;> simp [act, PState.put, PState.write, h]

theorem act_view {p : PState V} {x z : Nat} {u : Upd V} (hu : Fit p x u) (h : Apart p x z) : (act p x u).view z = p.view z := by
  cases u with
  | own v k => rfl
  | skip k => rfl
  | bor β a l k =>
    obtain ⟨_, hv⟩ := hu
    have hz := h.1.symm
    unfold PState.view
    rw [act_bors _ hz]
    rcases hb : p.bors z with _ | γ
    · rfl
    · have := h.2 β γ (bors_of_view hv).1 hb
      simp [act, PState.write, Ne.symm this]

theorem act_lists {p : PState V} {x z : Nat} {u : Upd V} (hu : Fit p x u) (h : Apart p x z) : (act p x u).lists z = p.lists z := by
  unfold PState.lists
  rw [act_vars _ h.1.symm, act_view hu h]

theorem act_clean {p : PState V} (hp : Clean p) {x : Nat} {u : Upd V} (hu : Fit p x u) : Clean (act p x u) := by
  intro z
  by_cases hz : z = x
  · subst hz
    cases u with
    | own v k => exact .inr hu
    | bor β a l k => exact .inl hu.1
    | skip k => exact hp z
  · rw [act_vars _ hz, act_bors _ hz]; exact hp z

theorem act_comm {p : PState V} {x y : Nat} {u u' : Upd V} (hu : Fit p x u) (hu' : Fit p y u') (h : Apart p x y) :
    act (act p x u) y u' = act (act p y u') x u := by
  obtain ⟨hne, ha⟩ := h
  have key : ∀ {α : Type} (f : Nat → α) (s t : α) {m n : Nat}, m ≠ n →
      (fun z => if z = n then t else if z = m then s else f z) = fun z => if z = m then s else if z = n then t else f z := by
    intro α f s t m n hmn
    funext z
    by_cases h1 : z = n
    · subst h1; simp [Ne.symm hmn]
    · simp [h1]
  cases u with
  | own v k =>
    cases u' with
    | own v' k' => simp only [act, PState.put, key p.vars _ _ hne, Nat.add_right_comm]
    | bor γ b l k' => simp only [act, PState.put, PState.write, Nat.add_right_comm]
    | skip k' => simp only [act, PState.put, Nat.add_right_comm]
  | skip k =>
    cases u' with
    | own v' k' => simp only [act, PState.put, Nat.add_right_comm]
    | bor γ b l k' => simp only [act, PState.write, Nat.add_right_comm]
    | skip k' => simp only [act, Nat.add_right_comm]
  | bor β a l k =>
    cases u' with
    | own v' k' => simp only [act, PState.put, PState.write, Nat.add_right_comm]
    | skip k' => simp only [act, PState.write, Nat.add_right_comm]
    | bor γ b l' k' =>
      have h2 := ha β γ (bors_of_view hu.2).1 (bors_of_view hu'.2).1
      simp only [act, PState.write, key p.bors _ _ hne, key p.arrays _ _ h2, Nat.add_right_comm]

theorem Spec.Apart.symm {p : PState V} {x y : Nat} (h : Apart p x y) : Apart p y x :=
  ⟨h.1.symm, fun β γ h1 h2 => (h.2 γ β h2 h1).symm⟩

/-- Two statements on vectors without common memory, of which none reads what the other one writes, can be exchanged. -/
theorem run_exchange {zero : V} {p q : PState V} (hp : Clean p) {c d : Cmd V} {x y : Nat} {r t : List Nat} (hc : Changes c x r) (hd : Changes d y t)
    (hxy : Apart p x y) (hr : ∀ z ∈ r, Apart p y z) (ht : ∀ z ∈ t, Apart p x z) {cs : List (Cmd V)}
    (h : Spec.run zero (c :: d :: cs) p = some q) : Spec.run zero (d :: c :: cs) p = some q := by
  simp only [Spec.run, Option.bind_eq_bind] at h ⊢
  obtain ⟨p1, h1, h⟩ := Option.bind_eq_some_iff.1 h
  obtain ⟨p2, h2, h⟩ := Option.bind_eq_some_iff.1 h
  rw [step_eff hp hc] at h1
  obtain ⟨u, hu, rfl⟩ := Option.map_eq_some_iff.1 h1
  have fu := eff_fit hp hu
  rw [step_eff (act_clean hp fu) hd, act_vars u hxy.1.symm, act_view fu hxy,
    eff_reads hd (ρ' := p.lists) (fun z hz => act_lists fu (ht z hz))] at h2
  obtain ⟨u', hu', rfl⟩ := Option.map_eq_some_iff.1 h2
  have fu' := eff_fit hp hu'
  rw [step_eff hp hd, hu', Option.map_some, Option.bind_some, step_eff (act_clean hp fu') hc, act_vars u' hxy.1, act_view fu' hxy.symm,
    eff_reads hc (ρ' := p.lists) (fun z hz => act_lists fu' (hr z hz)), hu, Option.map_some, Option.bind_some, ← act_comm fu fu' hxy]
  exact h

theorem Mach.Rep.clean {s : Mach V} {p : PState V} (R : Mach.Rep s p) : Clean p := by
  intro x
  rcases hv : p.vars x with _ | v
  · exact .inl rfl
  · rcases hb : p.bors x with _ | β
    · exact .inr rfl
    · obtain ⟨l, _, L⟩ := R.b.bors x β hb
      have h1 := (R.vars x v hv).bor
      rw [L.bor] at h1
      cases h1

theorem naive_append {zero : V} : ∀ {as bs : List (Cmd V)} {p : PState V}, Spec.run zero (as ++ bs) p = Spec.run zero as p >>= Spec.run zero bs
  | [], _, _ => rfl
  | a :: as, bs, p => by
    simp only [List.cons_append, Spec.run, Option.bind_eq_bind, Option.bind_assoc]
    congr 1
    funext q
    exact naive_append

theorem clean_of_run {zero : V} {ls : List (List V)} {cs : List (Cmd V)} {p : PState V} (h : Spec.run zero cs (PState.caller ls) = some p) :
    Clean p := by
  obtain ⟨s0, _, R0⟩ := Mach.Rep.caller (zero := zero) ls
  obtain ⟨s, _, R⟩ := R0.run h
  exact R.clean

/-- C105: two neighbouring statements of a program that change different vectors without common memory, of which none reads what the
other one changes, can be exchanged: the library runs both programs, and at the end every vector and every array of the
caller has the same elements.

Missing: programs outside of the naive semantics (exceptions of either statement, the operations excluded in C18). -/
theorem C105_partial (zero : V) {ls : List (List V)} {pre cs : List (Cmd V)} {p q : PState V}
    (hpre : Spec.run zero pre (PState.caller ls) = some p) {c d : Cmd V} {x y : Nat} {r t : List Nat} (hc : Changes c x r) (hd : Changes d y t)
    (hxy : Apart p x y) (hr : ∀ z ∈ r, Apart p y z) (ht : ∀ z ∈ t, Apart p x z) (h : Spec.run zero (c :: d :: cs) p = some q) :
    ∃ s s', Mach.runOk zero (ls.map .callerArray ++ (pre ++ c :: d :: cs)) Mach.start = (.ok (), s) ∧
      Mach.runOk zero (ls.map .callerArray ++ (pre ++ d :: c :: cs)) Mach.start = (.ok (), s') ∧
      (∀ z l, q.lists z = some l → Mach.ShowsVar s z l ∧ Mach.ShowsVar s' z l) ∧
      ∀ a l, q.arrays a = some l → ∀ i (hi : i < l.length), s.heap.load (some a) i = .ok l[i] ∧ s'.heap.load (some a) i = .ok l[i] := by
  have h' := run_exchange (clean_of_run hpre) hc hd hxy hr ht h
  obtain ⟨s, e, h1, h2⟩ := Mach.C18_program_agreement_partial zero ls (pre ++ c :: d :: cs) q (by rw [naive_append, hpre]; exact h)
  obtain ⟨s', e', h1', h2'⟩ := Mach.C18_program_agreement_partial zero ls (pre ++ d :: c :: cs) q (by rw [naive_append, hpre]; exact h')
  exact ⟨s, s', e, e', fun z l hz => ⟨h1 z l hz, h1' z l hz⟩, fun a l ha i hi => ⟨h2 a l ha i hi, h2' a l ha i hi⟩⟩

/-- `borrow a(arr, 4); borrow b(brr, 2); vec c = a + b;` -/
def exchangePre : List (Cmd Int) :=
  [.declBorrow (some 0) 4, .declBorrow (some 1) 2, .declExpr .ok (.bin (fun a b => .ok (a + b)) (.leaf 0) (.leaf 1))]

/-- The statements `b = b * 2` (an element function) and `c(2, 4) = a(1, 1)` can be exchanged. -/
example : ∃ p q, Spec.run 0 exchangePre (PState.caller [[1, 2, 3, 4], [5, 6]]) = some p ∧
    Apart p 1 2 ∧ (∀ z ∈ [1], Apart p 2 z) ∧ (∀ z ∈ [0], Apart p 1 z) ∧
    Spec.run 0 [.assign .ok 1 (.un (fun a => .ok (a * 2)) (.leaf 1)), .subAssign .ok false 2 [1, 3] (.sub (.leaf 0) [0, 0] {})] p = some q ∧
    q.lists 1 = some [10, 12] ∧ q.lists 2 = some [6, 1, 8, 1] := by
  refine ⟨_, _, rfl, ⟨by decide, fun β γ h1 h2 => ?_⟩, fun z hz => ?_, fun z hz => ?_, rfl, rfl, rfl⟩
  · cases h2
  · obtain rfl := List.mem_singleton.1 hz
    exact ⟨by decide, fun β γ h1 h2 => by cases h1⟩
  · obtain rfl := List.mem_singleton.1 hz
    refine ⟨by decide, fun β γ h1 h2 => ?_⟩
    cases h1; cases h2; decide

/-- Statements on vectors do not change which array a vector borrows. -/
theorem apart_act {p : PState V} {x : Nat} {u : Upd V} (hu : Fit p x u) {y z : Nat} (h : Apart p y z) : Apart (act p x u) y z := by
  refine ⟨h.1, fun β γ hβ hγ => ?_⟩
  have key : ∀ w δ, (act p x u).bors w = some δ → ∃ δ', p.bors w = some δ' ∧ δ'.arr = δ.arr := by
    intro w δ hw
    by_cases hx : w = x
    · subst hx
      cases u with
      | own v k => exact ⟨δ, hw, rfl⟩
      | skip k => exact ⟨δ, hw, rfl⟩
      | bor β' a l k =>
        simp only [act, PState.write, if_true, Option.some.injEq] at hw
        exact ⟨β', (bors_of_view hu.2).1, by rw [← hw]⟩
    · rw [act_bors _ hx] at hw; exact ⟨δ, hw, rfl⟩
  obtain ⟨β', h1, e1⟩ := key y β hβ
  obtain ⟨γ', h2, e2⟩ := key z γ hγ
  rw [← e1, ← e2]; exact h.2 β' γ' h1 h2

theorem step_keeps {zero : V} {p p' : PState V} (hp : Clean p) {c : Cmd V} {x : Nat} {r : List Nat} (hc : Changes c x r)
    (h : step zero p c = some p') : Clean p' ∧ ∀ a b, Independent p a b → Independent p' a b := by
  rw [step_eff hp hc] at h
  obtain ⟨u, hu, rfl⟩ := Option.map_eq_some_iff.1 h
  have fu := eff_fit hp hu
  exact ⟨act_clean hp fu, fun a b ⟨y, r, z, t, h1, h2, h3, h4, h5⟩ =>
    ⟨y, r, z, t, h1, h2, apart_act fu h3, fun w hw => apart_act fu (h4 w hw), fun w hw => apart_act fu (h5 w hw)⟩⟩

/-- A statement can be moved before statements that do not depend on it. -/
theorem run_first {zero : V} {d : Cmd V} {es : List (Cmd V)} : ∀ {cs : List (Cmd V)} {p q : PState V}, Clean p → (∀ c ∈ cs, Independent p c d) →
    Spec.run zero (cs ++ d :: es) p = some q → Spec.run zero (d :: (cs ++ es)) p = some q
  | [], _, _, _, _, h => h
  | c :: cs, p, q, hp, hf, h => by
    obtain ⟨x, r, y, t, hc, hd, h3, h4, h5⟩ := hf c (by simp)
    refine run_exchange hp hc hd h3 h4 h5 ?_
    simp only [List.cons_append, Spec.run, Option.bind_eq_bind] at h
    obtain ⟨p1, h1, h⟩ := Option.bind_eq_some_iff.1 h
    obtain ⟨k1, k2⟩ := step_keeps hp hc h1
    rw [Spec.run, Option.bind_eq_bind, h1, Option.bind_some]
    exact run_first k1 (fun c' hc' => k2 _ _ (hf c' (by simp [hc']))) h

/-- Statements of two groups that do not depend on each other can be executed in every order that keeps the order inside of the groups. -/
theorem run_interleaved {zero : V} {cs ds es : List (Cmd V)} (hi : Interleaved cs ds es) : ∀ {p q : PState V}, Clean p →
    (∀ c ∈ cs, ∃ x r, Changes c x r) → (∀ d ∈ ds, ∃ x r, Changes d x r) → (∀ c ∈ cs, ∀ d ∈ ds, Independent p c d) →
    Spec.run zero (cs ++ ds) p = some q → Spec.run zero es p = some q := by
  induction hi with
  | nil => intro p q _ _ _ _ h; exact h
  | @left c cs ds es _ ih =>
    intro p q hp h1 h2 hf h
    simp only [List.cons_append, Spec.run, Option.bind_eq_bind] at h ⊢
    obtain ⟨p1, e1, h⟩ := Option.bind_eq_some_iff.1 h
    obtain ⟨x, r, hc⟩ := h1 c (by simp)
    obtain ⟨k1, k2⟩ := step_keeps hp hc e1
    rw [e1, Option.bind_some]
    exact ih k1 (fun a ha => h1 a (by simp [ha])) h2 (fun a ha b hb => k2 _ _ (hf a (by simp [ha]) b hb)) h
  | @right d cs ds es _ ih =>
    intro p q hp h1 h2 hf h
    have h := run_first hp (fun c hc => hf c hc d (by simp)) h
    simp only [Spec.run, Option.bind_eq_bind] at h ⊢
    obtain ⟨p1, e1, h⟩ := Option.bind_eq_some_iff.1 h
    obtain ⟨x, r, hd⟩ := h2 d (by simp)
    obtain ⟨k1, k2⟩ := step_keeps hp hd e1
    rw [e1, Option.bind_some]
    exact ih k1 h1 (fun a ha => h2 a (by simp [ha])) (fun a ha b hb => k2 _ _ (hf a ha b (by simp [hb]))) h

/-- C105: the statements of two parts of a program that do not depend on each other (for example the work of two threads that take
turns) can be executed in every order that keeps the order inside of the parts.  Every order ends with the same elements in every vector
and in every array of the caller. -/
theorem C105_interleaved_partial (zero : V) {ls : List (List V)} {pre cs ds es : List (Cmd V)} {p q : PState V}
    (hpre : Spec.run zero pre (PState.caller ls) = some p) (hc : ∀ c ∈ cs, ∃ x r, Changes c x r) (hd : ∀ d ∈ ds, ∃ x r, Changes d x r)
    (hf : ∀ c ∈ cs, ∀ d ∈ ds, Independent p c d) (h : Spec.run zero (cs ++ ds) p = some q) (hi : Interleaved cs ds es) :
    ∃ s s', Mach.runOk zero (ls.map .callerArray ++ (pre ++ (cs ++ ds))) Mach.start = (.ok (), s) ∧
      Mach.runOk zero (ls.map .callerArray ++ (pre ++ es)) Mach.start = (.ok (), s') ∧
      (∀ z l, q.lists z = some l → Mach.ShowsVar s z l ∧ Mach.ShowsVar s' z l) ∧
      ∀ a l, q.arrays a = some l → ∀ i (hi : i < l.length), s.heap.load (some a) i = .ok l[i] ∧ s'.heap.load (some a) i = .ok l[i] := by
  have h' := run_interleaved hi (clean_of_run hpre) hc hd hf h
  obtain ⟨s, e, h1, h2⟩ := Mach.C18_program_agreement_partial zero ls (pre ++ (cs ++ ds)) q (by rw [naive_append, hpre]; exact h)
  obtain ⟨s', e', h1', h2'⟩ := Mach.C18_program_agreement_partial zero ls (pre ++ es) q (by rw [naive_append, hpre]; exact h')
  exact ⟨s, s', e, e', fun z l hz => ⟨h1 z l hz, h1' z l hz⟩, fun a l ha i hi => ⟨h2 a l ha i hi, h2' a l ha i hi⟩⟩

/-- `b = 2 * b; b(1) = 0;` and `c(2, 4) = a(1, 1); c(1) = 7;` in turns. -/
example : ∃ p q, Spec.run 0 exchangePre (PState.caller [[1, 2, 3, 4], [5, 6]]) = some p ∧
    (let cs : List (Cmd Int) := [.assign .ok 1 (.un (fun a => .ok (a * 2)) (.leaf 1)), .setElem 1 0 0]
     let ds : List (Cmd Int) := [.subAssign .ok false 2 [1, 3] (.sub (.leaf 0) [0, 0] {}), .setElem 2 0 7]
     (∀ c ∈ cs, ∃ x r, Changes c x r) ∧ (∀ d ∈ ds, ∃ x r, Changes d x r) ∧ (∀ c ∈ cs, ∀ d ∈ ds, Independent p c d) ∧
     (∃ es, Interleaved cs ds es ∧ es = [cs[0], ds[0], ds[1], cs[1]]) ∧
     Spec.run 0 (cs ++ ds) p = some q) ∧ q.lists 1 = some [0, 12] ∧ q.lists 2 = some [7, 1, 8, 1] := by
  refine ⟨_, _, rfl, ⟨?_, ?_, ?_, ⟨_, .left (.right (.right (.left .nil))), rfl⟩, rfl⟩, rfl, rfl⟩
  · intro c hc
    simp only [List.mem_cons, List.not_mem_nil, or_false] at hc
    rcases hc with rfl | rfl
    · exact ⟨_, _, .assign⟩
    · exact ⟨_, _, .setElem⟩
  · intro c hc
    simp only [List.mem_cons, List.not_mem_nil, or_false] at hc
    rcases hc with rfl | rfl
    · exact ⟨_, _, .subAssign⟩
    · exact ⟨_, _, .setElem⟩
  · intro c hc d hd
    have h12 : ∀ {p : PState Int}, p.bors 2 = none → Apart p 1 2 := fun h => ⟨by decide, fun β γ _ h2 => by rw [h] at h2; cases h2⟩
    simp only [List.mem_cons, List.not_mem_nil, or_false] at hc hd
    rcases hc with rfl | rfl <;> rcases hd with rfl | rfl
    · refine ⟨_, _, _, _, .assign, .subAssign, h12 rfl, fun z hz => ?_, fun z hz => ?_⟩
      · obtain rfl := List.mem_singleton.1 hz; exact (h12 rfl).symm
      · obtain rfl := List.mem_singleton.1 hz
        refine ⟨by decide, fun β γ h1 h2 => ?_⟩
        cases h1; cases h2; decide
    · refine ⟨_, _, _, _, .assign, .setElem, h12 rfl, fun z hz => ?_, fun z hz => by cases hz⟩
      obtain rfl := List.mem_singleton.1 hz; exact (h12 rfl).symm
    · refine ⟨_, _, _, _, .setElem, .subAssign, h12 rfl, fun z hz => (by cases hz), fun z hz => ?_⟩
      obtain rfl := List.mem_singleton.1 hz
      refine ⟨by decide, fun β γ h1 h2 => ?_⟩
      cases h1; cases h2; decide
    · exact ⟨_, _, _, _, .setElem, .setElem, h12 rfl, fun z hz => (by cases hz), fun z hz => by cases hz⟩

theorem act_act {p : PState V} {x : Nat} {conv conv' : V → Out V} {e e' : Expr V} {u u' : Upd V}
    (hu : eff p.lists (.assign conv x e) (p.vars x) (p.view x) = some u)
    (hu' : eff p.lists (.assign conv' x e') ((act p x u).vars x) ((act p x u).view x) = some u') :
    ∃ v, eff p.lists (.assign conv' x e') (p.vars x) (p.view x) = some v ∧ act p x v = act (act p x u) x u' := by
  rcases hw : p.vars x with _ | w
  · rcases hb : p.view x with _ | ⟨β, a⟩
    · rw [hw, hb] at hu; cases hu
    · rw [hw, hb] at hu
      obtain ⟨⟨l, k⟩, h1, rfl⟩ := Option.map_eq_some_iff.1 hu
      have hview : (act p x (.bor β a l k)).view x = some ({ β with size := l.length }, l ++ a.drop l.length) := by
        simp [PState.view, act, PState.write]
      have hvars : (act p x (.bor β a l k)).vars x = none := hw
      simp only [hview, hvars] at hu'
      obtain ⟨⟨l', k'⟩, h2, rfl⟩ := Option.map_eq_some_iff.1 hu'
      simp only [effB, Option.bind_eq_bind, Option.bind_eq_some_iff, Option.pure_def] at h1 h2
      obtain ⟨m, _, h1⟩ := h1
      obtain ⟨m', e2, h2⟩ := h2
      split at h1
      · rename_i c1
        split at h2
        · rename_i c2
          simp only [Option.some.injEq, Prod.mk.injEq] at h1 h2
          obtain ⟨rfl, rfl⟩ := h1
          obtain ⟨rfl, rfl⟩ := h2
          refine ⟨.bor β a m' 0, ?_, ?_⟩
          · simp only [eff, effB, e2, Option.bind_eq_bind, Option.bind_some]
            rw [if_pos ⟨by omega, c2.2⟩]
            rfl
          · have hd : (m ++ a.drop m.length).drop m'.length = a.drop m'.length := by
              rw [List.drop_append, List.drop_eq_nil_of_le c2.1, List.nil_append, List.drop_drop]
              congr 1
              have : m.length ≤ m'.length := c2.1
              omega
            simp only [act, PState.write, hd, Nat.add_zero]
            congr 1
            · funext z; by_cases hz : z = x <;> simp [hz]
            · funext z; by_cases hz : z = β.arr <;> simp [hz]
        · cases h2
      · cases h1
  · rw [hw] at hu
    obtain ⟨⟨v, k⟩, h1, rfl⟩ := Option.map_eq_some_iff.1 hu
    have hvars : (act p x (.own v k)).vars x = some v := by simp [act, PState.put]
    rw [hvars] at hu'
    obtain ⟨⟨v', k'⟩, h2, rfl⟩ := Option.map_eq_some_iff.1 hu'
    simp only [effO, Option.bind_eq_bind, Option.bind_eq_some_iff, Option.pure_def, Option.some.injEq, Prod.mk.injEq] at h1 h2
    obtain ⟨m, _, n, e1, rfl, rfl⟩ := h1
    obtain ⟨m', e2, n', e3, rfl, rfl⟩ := h2
    refine ⟨.own ⟨m', n'⟩ 0, ?_, ?_⟩
    · have : w.kind.assigned = some n' := by
        cases hk : w.kind <;> rw [hk] at e1 <;> simp [Kind.assigned] at e1 <;> subst e1 <;> simp [Kind.assigned] at e3 <;> subst e3 <;> rfl
      simp only [eff, effO, e2, this, Option.bind_eq_bind, Option.bind_some]
      rfl
    · simp only [act, PState.put, Nat.add_zero]
      congr 1
      funext z; by_cases hz : z = x <;> simp [hz]

/-- An assignment whose value is not read before the next assignment to the same vector can be left out. -/
theorem run_overwritten {zero : V} {p q : PState V} (hp : Clean p) {conv conv' : V → Out V} {x : Nat} {e e' : Expr V}
    (hr : ∀ z ∈ exprReads e', Apart p x z) {cs : List (Cmd V)} (h : Spec.run zero (.assign conv x e :: .assign conv' x e' :: cs) p = some q) :
    Spec.run zero (.assign conv' x e' :: cs) p = some q := by
  simp only [Spec.run, Option.bind_eq_bind] at h ⊢
  obtain ⟨p1, h1, h⟩ := Option.bind_eq_some_iff.1 h
  obtain ⟨p2, h2, h⟩ := Option.bind_eq_some_iff.1 h
  rw [step_eff hp .assign] at h1
  obtain ⟨u, hu, rfl⟩ := Option.map_eq_some_iff.1 h1
  have fu := eff_fit hp hu
  rw [step_eff (act_clean hp fu) .assign, eff_reads .assign (ρ' := p.lists) (fun z hz => act_lists fu (hr z hz))] at h2
  obtain ⟨u', hu', rfl⟩ := Option.map_eq_some_iff.1 h2
  obtain ⟨v, hv, e1⟩ := act_act hu hu'
  rw [step_eff hp .assign, hv, Option.map_some, Option.bind_some, e1]
  exact h

/-- C105: an assignment to a vector followed by an assignment to the same vector that does not read it (nor a vector on the same
array) can be left out: with and without it every vector and every array of the caller has the same elements at the end. -/
theorem C105_overwritten_partial (zero : V) {ls : List (List V)} {pre cs : List (Cmd V)} {p q : PState V}
    (hpre : Spec.run zero pre (PState.caller ls) = some p) {conv conv' : V → Out V} {x : Nat} {e e' : Expr V}
    (hr : ∀ z ∈ exprReads e', Apart p x z) (h : Spec.run zero (.assign conv x e :: .assign conv' x e' :: cs) p = some q) :
    ∃ s s', Mach.runOk zero (ls.map .callerArray ++ (pre ++ .assign conv x e :: .assign conv' x e' :: cs)) Mach.start = (.ok (), s) ∧
      Mach.runOk zero (ls.map .callerArray ++ (pre ++ .assign conv' x e' :: cs)) Mach.start = (.ok (), s') ∧
      (∀ z l, q.lists z = some l → Mach.ShowsVar s z l ∧ Mach.ShowsVar s' z l) ∧
      ∀ a l, q.arrays a = some l → ∀ i (hi : i < l.length), s.heap.load (some a) i = .ok l[i] ∧ s'.heap.load (some a) i = .ok l[i] := by
  have h' := run_overwritten (clean_of_run hpre) hr h
  obtain ⟨s, e1, h1, h2⟩ := Mach.C18_program_agreement_partial zero ls (pre ++ .assign conv x e :: .assign conv' x e' :: cs) q
    (by rw [naive_append, hpre]; exact h)
  obtain ⟨s', e1', h1', h2'⟩ := Mach.C18_program_agreement_partial zero ls (pre ++ .assign conv' x e' :: cs) q (by rw [naive_append, hpre]; exact h')
  exact ⟨s, s', e1, e1', fun z l hz => ⟨h1 z l hz, h1' z l hz⟩, fun a l ha i hi => ⟨h2 a l ha i hi, h2' a l ha i hi⟩⟩

/-- Of `b = 2 * b; b = a(3, 4)` the first one can be left out. -/
example : ∃ p q, Spec.run 0 exchangePre (PState.caller [[1, 2, 3, 4], [5, 6]]) = some p ∧
    (∀ z ∈ exprReads (.sub (.leaf 0) [2, 3] {} : Expr Int), Apart p 1 z) ∧
    Spec.run 0 [.assign .ok 1 (.un (fun a => .ok (a * 2)) (.leaf 1)), .assign .ok 1 (.sub (.leaf 0) [2, 3] {})] p = some q ∧
    q.lists 1 = some [3, 4] := by
  refine ⟨_, _, rfl, fun z hz => ?_, rfl, rfl⟩
  obtain rfl := List.mem_singleton.1 hz
  refine ⟨by decide, fun β γ h1 h2 => ?_⟩
  cases h1; cases h2; decide

/-- C105 is false for vectors without memory of their own (C12): in `Vec<int> a; a = c(1, 2); a = c(3, 4);` the first assignment, which is
overwritten, cannot be left out: with it the program throws, without it `a` is `3 4`. -/
theorem C105_overwritten_false :
    (Mach.runOk (0 : Int) [.declDefault, .assign .ok 0 (.rvec [1, 2] {}), .assign .ok 0 (.rvec [3, 4] {})] Mach.start).1 =
      .thr "try to delete nullptr" ∧
    (Mach.runOk (0 : Int) [.declDefault, .assign .ok 0 (.rvec [3, 4] {})] Mach.start).1 = .ok () ∧
    (List.range 2).map ((Mach.runOk (0 : Int) [.declDefault, .assign .ok 0 (.rvec [3, 4] {})] Mach.start).2.env.get 0) = [.ok 3, .ok 4] := by
  decide +kernel

/-- C105 is false when the memory does not suffice: let the memory suffice for one more block only.  The first one of the two statements
`a = c(1, 2)` and `b = c(3, 4)` is performed, the second one throws an exception. -/
theorem C105_memory_false :
    let pre : List (Cmd Int) := [.declSize 1, .declSize 1]
    let c : Cmd Int := .assign .ok 0 (.rvec [1, 2] {})
    let d : Cmd Int := .assign .ok 1 (.rvec [3, 4] {})
    let s := (Mach.runAll 0 (pre ++ [c, d]) (Mach.start [false, false, false, true])).2
    let s' := (Mach.runAll 0 (pre ++ [d, c]) (Mach.start [false, false, false, true])).2
    s.env.get 0 0 = .ok 1 ∧ s.env.get 1 0 = .ok 0 ∧ s'.env.get 0 0 = .ok 0 ∧ s'.env.get 1 0 = .ok 3 := by
  decide +kernel

end ETR
