import Verif.Props.Commute
import Verif.Lemmas.Rejects

/-! C105: exchange of statements of programs that catch exceptions. -/

namespace ETR
open Store

namespace Spec
variable {V : Type}

/-- One statement: it is performed, or it is rejected with an exception that the program catches. -/
def attempt (zero : V) (p : PState V) (c : Cmd V) : Option (Option String × PState V) :=
  match step zero p c with
  | some q => some (none, q)
  | none => (rejects p c).map fun r => (some r.1, r.2)

/-- Statements, one after the other; the exceptions are caught. -/
def attempts (zero : V) : List (Cmd V) → PState V → Option (List (Option String) × PState V)
  | [], p => some ([], p)
  | c :: cs, p =>
    (attempt zero p c).bind fun r => (attempts zero cs r.2).map fun t => (r.1 :: t.1, t.2)

end Spec

namespace Mach
variable {V : Type}

/-- `try { … } catch (…)` around one statement: the message, if there is an exception. -/
def caught {σ : Type} (m : M σ Unit) : M σ (Option String) := fun s =>
  match m s with
  | (.ok _, s') => (.ok none, s')
  | (.thr e, s') => (.ok (some e), s')
  | (.ub k, s') => (.ub k, s')

/-- A program that catches the exceptions of its statements. -/
def catchAll (zero : V) : List (Cmd V) → M (Mach V) (List (Option String))
  | [] => pure []
  | c :: cs => do
    let o ← caught (exec zero c)
    let os ← catchAll zero cs
    return o :: os

end Mach

open Spec
variable {V : Type}

theorem cells_reads {ρ ρ' : Nat → Option (List V)} : ∀ (e : Expr V), (∀ z ∈ exprReads e, ρ z = ρ' z) → cellsOf ρ e = cellsOf ρ' e
  | .leaf x, h => by simp only [cellsOf, h x (by simp [exprReads])]
  | .rvec _ _, _ => rfl
  | .scal _, _ => rfl
  | .un f e, h => by simp only [cellsOf, cells_reads e h]
  | .bin f a b, h => by
    simp only [cellsOf, cells_reads a (fun z hz => h z (by simp [exprReads, hz])), cells_reads b (fun z hz => h z (by simp [exprReads, hz]))]
  | .sub e _ _, h => by simp only [cellsOf, cells_reads e h]

/-- The elements of a vector. -/
def seen : Option (Var V) → Option (Bor × List V) → Option (List V)
  | some w, _ => some w.val
  | none, b => b.map fun r => r.2.take r.1.size

theorem lists_seen (p : PState V) (x : Nat) : p.lists x = seen (p.vars x) (p.view x) := by
  unfold PState.lists seen
  cases p.vars x <;> rfl

/-- The vector shows other elements. -/
def showing (k : Nat) (l : List V) : Option (Var V) → Option (Bor × List V) → Upd V
  | some w, _ => .own ⟨l, w.kind⟩ k
  | none, some (β, a) => .bor β a l k
  | none, none => .skip k

theorem shown_act (p : PState V) (x : Nat) (l : List V) (k : Nat) :
    { p.shown x l with next := p.next + k } = act p x (showing k l (p.vars x) (p.view x)) := by
  unfold PState.shown showing
  rcases p.vars x with _ | w
  · rcases p.view x with _ | ⟨β, a⟩ <;> rfl
  · rfl

/-- The right-hand side of an assignment, as cells. -/
def cellsR (ρ : Nat → Option (List V)) (conv : V → Out V) (e : Expr V) : Option (List (Out V)) := (cellsOf ρ e).map (·.map (· >>= conv))

/-- A rejected assignment. -/
def effA (ρ : Nat → Option (List V)) (conv : V → Out V) (e : Expr V) : Option (Var V) → Option (Bor × List V) → Option String
  | some v, _ => do
    let D ← cellsR ρ conv e
    if (v.kind = .std ∨ v.kind = .stolen) ∧ D.length ≤ 2 ^ 30 then failure D else none
  | none, some (β, _) => do
    let D ← cellsR ρ conv e
    if β.cap < D.length then some "number of items to replace is not a multiple of replacement length"
    else if D.length ≤ 2 ^ 30 then
      match failure D with
      | some m => some m
      | none => do
        let _ ← values D
        if D.length < β.size then some "size cannot be increased above the size of the borrowed object" else none
    else none
  | none, none => none

/-- Rejected writes. -/
def effW (k : Nat) (ind : List Nat) (vs : List V) (w : Option (Var V)) (b : Option (Bor × List V)) : Option (String × Upd V) := do
  let l ← seen w b
  if ind.length ≤ l.length ∧ ∃ j ∈ ind, l.length ≤ j then some (beyond, showing k (writeUpTo l ind vs) w b) else none

/-- The exception and the change that a rejected statement makes. -/
def effR (ρ : Nat → Option (List V)) (w : Option (Var V)) (b : Option (Bor × List V)) : Cmd V → Option (String × Upd V)
  | .setElem _ i _ => do
    let l ← seen w b
    if l ≠ [] ∧ l.length ≤ i then some (beyond, .skip 0)
    else if l = [] ∧ w.isSome then some ("No memory was allocated", .skip 0)
    else none
  | .resize _ n => do
    let _ ← seen w b
    if n = 0 then some ("Size has to be larger than 0", .skip 0)
    else if w.isSome then none
    else do
      let β ← b.map Prod.fst
      if β.cap < n then some ("Cannot resize Borrow element above size of borrowed object", .skip 0) else none
  | .fillVec _ y => do
    let a ← seen w b
    let u ← ρ y
    if u.length ≠ a.length then some ("cannot use fill with vectors of different lengths", .skip 0) else none
  | .assign conv _ e => do
    let _ ← seen w b
    match e with
    | .leaf y => if (ρ y).map List.length = some 0 then some ("Size has to be larger than 0", .skip 0) else (effA ρ conv e w b).map (·, .skip 0)
    | e => (effA ρ conv e w b).map (·, .skip 0)
  | .subAssign conv _ _ ind e => do
    let D ← cellsR ρ conv e
    if D.length ≠ ind.length then some ("number of items to replace is not a multiple of replacement length", .skip 1)
    else if D.length ≤ 2 ^ 30 then
      match failure D with
      | some m => some (m, .skip 1)
      | none => do
        let L ← values D
        effW 1 ind L w b
    else none
  | .subAssignScalar _ ind v => effW 0 ind (List.replicate ind.length v) w b
  | _ => none

theorem act_skip (p : PState V) (x : Nat) : act p x (.skip 0) = p := rfl

theorem bors_view {p : PState V} {x : Nat} {l : List V} (hv : p.vars x = none) (h : p.lists x = some l) :
    ∃ β a, p.view x = some (β, a) ∧ p.bors x = some β := by
  unfold PState.lists at h
  rw [hv] at h
  obtain ⟨⟨β, a⟩, h1, _⟩ := Option.map_eq_some_iff.1 h
  exact ⟨β, a, h1, (bors_of_view h1).1⟩

theorem assignRejects_eff {p : PState V} {x : Nat} {l : List V} (hl : p.lists x = some l) (conv : V → Out V) (e : Expr V) :
    assignRejects p conv x e = (effA p.lists conv e (p.vars x) (p.view x)).map (·, p) := by
  rcases hv : p.vars x with _ | w
  · obtain ⟨β, a, h1, h2⟩ := bors_view hv hl
    simp only [assignRejects, effA, h1, h2, hv, rhs, cellsR]
    rcases (cellsOf p.lists e) with _ | C
    · rfl
    · simp only [Option.map_some, Option.bind_eq_bind, Option.bind_some]
      split
      · rfl
      · split
        · rcases failure (C.map (· >>= conv)) with _ | m
          · rcases values (C.map (· >>= conv)) with _ | L
            · rfl
            · simp only [Option.bind_some]
              split <;> rfl
          · rfl
        · rfl
  · simp only [assignRejects, effA, hv, rhs, cellsR]
    rcases (cellsOf p.lists e) with _ | C
    · rfl
    · simp only [Option.map_some, Option.bind_eq_bind, Option.bind_some]
      split <;> rfl

theorem writeRejects_eff (p : PState V) (x : Nat) (k : Nat) (ind : List Nat) (vs : List V) :
    (writeRejects p x ind vs).map (fun r => (r.1, { r.2 with next := p.next + k })) =
      (effW k ind vs (p.vars x) (p.view x)).map fun r => (r.1, act p x r.2) := by
  simp only [writeRejects, effW, lists_seen]
  rcases seen (p.vars x) (p.view x) with _ | l
  · rfl
  · simp only [Option.bind_eq_bind, Option.bind_some]
    split
    · simp only [Option.map_some, shown_act]
    · rfl

theorem shown_same_next (p : PState V) (x : Nat) (l : List V) : (p.shown x l).next = p.next := by
  unfold PState.shown
  rcases p.vars x with _ | w
  · rcases p.view x with _ | ⟨β, a⟩ <;> rfl
  · rfl

theorem rejects_eff {p : PState V} {c : Cmd V} {x : Nat} {r : List Nat} (h : Changes c x r) :
    rejects p c = (effR p.lists (p.vars x) (p.view x) c).map fun t => (t.1, act p x t.2) := by
  have opt : ∀ {α : Type} {o : Option α} {f g : α → Option (String × PState V)}, (∀ a, o = some a → f a = g a) → o.bind f = o.bind g := by
    intro α o f g h
    rcases o with _ | a
    · rfl
    · exact h a rfl
  have mp : ∀ {α : Type} (o : Option α) (f : α → Option (String × Upd V)), (o.bind f).map (fun t => (t.1, act p x t.2)) =
      o.bind fun a => (f a).map fun t => (t.1, act p x t.2) := by
    intro α o f
    rcases o with _ | a <;> rfl
  cases h with
  | assign =>
    rename_i conv e
    simp only [rejects, effR, Option.bind_eq_bind, ← lists_seen, mp]
    refine opt fun l hl => ?_
    cases e
    case leaf y =>
      simp only
      split
      · rfl
      · rw [assignRejects_eff hl, Option.map_map]; rfl
    all_goals simp only [assignRejects_eff hl, Option.map_map]; rfl
  | assignScalar => rfl
  | subAssign =>
    rename_i conv same ind e
    simp only [rejects, effR, Option.bind_eq_bind, mp]
    refine opt fun D hD => ?_
    split
    · rfl
    · split
      · rcases failure D with _ | m
        · simp only
          rw [mp]
          refine opt fun L hL => ?_
          rw [← writeRejects_eff]
          rcases writeRejects p x ind L with _ | ⟨m, q⟩ <;> rfl
        · rfl
      · rfl
  | subAssignScalar =>
    rename_i ind v
    simp only [rejects, effR]
    rw [← writeRejects_eff]
    simp only [writeRejects, Option.bind_eq_bind]
    rcases p.lists x with _ | l
    · rfl
    · simp only [Option.bind_some]
      split
      · simp only [Option.map_some, Nat.add_zero]
        rw [← shown_same_next p x]
      · rfl
  | setElem =>
    simp only [rejects, effR, Option.bind_eq_bind, ← lists_seen, mp]
    refine opt fun l hl => ?_
    split
    · rfl
    · split <;> rfl
  | resize =>
    simp only [rejects, effR, Option.bind_eq_bind, ← lists_seen, mp]
    refine opt fun l hl => ?_
    split
    · rfl
    · split
      · rfl
      · rename_i _ hs
        have hv : p.vars x = none := by rcases hw : p.vars x with _ | w <;> simp_all
        obtain ⟨β, a, h1, h2⟩ := bors_view hv hl
        rw [h1, h2]
        simp only [Option.map_some, Option.bind_some]
        split <;> rfl
  | fill => rfl
  | fillVec =>
    rename_i y
    simp only [rejects, effR, Option.bind_eq_bind, ← lists_seen, mp]
    refine opt fun l hl => ?_
    refine opt fun u hu => ?_
    split <;> rfl
  | pushBack => rfl

theorem effR_reads {ρ ρ' : Nat → Option (List V)} {c : Cmd V} {x : Nat} {r : List Nat} (h : Changes c x r) (e : ∀ z ∈ r, ρ z = ρ' z)
    (w : Option (Var V)) (b : Option (Bor × List V)) : effR ρ w b c = effR ρ' w b c := by
  have key : ∀ {conv : V → Out V} {ex : Expr V}, (∀ z ∈ exprReads ex, ρ z = ρ' z) → effA ρ conv ex w b = effA ρ' conv ex w b := by
    intro conv ex h
    rcases w with _ | w
    · rcases b with _ | ⟨β, a⟩
      · rfl
      · simp only [effA, cellsR, cells_reads ex h]
    · simp only [effA, cellsR, cells_reads ex h]
  cases h
  case assign =>
    rename_i conv ex
    simp only [effR]
    cases ex
    case leaf y => simp only [key e, e y (by simp [exprReads])]
    all_goals simp only [key e]
  case subAssign =>
    rename_i conv same ind ex
    simp only [effR, cellsR, cells_reads ex e]
  case fillVec => simp only [effR, e _ (List.mem_singleton.2 rfl)]
  all_goals rfl

/-- The outcome and the change of a statement. -/
def effX (ρ : Nat → Option (List V)) (c : Cmd V) (w : Option (Var V)) (b : Option (Bor × List V)) : Option (Option String × Upd V) :=
  match eff ρ c w b with
  | some u => some (none, u)
  | none => (effR ρ w b c).map fun r => (some r.1, r.2)

theorem attempt_eff {zero : V} {p : PState V} (hp : Clean p) {c : Cmd V} {x : Nat} {r : List Nat} (h : Changes c x r) :
    attempt zero p c = (effX p.lists c (p.vars x) (p.view x)).map fun t => (t.1, act p x t.2) := by
  unfold attempt effX
  rw [step_eff hp h, rejects_eff h]
  rcases eff p.lists c (p.vars x) (p.view x) with _ | u
  · simp only [Option.map_none, Option.map_map]; rfl
  · rfl

theorem effX_reads {ρ ρ' : Nat → Option (List V)} {c : Cmd V} {x : Nat} {r : List Nat} (h : Changes c x r) (e : ∀ z ∈ r, ρ z = ρ' z)
    (w : Option (Var V)) (b : Option (Bor × List V)) : effX ρ c w b = effX ρ' c w b := by
  simp only [effX, eff_reads h e, effR_reads h e]

theorem showing_fit {p : PState V} (hp : Clean p) {x k : Nat} {l : List V} : Fit p x (showing k l (p.vars x) (p.view x)) := by
  rcases hw : p.vars x with _ | w
  · rcases hb : p.view x with _ | ⟨β, a⟩
    · trivial
    · exact ⟨hw, hb⟩
  · exact (hp x).resolve_left (by rw [hw]; simp)

theorem effR_fit {p : PState V} (hp : Clean p) {ρ : Nat → Option (List V)} {c : Cmd V} {x : Nat} {m : String} {u : Upd V}
    (h : effR ρ (p.vars x) (p.view x) c = some (m, u)) : Fit p x u := by
  have hw : ∀ {k ind} {vs : List V}, effW k ind vs (p.vars x) (p.view x) = some (m, u) → Fit p x u := by
    intro k ind vs h
    simp only [effW, Option.bind_eq_bind, Option.bind_eq_some_iff] at h
    obtain ⟨l, _, h⟩ := h
    split at h
    · cases h; exact showing_fit hp
    · cases h
  cases c <;> simp only [effR, Option.bind_eq_bind, Option.bind_eq_some_iff] at h
  case setElem =>
    obtain ⟨l, _, h⟩ := h
    split at h
    · cases h; trivial
    · split at h
      · cases h; trivial
      · cases h
  case resize =>
    obtain ⟨l, _, h⟩ := h
    split at h
    · cases h; trivial
    · split at h
      · cases h
      · obtain ⟨β, _, h⟩ := Option.bind_eq_some_iff.1 h
        split at h
        · cases h; trivial
        · cases h
  case fillVec =>
    obtain ⟨l, _, v, _, h⟩ := h
    split at h
    · cases h; trivial
    · cases h
  case assign =>
    obtain ⟨l, _, h⟩ := h
    split at h
    · split at h
      · cases h; trivial
      · obtain ⟨s, _, h⟩ := Option.map_eq_some_iff.1 h
        cases h; trivial
    · obtain ⟨s, _, h⟩ := Option.map_eq_some_iff.1 h
      cases h; trivial
  case subAssign =>
    obtain ⟨l, _, h⟩ := h
    split at h
    · cases h; trivial
    · split at h
      · split at h
        · cases h; trivial
        · obtain ⟨β, _, h⟩ := Option.bind_eq_some_iff.1 h
          exact hw h
      · cases h
  case subAssignScalar => exact hw h
  all_goals cases h

theorem effX_fit {p : PState V} (hp : Clean p) {ρ : Nat → Option (List V)} {c : Cmd V} {x : Nat} {o : Option String} {u : Upd V}
    (h : effX ρ c (p.vars x) (p.view x) = some (o, u)) : Fit p x u := by
  unfold effX at h
  split at h
  · rename_i h1
    cases h; exact eff_fit hp h1
  · obtain ⟨⟨m, v⟩, h1, h⟩ := Option.map_eq_some_iff.1 h
    cases h; exact effR_fit hp h1

theorem attempts_cons {zero : V} {c : Cmd V} {cs : List (Cmd V)} {p q : PState V} {os : List (Option String)} :
    attempts zero (c :: cs) p = some (os, q) ↔
      ∃ o p1 os', attempt zero p c = some (o, p1) ∧ attempts zero cs p1 = some (os', q) ∧ os = o :: os' := by
  simp only [attempts, Option.bind_eq_some_iff, Option.map_eq_some_iff]
  constructor
  · rintro ⟨⟨o, p1⟩, h1, ⟨os', q'⟩, h2, h3⟩
    cases h3
    exact ⟨o, p1, os', h1, h2, rfl⟩
  · rintro ⟨o, p1, os', h1, h2, rfl⟩
    exact ⟨(o, p1), h1, (os', q), h2, rfl⟩

/-- Exchange of two statements, with their outcomes. -/
theorem attempts_exchange {zero : V} {p q : PState V} (hp : Clean p) {c d : Cmd V} (hi : Independent p c d) {cs : List (Cmd V)}
    {o1 o2 : Option String} {os : List (Option String)} (h : attempts zero (c :: d :: cs) p = some (o1 :: o2 :: os, q)) :
    attempts zero (d :: c :: cs) p = some (o2 :: o1 :: os, q) := by
  obtain ⟨x, r, y, t, hc, hd, hxy, hr, ht⟩ := hi
  obtain ⟨o, p1, os', h1, h, e⟩ := attempts_cons.1 h
  cases e
  obtain ⟨o, p2, os', h2, h, e⟩ := attempts_cons.1 h
  cases e
  rw [attempt_eff hp hc] at h1
  obtain ⟨⟨a, u⟩, hu, e⟩ := Option.map_eq_some_iff.1 h1
  cases e
  have fu := effX_fit hp hu
  rw [attempt_eff (act_clean hp fu) hd, act_vars u hxy.1.symm, act_view fu hxy,
    effX_reads hd (ρ' := p.lists) (fun z hz => act_lists fu (ht z hz))] at h2
  obtain ⟨⟨b, u'⟩, hu', e⟩ := Option.map_eq_some_iff.1 h2
  cases e
  have fu' := effX_fit hp hu'
  refine attempts_cons.2 ⟨_, _, _, by rw [attempt_eff hp hd, hu']; rfl, attempts_cons.2 ⟨_, _, _, ?_, h, rfl⟩, rfl⟩
  rw [attempt_eff (act_clean hp fu') hc, act_vars u' hxy.1, act_view fu' hxy.symm,
    effX_reads hc (ρ' := p.lists) (fun z hz => act_lists fu' (hr z hz)), hu, Option.map_some, ← act_comm fu fu' hxy]

theorem attempt_keeps {zero : V} {p p' : PState V} (hp : Clean p) {c : Cmd V} {x : Nat} {r : List Nat} (hc : Changes c x r) {o : Option String}
    (h : attempt zero p c = some (o, p')) : Clean p' ∧ ∀ a b, Independent p a b → Independent p' a b := by
  rw [attempt_eff hp hc] at h
  obtain ⟨⟨a, u⟩, hu, e⟩ := Option.map_eq_some_iff.1 h
  cases e
  have fu := effX_fit hp hu
  exact ⟨act_clean hp fu, fun a b ⟨y, r, z, t, h1, h2, h3, h4, h5⟩ =>
    ⟨y, r, z, t, h1, h2, apart_act fu h3, fun w hw => apart_act fu (h4 w hw), fun w hw => apart_act fu (h5 w hw)⟩⟩

theorem attempts_append {zero : V} {as bs : List (Cmd V)} {p q : PState V} {os : List (Option String)} :
    attempts zero (as ++ bs) p = some (os, q) ↔
      ∃ o1 p1 o2, attempts zero as p = some (o1, p1) ∧ attempts zero bs p1 = some (o2, q) ∧ os = o1 ++ o2 := by
  induction as generalizing p os with
  | nil =>
    constructor
    · intro h; exact ⟨[], p, os, rfl, h, rfl⟩
    · rintro ⟨o1, p1, o2, h1, h2, rfl⟩; cases h1; exact h2
  | cons a as ih =>
    rw [List.cons_append, attempts_cons]
    constructor
    · rintro ⟨o, p1, os', h1, h2, rfl⟩
      obtain ⟨o1, p2, o2, h3, h4, rfl⟩ := ih.1 h2
      exact ⟨o :: o1, p2, o2, attempts_cons.2 ⟨_, _, _, h1, h3, rfl⟩, h4, rfl⟩
    · rintro ⟨o1, p1, o2, h1, h2, rfl⟩
      obtain ⟨o, p2, os', h3, h4, rfl⟩ := attempts_cons.1 h1
      exact ⟨o, p2, os' ++ o2, h3, ih.2 ⟨os', p1, o2, h4, h2, rfl⟩, rfl⟩

theorem attempts_length {zero : V} {cs : List (Cmd V)} {p q : PState V} {os : List (Option String)} (h : attempts zero cs p = some (os, q)) :
    os.length = cs.length := by
  induction cs generalizing p os with
  | nil => cases h; rfl
  | cons c cs ih =>
    obtain ⟨o, p1, os', _, h2, rfl⟩ := attempts_cons.1 h
    simp [ih h2]

/-- A statement can be moved before statements that do not depend on it. -/
theorem attempts_first {zero : V} {d : Cmd V} {es : List (Cmd V)} : ∀ {cs : List (Cmd V)} {p q : PState V} {oc od : List (Option String)}
    {o : Option String}, Clean p → (∀ c ∈ cs, Independent p c d) → oc.length = cs.length →
    attempts zero (cs ++ d :: es) p = some (oc ++ o :: od, q) → attempts zero (d :: (cs ++ es)) p = some (o :: (oc ++ od), q)
  | [], p, q, oc, od, o, _, _, hl, h => by
    obtain rfl := List.length_eq_zero_iff.1 hl
    exact h
  | c :: cs, p, q, oc, od, o, hp, hf, hl, h => by
    rcases oc with _ | ⟨b, oc⟩
    · cases hl
    refine attempts_exchange hp (hf c (by simp)) ?_
    obtain ⟨x, r, y, t, hc, hd, h3, h4, h5⟩ := hf c (by simp)
    obtain ⟨o', p1, os', h1, h, e⟩ := attempts_cons.1 h
    cases e
    obtain ⟨k1, k2⟩ := attempt_keeps hp hc h1
    exact attempts_cons.2 ⟨_, _, _, h1,
      attempts_first k1 (fun c' hc' => k2 _ _ (hf c' (by simp [hc']))) (by simpa using hl) h, rfl⟩

/-- The statements of two groups that do not depend on each other can be executed in every order that keeps the order inside of the groups;
each statement has the same outcome. -/
theorem attempts_interleaved {zero : V} {cs ds es : List (Cmd V)} (hi : Interleaved cs ds es) : ∀ {p q : PState V} {oc od : List (Option String)},
    Clean p → (∀ c ∈ cs, ∃ x r, Changes c x r) → (∀ d ∈ ds, ∃ x r, Changes d x r) → (∀ c ∈ cs, ∀ d ∈ ds, Independent p c d) →
    oc.length = cs.length → attempts zero (cs ++ ds) p = some (oc ++ od, q) →
    ∃ oe, attempts zero es p = some (oe, q) ∧ Interleaved (cs.zip oc) (ds.zip od) (es.zip oe) := by
  induction hi with
  | nil =>
    intro p q oc od _ _ _ _ hl h
    obtain rfl := List.length_eq_zero_iff.1 hl
    cases h
    exact ⟨[], rfl, .nil⟩
  | @left c cs ds es _ ih =>
    intro p q oc od hp h1 h2 hf hl h
    rcases oc with _ | ⟨b, oc⟩
    · cases hl
    obtain ⟨o, p1, os', e1, h, e⟩ := attempts_cons.1 h
    cases e
    obtain ⟨x, r, hc⟩ := h1 c (by simp)
    obtain ⟨k1, k2⟩ := attempt_keeps hp hc e1
    obtain ⟨oe, h3, h4⟩ := ih k1 (fun a ha => h1 a (by simp [ha])) h2 (fun a ha b hb => k2 _ _ (hf a (by simp [ha]) b hb)) (by simpa using hl) h
    exact ⟨_, attempts_cons.2 ⟨_, _, _, e1, h3, rfl⟩, .left h4⟩
  | @right d cs ds es _ ih =>
    intro p q oc od hp h1 h2 hf hl h
    have hlen := attempts_length h
    rcases od with _ | ⟨b, od⟩
    · simp [hl] at hlen
    have h := attempts_first hp (fun c hc => hf c hc d (by simp)) hl h
    obtain ⟨o, p1, os', e1, h, e⟩ := attempts_cons.1 h
    cases e
    obtain ⟨x, r, hd⟩ := h2 d (by simp)
    obtain ⟨k1, k2⟩ := attempt_keeps hp hd e1
    obtain ⟨oe, h3, h4⟩ := ih k1 h1 (fun a ha => h2 a (by simp [ha])) (fun a ha b hb => k2 _ _ (hf a ha b (by simp [hb]))) hl h
    exact ⟨_, attempts_cons.2 ⟨_, _, _, e1, h3, rfl⟩, .right h4⟩

/-! The library. -/

namespace Mach

theorem Rep.attempt {zero : V} {s : Mach V} {p p' : PState V} (R : Rep s p) {c : Cmd V} {o : Option String}
    (h : Spec.attempt zero p c = some (o, p')) : ∃ s', caught (exec zero c) s = (.ok o, s') ∧ Rep s' p' := by
  unfold Spec.attempt at h
  split at h
  · rename_i h1
    cases h
    obtain ⟨s', e, R'⟩ := R.step h1
    exact ⟨s', by simp only [caught, e], R'⟩
  · obtain ⟨⟨m, q⟩, h1, h2⟩ := Option.map_eq_some_iff.1 h
    cases h2
    obtain ⟨s', e, R', _⟩ := R.rejects (zero := zero) h1
    exact ⟨s', by simp only [caught, e], R'⟩

theorem Rep.attempts {zero : V} : ∀ {cs : List (Cmd V)} {s : Mach V} {p p' : PState V} {os : List (Option String)}, Rep s p →
    Spec.attempts zero cs p = some (os, p') → ∃ s', catchAll zero cs s = (.ok os, s') ∧ Rep s' p'
  | [], s, p, p', os, R, h => by cases h; exact ⟨s, rfl, R⟩
  | c :: cs, s, p, p', os, R, h => by
    obtain ⟨o, p1, os', h1, h2, rfl⟩ := attempts_cons.1 h
    obtain ⟨s1, e1, R1⟩ := R.attempt h1
    obtain ⟨s2, e2, R2⟩ := R1.attempts h2
    refine ⟨s2, ?_, R2⟩
    rw [catchAll, M.bind_ok e1, M.bind_ok e2]
    rfl

theorem catchAll_append {zero : V} : ∀ {as bs : List (Cmd V)} {s s' : Mach V} {os : List (Option String)}, catchAll zero as s = (.ok os, s') →
    catchAll zero (as ++ bs) s = ((catchAll zero bs >>= fun t => pure (os ++ t)) s')
  | [], bs, s, s', os, h => by
    cases h
    rw [M.bind_apply]
    simp only [List.nil_append]
    rcases catchAll zero bs s with ⟨_ | _ | _, _⟩ <;> rfl
  | a :: as, bs, s, s', os, h => by
    rw [catchAll, M.bind_apply] at h
    rcases h1 : caught (exec zero a) s with ⟨o | m | k, s1⟩ <;> rw [h1] at h
    · simp only at h
      rw [M.bind_apply] at h
      rcases h2 : catchAll zero as s1 with ⟨o' | m | k, s2⟩ <;> rw [h2] at h
      · cases h
        rw [List.cons_append, catchAll, M.bind_ok h1, M.bind_apply, catchAll_append h2, M.bind_apply, M.bind_apply]
        rcases catchAll zero bs s' with ⟨_ | _ | _, _⟩ <;> rfl
      · cases h
      · cases h
    · cases h
    · cases h

theorem catch_of_runOk {zero : V} : ∀ {cs : List (Cmd V)} {s s' : Mach V}, runOk zero cs s = (.ok (), s') →
    catchAll zero cs s = (.ok (List.replicate cs.length none), s')
  | [], _, _, h => by cases h; rfl
  | c :: cs, s, s', h => by
    rw [runOk, M.bind_apply] at h
    rcases h1 : exec zero c s with ⟨o | m | k, s1⟩ <;> rw [h1] at h
    · have h2 := catch_of_runOk (cs := cs) h
      rw [catchAll, M.bind_ok (show caught (exec zero c) s = (.ok none, s1) by simp only [caught, h1]), M.bind_ok h2]
      rfl
    · cases h
    · cases h

/-- Programs that catch their exceptions follow the naive semantics. -/
theorem catch_agreement (zero : V) (ls : List (List V)) {cs : List (Cmd V)} {os : List (Option String)} {p : PState V}
    (h : Spec.attempts zero cs (PState.caller ls) = some (os, p)) :
    ∃ s, catchAll zero (ls.map .callerArray ++ cs) start = (.ok (List.replicate ls.length none ++ os), s) ∧ Rep s p ∧
      (∀ x l, p.lists x = some l → ShowsVar s x l) ∧
      (∀ a l, p.arrays a = some l → ∀ i (hi : i < l.length), s.heap.load (some a) i = .ok l[i]) := by
  obtain ⟨s0, e0, R0⟩ := Rep.caller (zero := zero) ls
  obtain ⟨s, e, R⟩ := R0.attempts h
  refine ⟨s, ?_, R, fun x l hl => R.agrees x l hl, fun a l hl i hi => ?_⟩
  · have h0 := catch_of_runOk e0
    rw [List.length_map] at h0
    rw [catchAll_append h0, M.bind_ok e]
    rfl
  · obtain ⟨_, k2⟩ := R.b.arrays a l hl
    exact Heap.load_some (by rw [k2]; rfl) (by rw [k2]; exact hi) (by rw [k2]; exact List.getElem?_eq_getElem _)

/-- C18 for programs that catch the exceptions of their statements: every statement is performed or throws the message that the naive
semantics predicts, and the program goes on in the state that the naive semantics predicts; at the end the vectors and the arrays of the
caller have the elements of the naive semantics.

Missing: the operations on which the naive semantics has no result (see `C18_program_agreement_partial`). -/
theorem C18_exceptions_partial (zero : V) (ls : List (List V)) {cs : List (Cmd V)} {os : List (Option String)} {p : PState V}
    (h : Spec.attempts zero cs (PState.caller ls) = some (os, p)) :
    ∃ s, catchAll zero (ls.map .callerArray ++ cs) start = (.ok (List.replicate ls.length none ++ os), s) ∧
      (∀ x l, p.lists x = some l → ShowsVar s x l) ∧
      (∀ a l, p.arrays a = some l → ∀ i (hi : i < l.length), s.heap.load (some a) i = .ok l[i]) := by
  obtain ⟨s, e, _, h1, h2⟩ := catch_agreement zero ls h
  exact ⟨s, e, h1, h2⟩

/-- A write beyond the end, a selection with a position that does not exist and an assignment of a shorter vector to a borrowed one throw;
the declarations before and the assignment after them are performed. -/
example : ∃ p, Spec.attempts 0 (exchangePre ++ [.setElem 1 4 0, .subAssignScalar 2 [1, 8] 1, .assign .ok 0 (.leaf 1), .assign .ok 2 (.leaf 1)])
      (PState.caller [[1, 2, 3, 4], [5, 6]]) =
        some ([none, none, none, some beyond, some beyond, some "size cannot be increased above the size of the borrowed object", none], p) ∧
    p.lists 1 = some [5, 6] ∧ p.lists 2 = some [5, 6] := ⟨_, rfl, rfl, rfl⟩

end Mach

theorem clean_of_attempts {zero : V} {ls : List (List V)} {cs : List (Cmd V)} {os : List (Option String)} {p : PState V}
    (h : attempts zero cs (PState.caller ls) = some (os, p)) : Clean p := by
  obtain ⟨s, _, R, _⟩ := Mach.catch_agreement zero ls h
  exact R.clean

/-- C105 for programs that catch the exceptions of their statements: two neighbouring statements that do not depend on each other can be
exchanged.  Each of the two has the same outcome (performed, or rejected with the same message) in both orders, so have the statements that
follow, and at the end every vector and every array of the caller has the same elements.

Missing: the operations excluded in C18. -/
theorem C105_exceptions_partial (zero : V) {ls : List (List V)} {pre cs : List (Cmd V)} {p q : PState V} {op os : List (Option String)}
    {o1 o2 : Option String} (hpre : attempts zero pre (PState.caller ls) = some (op, p)) {c d : Cmd V} (hi : Independent p c d)
    (h : attempts zero (c :: d :: cs) p = some (o1 :: o2 :: os, q)) :
    ∃ s s', Mach.catchAll zero (ls.map .callerArray ++ (pre ++ c :: d :: cs)) Mach.start =
        (.ok (List.replicate ls.length none ++ (op ++ o1 :: o2 :: os)), s) ∧
      Mach.catchAll zero (ls.map .callerArray ++ (pre ++ d :: c :: cs)) Mach.start =
        (.ok (List.replicate ls.length none ++ (op ++ o2 :: o1 :: os)), s') ∧
      (∀ z l, q.lists z = some l → Mach.ShowsVar s z l ∧ Mach.ShowsVar s' z l) ∧
      ∀ a l, q.arrays a = some l → ∀ i (hi : i < l.length), s.heap.load (some a) i = .ok l[i] ∧ s'.heap.load (some a) i = .ok l[i] := by
  have h' := attempts_exchange (clean_of_attempts hpre) hi h
  obtain ⟨s, e, _, h1, h2⟩ := Mach.catch_agreement zero ls (attempts_append.2 ⟨_, _, _, hpre, h, rfl⟩)
  obtain ⟨s', e', _, h1', h2'⟩ := Mach.catch_agreement zero ls (attempts_append.2 ⟨_, _, _, hpre, h', rfl⟩)
  exact ⟨s, s', e, e', fun z l hz => ⟨h1 z l hz, h1' z l hz⟩, fun a l ha i hi => ⟨h2 a l ha i hi, h2' a l ha i hi⟩⟩

/-- `b(5) = 0` is rejected, `c(2, 9) = 1` writes one element and is rejected, too; they can be exchanged, and `a = b` after them is rejected
because it is too short. -/
example : ∃ op p q, attempts 0 exchangePre (PState.caller [[1, 2, 3, 4], [5, 6]]) = some (op, p) ∧
    Independent p (.setElem 1 4 (0 : Int)) (.subAssignScalar 2 [1, 8] 1) ∧
    attempts 0 [.setElem 1 4 0, .subAssignScalar 2 [1, 8] 1, .assign .ok 0 (.leaf 1)] p =
      some ([some beyond, some beyond, some "size cannot be increased above the size of the borrowed object"], q) ∧
    q.lists 1 = some [5, 6] ∧ q.lists 2 = some [6, 1, 8, 10] := by
  refine ⟨_, _, _, rfl, ⟨_, _, _, _, .setElem, .subAssignScalar, ⟨by decide, fun β γ h1 h2 => by cases h2⟩, fun z hz => (by cases hz),
    fun z hz => by cases hz⟩, rfl, rfl, rfl⟩

/-- C105 for the statements of two groups that do not depend on each other, exceptions being caught: every order that keeps the order inside
of the groups gives every statement the same outcome, and the same elements at the end. -/
theorem C105_turns_partial (zero : V) {ls : List (List V)} {pre cs ds es : List (Cmd V)} {p q : PState V} {op oc od : List (Option String)}
    (hpre : attempts zero pre (PState.caller ls) = some (op, p)) (hc : ∀ c ∈ cs, ∃ x r, Changes c x r) (hd : ∀ d ∈ ds, ∃ x r, Changes d x r)
    (hf : ∀ c ∈ cs, ∀ d ∈ ds, Independent p c d) (hl : oc.length = cs.length) (h : attempts zero (cs ++ ds) p = some (oc ++ od, q))
    (hi : Interleaved cs ds es) :
    ∃ s s' oe, Mach.catchAll zero (ls.map .callerArray ++ (pre ++ (cs ++ ds))) Mach.start =
        (.ok (List.replicate ls.length none ++ (op ++ (oc ++ od))), s) ∧
      Mach.catchAll zero (ls.map .callerArray ++ (pre ++ es)) Mach.start = (.ok (List.replicate ls.length none ++ (op ++ oe)), s') ∧
      Interleaved (cs.zip oc) (ds.zip od) (es.zip oe) ∧
      (∀ z l, q.lists z = some l → Mach.ShowsVar s z l ∧ Mach.ShowsVar s' z l) ∧
      ∀ a l, q.arrays a = some l → ∀ i (hi : i < l.length), s.heap.load (some a) i = .ok l[i] ∧ s'.heap.load (some a) i = .ok l[i] := by
  obtain ⟨oe, h', ho⟩ := attempts_interleaved hi (clean_of_attempts hpre) hc hd hf hl h
  obtain ⟨s, e, _, h1, h2⟩ := Mach.catch_agreement zero ls (attempts_append.2 ⟨_, _, _, hpre, h, rfl⟩)
  obtain ⟨s', e', _, h1', h2'⟩ := Mach.catch_agreement zero ls (attempts_append.2 ⟨_, _, _, hpre, h', rfl⟩)
  exact ⟨s, s', oe, e, e', ho, fun z l hz => ⟨h1 z l hz, h1' z l hz⟩, fun a l ha i hi => ⟨h2 a l ha i hi, h2' a l ha i hi⟩⟩

/-- `b(1) = 0; b(5) = 0;` and `c(2, 9) = 1; c(1) = 7;` in turns, with two exceptions. -/
example : ∃ op p q, attempts 0 exchangePre (PState.caller [[1, 2, 3, 4], [5, 6]]) = some (op, p) ∧
    (let cs : List (Cmd Int) := [.setElem 1 0 0, .setElem 1 4 0]
     let ds : List (Cmd Int) := [.subAssignScalar 2 [1, 8] 1, .setElem 2 0 7]
     (∀ c ∈ cs, ∃ x r, Changes c x r) ∧ (∀ d ∈ ds, ∃ x r, Changes d x r) ∧ (∀ c ∈ cs, ∀ d ∈ ds, Independent p c d) ∧
     Interleaved cs ds [cs[0], ds[0], ds[1], cs[1]] ∧
     attempts 0 (cs ++ ds) p = some ([none, some beyond] ++ [some beyond, none], q)) ∧
     q.lists 1 = some [0, 6] ∧ q.lists 2 = some [7, 1, 8, 10] := by
  refine ⟨_, _, _, rfl, ⟨?_, ?_, ?_, .left (.right (.right (.left .nil))), rfl⟩, rfl, rfl⟩
  · intro c hc
    simp only [List.mem_cons, List.not_mem_nil, or_false] at hc
    rcases hc with rfl | rfl <;> exact ⟨_, _, .setElem⟩
  · intro c hc
    simp only [List.mem_cons, List.not_mem_nil, or_false] at hc
    rcases hc with rfl | rfl
    · exact ⟨_, _, .subAssignScalar⟩
    · exact ⟨_, _, .setElem⟩
  · intro c hc d hd
    have h12 : ∀ {p : PState Int}, p.bors 2 = none → Apart p 1 2 := fun h => ⟨by decide, fun β γ _ h2 => by rw [h] at h2; cases h2⟩
    simp only [List.mem_cons, List.not_mem_nil, or_false] at hc hd
    rcases hc with rfl | rfl <;> rcases hd with rfl | rfl
    · exact ⟨_, _, _, _, .setElem, .subAssignScalar, h12 rfl, fun z hz => (by cases hz), fun z hz => by cases hz⟩
    · exact ⟨_, _, _, _, .setElem, .setElem, h12 rfl, fun z hz => (by cases hz), fun z hz => by cases hz⟩
    · exact ⟨_, _, _, _, .setElem, .subAssignScalar, h12 rfl, fun z hz => (by cases hz), fun z hz => by cases hz⟩
    · exact ⟨_, _, _, _, .setElem, .setElem, h12 rfl, fun z hz => (by cases hz), fun z hz => by cases hz⟩

theorem rejects_assign {p p' : PState V} {conv : V → Out V} {x : Nat} {e : Expr V} {m : String}
    (h : rejects p (.assign conv x e) = some (m, p')) : p' = p := by
  rw [rejects_eff .assign] at h
  obtain ⟨⟨m', u⟩, h1, h2⟩ := Option.map_eq_some_iff.1 h
  cases h2
  simp only [effR, Option.bind_eq_bind, Option.bind_eq_some_iff] at h1
  obtain ⟨l, _, h⟩ := h1
  split at h
  · split at h
    · cases h; rfl
    · obtain ⟨s, _, h⟩ := Option.map_eq_some_iff.1 h
      cases h; rfl
  · obtain ⟨s, _, h⟩ := Option.map_eq_some_iff.1 h
    cases h; rfl

theorem attempt_none {zero : V} {p p' : PState V} {c : Cmd V} : attempt zero p c = some (none, p') ↔ step zero p c = some p' := by
  unfold attempt
  constructor
  · intro h
    split at h
    · rename_i h1; cases h; exact h1
    · obtain ⟨r, _, h⟩ := Option.map_eq_some_iff.1 h
      cases h
  · intro h; rw [h]

/-- C105 for programs that catch the exceptions of their statements: an assignment, performed or rejected, followed by an assignment to the
same vector that is performed and does not read it can be left out. -/
theorem C105_overwritten_exceptions_partial (zero : V) {ls : List (List V)} {pre cs : List (Cmd V)} {p q : PState V}
    {op os : List (Option String)} {o : Option String} (hpre : attempts zero pre (PState.caller ls) = some (op, p))
    {conv conv' : V → Out V} {x : Nat} {e e' : Expr V} (hr : ∀ z ∈ exprReads e', Apart p x z)
    (h : attempts zero (.assign conv x e :: .assign conv' x e' :: cs) p = some (o :: none :: os, q)) :
    ∃ s s', Mach.catchAll zero (ls.map .callerArray ++ (pre ++ .assign conv x e :: .assign conv' x e' :: cs)) Mach.start =
        (.ok (List.replicate ls.length none ++ (op ++ o :: none :: os)), s) ∧
      Mach.catchAll zero (ls.map .callerArray ++ (pre ++ .assign conv' x e' :: cs)) Mach.start =
        (.ok (List.replicate ls.length none ++ (op ++ none :: os)), s') ∧
      (∀ z l, q.lists z = some l → Mach.ShowsVar s z l ∧ Mach.ShowsVar s' z l) ∧
      ∀ a l, q.arrays a = some l → ∀ i (hi : i < l.length), s.heap.load (some a) i = .ok l[i] ∧ s'.heap.load (some a) i = .ok l[i] := by
  have h' : attempts zero (.assign conv' x e' :: cs) p = some (none :: os, q) := by
    obtain ⟨o1, p1, os1, h1, h3, e1⟩ := attempts_cons.1 h
    cases e1
    rcases o with _ | m
    · obtain ⟨o2, p2, os2, h2, h4, e2⟩ := attempts_cons.1 h3
      cases e2
      rw [attempt_none] at h1 h2
      have := run_overwritten (zero := zero) (clean_of_attempts hpre) hr (cs := []) (q := p2) (conv := conv) (conv' := conv') (e := e)
        (by simp only [Spec.run, h1, h2, Option.bind_eq_bind, Option.bind_some])
      simp only [Spec.run, Option.bind_eq_bind] at this
      obtain ⟨p3, h5, e3⟩ := Option.bind_eq_some_iff.1 this
      cases e3
      exact attempts_cons.2 ⟨_, _, _, attempt_none.2 h5, h4, rfl⟩
    · have : p1 = p := by
        unfold attempt at h1
        split at h1
        · cases h1
        · obtain ⟨⟨m', q'⟩, h2, h3⟩ := Option.map_eq_some_iff.1 h1
          cases h3
          exact rejects_assign h2
      rw [this] at h3
      exact h3
  obtain ⟨s, e1, _, h1, h2⟩ := Mach.catch_agreement zero ls (attempts_append.2 ⟨_, _, _, hpre, h, rfl⟩)
  obtain ⟨s', e1', _, h1', h2'⟩ := Mach.catch_agreement zero ls (attempts_append.2 ⟨_, _, _, hpre, h', rfl⟩)
  exact ⟨s, s', e1, e1', fun z l hz => ⟨h1 z l hz, h1' z l hz⟩, fun a l ha i hi => ⟨h2 a l ha i hi, h2' a l ha i hi⟩⟩

/-- Of `b = c` (too long), `b = a(3, 4)` the first one can be left out. -/
example : ∃ op p q, attempts 0 exchangePre (PState.caller [[1, 2, 3, 4], [5, 6]]) = some (op, p) ∧
    (∀ z ∈ exprReads (.sub (.leaf 0) [2, 3] {} : Expr Int), Apart p 1 z) ∧
    attempts 0 [.assign .ok 1 (.leaf 2), .assign .ok 1 (.sub (.leaf 0) [2, 3] {})] p =
      some ([some "number of items to replace is not a multiple of replacement length", none], q) ∧ q.lists 1 = some [3, 4] := by
  refine ⟨_, _, _, rfl, fun z hz => ?_, rfl, rfl⟩
  obtain rfl := List.mem_singleton.1 hz
  refine ⟨by decide, fun β γ h1 h2 => ?_⟩
  cases h1; cases h2; decide

end ETR
