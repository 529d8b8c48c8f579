import Verif.Props.Commute
import Verif.Props.Control

/-! # C105 in programs with branches, loops, blocks and handlers -/

namespace ETR
namespace Spec
variable {V : Type}

/-- The operation makes no vector that borrows: nothing is borrowed, and only vectors of `O`, which own their memory, are copied. -/
def OwnCopy (O : Nat → Prop) : Cmd V → Prop
  | .declBorrow _ _ => False
  | .declCopy y => O y
  | _ => True

/-- The program makes no vectors that borrow. -/
def OwnCopies : (Nat → Prop) → Prog V → Prop
  | _, .skip | _, .throw _ => True
  | O, .cmd c => OwnCopy O c
  | O, .seq a b => OwnCopies O a ∧ OwnCopies O b
  | O, .decl c k => OwnCopy O c ∧ ∀ y, OwnCopies (fun x => O x ∨ x = y) (k y)
  | O, .read _ _ k => ∀ v, OwnCopies O (k v)
  | O, .index _ _ k => ∀ r, OwnCopies O (k r)
  | O, .len _ k => ∀ n, OwnCopies O (k n)
  | O, .loop _ _ _ body => OwnCopies O body
  | O, .forVec _ body => ∀ v, OwnCopies O (body v)
  | O, .forInt _ _ body => ∀ i, OwnCopies O (body i)
  | O, .forDbl _ _ body => ∀ i, OwnCopies O (body i)
  | O, .block body => OwnCopies O body
  | O, .tryCatch a b => OwnCopies O a ∧ ∀ m, OwnCopies O (b m)

/-- The same program with neighbouring independent statements exchanged and overwritten assignments left out, at any number of places
outside of the bodies of `try`.  `U`: the names in scope; a declaration makes a new one. -/
inductive Rearranged : (Nat → Prop) → Prog V → Prog V → Prop
  | refl {U : Nat → Prop} (a : Prog V) : Rearranged U a a
  /-- Statements that change different vectors, of which none reads what the other one changes. -/
  | exchange {U : Nat → Prop} {c d : Cmd V} {x y : Nat} {r t : List Nat} {b b' : Prog V} : Changes c x r → Changes d y t → x ≠ y → y ∉ r → x ∉ t →
    Rearranged U b b' → Rearranged U (.seq (.cmd c) (.seq (.cmd d) b)) (.seq (.cmd d) (.seq (.cmd c) b'))
  /-- An assignment that is overwritten by the next one, which does not read the vector. -/
  | overwritten {U : Nat → Prop} {conv conv' : V → Out V} {x : Nat} {e e' : Expr V} {b b' : Prog V} : x ∉ exprReads e' → Rearranged U b b' →
    Rearranged U (.seq (.cmd (.assign conv x e)) (.seq (.cmd (.assign conv' x e')) b)) (.seq (.cmd (.assign conv' x e')) b')
  | seq {U : Nat → Prop} {a a' b b' : Prog V} : Rearranged U a a' → Rearranged U b b' → Rearranged U (.seq a b) (.seq a' b')
  | decl {U : Nat → Prop} (c : Cmd V) {k k' : Nat → Prog V} : (∀ y, ¬ U y → Rearranged (fun x => U x ∨ x = y) (k y) (k' y)) →
    Rearranged U (.decl c k) (.decl c k')
  | read {U : Nat → Prop} (bool : Bool) (e : Expr V) {k k' : V → Prog V} : (∀ v, Rearranged U (k v) (k' v)) →
    Rearranged U (.read bool e k) (.read bool e k')
  | index {U : Nat → Prop} (e : Expr V) (i : Index) {k k' : List Nat → Prog V} : (∀ v, Rearranged U (k v) (k' v)) →
    Rearranged U (.index e i k) (.index e i k')
  | len {U : Nat → Prop} (e : Expr V) {k k' : Int → Prog V} : (∀ v, Rearranged U (k v) (k' v)) → Rearranged U (.len e k) (.len e k')
  | loop {U : Nat → Prop} (bool : Bool) (e : Expr V) (c : V → Bool) {body body' : Prog V} : Rearranged U body body' →
    Rearranged U (.loop bool e c body) (.loop bool e c body')
  | forVec {U : Nat → Prop} (x : Nat) {body body' : V → Prog V} : (∀ v, Rearranged U (body v) (body' v)) →
    Rearranged U (.forVec x body) (.forVec x body')
  | forInt {U : Nat → Prop} (a b : Int) {body body' : Int → Prog V} : (∀ v, Rearranged U (body v) (body' v)) →
    Rearranged U (.forInt a b body) (.forInt a b body')
  | forDbl {U : Nat → Prop} (a b : F64) {body body' : F64 → Prog V} : (∀ v, Rearranged U (body v) (body' v)) →
    Rearranged U (.forDbl a b body) (.forDbl a b body')
  | block {U : Nat → Prop} {body body' : Prog V} : Rearranged U body body' → Rearranged U (.block body) (.block body')
  | handler {U : Nat → Prop} (a : Prog V) {b b' : String → Prog V} : (∀ m, Rearranged U (b m) (b' m)) →
    Rearranged U (.tryCatch a b) (.tryCatch a b')

end Spec

open Spec
variable {V : Type}

/-- The vectors that borrow do so from different arrays; those of `O` own their memory. -/
structure Sepd (U O : Nat → Prop) (p : PState V) : Prop where
  clean : Clean p
  apart : ∀ x y β γ, x ≠ y → p.bors x = some β → p.bors y = some γ → β.arr ≠ γ.arr
  own : ∀ x, O x → p.bors x = none
  fresh : ∀ x, p.next ≤ x → p.bors x = none
  scope : ∀ x, U x → x < p.next

/-- No new vector that borrows, new variables have new names. -/
structure Thin (p q : PState V) : Prop where
  bors : ∀ x γ, q.bors x = some γ → ∃ β, p.bors x = some β ∧ β.arr = γ.arr
  vars : ∀ x, q.vars x ≠ none → p.vars x ≠ none ∨ p.next ≤ x
  next : p.next ≤ q.next

theorem Thin.sepd {U O : Nat → Prop} {p q : PState V} (h : Thin p q) (hp : Sepd U O p) : Sepd U O q := by
  have none_of : ∀ x, p.bors x = none → q.bors x = none := fun x hx => by
    rcases hq : q.bors x with _ | γ
    · rfl
    · obtain ⟨β, hβ, _⟩ := h.bors x γ hq
      rw [hx] at hβ; cases hβ
  refine ⟨fun x => ?_, fun x y β γ hxy hx hy => ?_, fun x hx => none_of x (hp.own x hx), fun x hx => none_of x (hp.fresh x (le_trans h.next hx)),
    fun x hx => lt_of_lt_of_le (hp.scope x hx) h.next⟩
  · by_cases hv : q.vars x = none
    · exact .inl hv
    · refine .inr ?_
      rcases h.vars x hv with h1 | h1
      · rcases hp.clean x with h2 | h2
        · exact absurd h2 h1
        · exact none_of x h2
      · exact none_of x (hp.fresh x h1)
  · obtain ⟨β', hβ, e1⟩ := h.bors x β hx
    obtain ⟨γ', hγ, e2⟩ := h.bors y γ hy
    rw [← e1, ← e2]
    exact hp.apart x y β' γ' hxy hβ hγ

theorem Thin.refl (p : PState V) : Thin p p := ⟨fun _ γ h => ⟨γ, h, rfl⟩, fun _ h => .inl h, le_refl _⟩

theorem Thin.new (p : PState V) (k : Nat) (v : Var V) : Thin p (p.new k v) := by
  refine ⟨fun _ γ h => ⟨γ, h, rfl⟩, fun x h => ?_, by show p.next ≤ p.next + k + 1; omega⟩
  by_cases hx : x = p.next + k
  · exact .inr (by omega)
  · refine .inl ?_
    simpa [PState.new, hx] using h

theorem Thin.put {p : PState V} {x : Nat} {w : Var V} {v : Option (Var V)} (hx : p.vars x = some w) : Thin p (p.put x v) := by
  refine ⟨fun _ γ h => ⟨γ, h, rfl⟩, fun y h => .inl ?_, le_refl _⟩
  by_cases hy : y = x
  · subst hy; rw [hx]; simp
  · simpa [PState.put, hy] using h

theorem Thin.write {p : PState V} {x : Nat} {β : Bor} {a : List V} (hx : p.view x = some (β, a)) (l vis : List V) : Thin p (p.write x β l vis) := by
  refine ⟨fun y γ h => ?_, fun y h => .inl h, le_refl _⟩
  have hb : p.bors x = some β := by
    simp only [PState.view, Option.bind_eq_bind, Option.bind_eq_some_iff] at hx
    obtain ⟨β', h1, l', h2, h3⟩ := hx
    cases h3; exact h1
  by_cases hy : y = x
  · subst hy
    simp only [PState.write, if_true, Option.some.injEq] at h
    exact ⟨β, hb, by rw [← h]⟩
  · simp only [PState.write, hy, if_false] at h
    exact ⟨γ, h, rfl⟩

theorem Thin.bump {p q : PState V} (h : Thin p q) {n : Nat} (hn : p.next ≤ n) : Thin p { q with next := n } := ⟨h.bors, h.vars, hn⟩

theorem stepOwn_thin {zero : V} {p q : PState V} {c : Cmd V} (h : stepOwn zero p c = some q) : Thin p q := by
  cases c <;> simp only [stepOwn, Option.bind_eq_bind, Option.pure_def, Option.bind_eq_some_iff, Option.ite_none_right_eq_some, Option.some.injEq] at h
  case callerArray => subst h; exact Thin.refl _
  case declDefault => subst h; exact Thin.new ..
  case declSize => obtain ⟨_, _, rfl⟩ := h; exact Thin.new ..
  case declScalar => subst h; exact Thin.new ..
  case declMat => obtain ⟨_, _, rfl⟩ := h; exact Thin.new ..
  case declMatVal => obtain ⟨_, _, rfl⟩ := h; exact Thin.new ..
  case declCopy => obtain ⟨_, _, _, rfl⟩ := h; exact Thin.new ..
  case declExpr => obtain ⟨_, _, _, _, _, _, rfl⟩ := h; exact Thin.new ..
  case declTemp => obtain ⟨_, _, rfl⟩ := h; exact Thin.new ..
  case assign => obtain ⟨_, hv, _, _, _, _, _, _, _, _, rfl⟩ := h; exact Thin.put hv
  case assignScalar => obtain ⟨_, hv, rfl⟩ := h; exact Thin.put hv
  case subAssign => obtain ⟨_, hv, _, _, _, _, _, _, _, _, _, rfl⟩ := h; exact (Thin.put hv).bump (Nat.le_succ _)
  case subAssignScalar => obtain ⟨_, hv, _, _, _, rfl⟩ := h; exact Thin.put hv
  case setElem => obtain ⟨_, hv, _, rfl⟩ := h; exact Thin.put hv
  case resize => obtain ⟨_, hv, _, rfl⟩ := h; exact Thin.put hv
  case fill => obtain ⟨_, hv, rfl⟩ := h; exact Thin.put hv
  case fillVec => obtain ⟨_, hv, _, _, _, rfl⟩ := h; exact Thin.put hv
  case pushBack => obtain ⟨_, hv, _, rfl⟩ := h; exact Thin.put hv
  case destroy => obtain ⟨_, hv, rfl⟩ := h; exact Thin.put hv
  all_goals cases h

theorem stepBor_thin {U O : Nat → Prop} {p q : PState V} {c : Cmd V} (hp : Sepd U O p) (hc : OwnCopy O c) (h : stepBor p c = some q) : Thin p q := by
  cases c <;> try simp only [stepBor, Option.bind_eq_bind, Option.pure_def, Option.bind_eq_some_iff, Option.ite_none_right_eq_some, Option.some.injEq,
    reduceCtorEq, Prod.exists] at h
  case declBorrow => exact hc.elim
  case declPtr a n =>
    cases a with
    | none => cases h
    | some a =>
      simp only [Option.bind_eq_some_iff, Option.ite_none_right_eq_some, Option.some.injEq] at h
      obtain ⟨_, _, _, _, _, rfl⟩ := h
      exact Thin.new ..
  case declCopy y => obtain ⟨_, hb, _⟩ := h; rw [hp.own y hc] at hb; cases hb
  case assign => obtain ⟨_, _, hv, _, _, _, _, _, _, _, rfl⟩ := h; exact Thin.write hv _ _
  case assignScalar => obtain ⟨_, _, hv, rfl⟩ := h; exact Thin.write hv _ _
  case subAssign => obtain ⟨_, _, hv, _, _, _, _, _, _, _, _, _, rfl⟩ := h; exact (Thin.write hv _ _).bump (Nat.le_succ _)
  case subAssignScalar => obtain ⟨_, _, hv, _, _, _, rfl⟩ := h; exact Thin.write hv _ _
  case setElem => obtain ⟨_, _, hv, _, rfl⟩ := h; exact Thin.write hv _ _
  case resize => obtain ⟨_, _, hv, _, rfl⟩ := h; exact Thin.write hv _ _
  case fill => obtain ⟨_, _, hv, rfl⟩ := h; exact Thin.write hv _ _
  case fillVec x y =>
    obtain ⟨u, _, h⟩ := h
    rcases hv : p.vars x with _ | w
    · rw [hv] at h
      simp only [Option.bind_eq_some_iff, Option.ite_none_right_eq_some, Option.some.injEq, Prod.exists] at h
      obtain ⟨_, _, hw, _, rfl⟩ := h
      exact Thin.write hw _ _
    · rw [hv] at h
      simp only [Option.ite_none_right_eq_some, Option.some.injEq] at h
      obtain ⟨_, rfl⟩ := h
      exact Thin.put hv
  case destroy x =>
    obtain ⟨_, _, rfl⟩ := h
    refine ⟨fun y γ h => ?_, fun y h => .inl h, le_refl _⟩
    by_cases hy : y = x
    · simp [hy] at h
    · simp only [hy, if_false] at h
      exact ⟨γ, h, rfl⟩

theorem step_thin {zero : V} {U O : Nat → Prop} {p q : PState V} {c : Cmd V} (hp : Sepd U O p) (hc : OwnCopy O c) (h : Spec.step zero p c = some q) :
    Thin p q := by
  unfold Spec.step at h
  split at h
  · rename_i h1; cases h; exact stepOwn_thin h1
  · exact stepBor_thin hp hc h

theorem Thin.shown (p : PState V) (x : Nat) (l : List V) : Thin p (p.shown x l) := by
  unfold PState.shown
  split
  · rename_i w hw; exact Thin.put hw
  · split
    · rename_i β a hv; exact Thin.write hv _ _
    · exact Thin.refl _

theorem writeRejects_thin {p q : PState V} {x : Nat} {ind : List Nat} {vs : List V} {m : String} (h : writeRejects p x ind vs = some (m, q)) :
    Thin p q := by
  simp only [writeRejects, Option.bind_eq_bind, Option.bind_eq_some_iff, Option.ite_none_right_eq_some, Option.some.injEq, Prod.mk.injEq] at h
  obtain ⟨_, _, _, _, rfl⟩ := h
  exact Thin.shown ..

theorem assignRejects_eq {p q : PState V} {conv : V → Out V} {x : Nat} {e : Expr V} {m : String} (h : assignRejects p conv x e = some (m, q)) :
    q = p := by
  simp only [assignRejects, Option.bind_eq_bind, Option.bind_eq_some_iff] at h
  obtain ⟨D, _, h⟩ := h
  split at h
  · split at h
    · obtain ⟨a, _, h⟩ := Option.map_eq_some_iff.1 h
      cases h; rfl
    · cases h
  · obtain ⟨β, _, h⟩ := Option.bind_eq_some_iff.1 h
    split at h
    · cases h; rfl
    · split at h
      · split at h
        · cases h; rfl
        · obtain ⟨_, _, h⟩ := Option.bind_eq_some_iff.1 h
          split at h
          · cases h; rfl
          · cases h
      · cases h

theorem rejects_thin {p q : PState V} {c : Cmd V} {m : String} (h : rejects p c = some (m, q)) : Thin p q := by
  have hb : Thin p { p with next := p.next + 1 } := (Thin.refl p).bump (Nat.le_succ _)
  cases c <;> simp only [rejects, Option.bind_eq_bind, Option.pure_def, Option.bind_eq_some_iff, Option.ite_none_right_eq_some, Option.some.injEq,
    reduceCtorEq, Option.map_eq_some_iff, Prod.mk.injEq] at h
  case declSize => obtain ⟨_, _, rfl⟩ := h; exact hb
  case declTemp => obtain ⟨_, _, rfl⟩ := h; exact hb
  case declExpr => obtain ⟨_, _, _, _, _, _, rfl⟩ := h; exact hb
  case setElem =>
    obtain ⟨_, _, h⟩ := h
    split at h
    · cases h; exact Thin.refl _
    · split at h
      · cases h; exact Thin.refl _
      · cases h
  case resize =>
    obtain ⟨_, _, h⟩ := h
    split at h
    · cases h; exact Thin.refl _
    · split at h
      · cases h
      · obtain ⟨_, _, h⟩ := Option.bind_eq_some_iff.1 h
        split at h
        · cases h; exact Thin.refl _
        · cases h
  case fillVec => obtain ⟨_, _, _, _, _, _, rfl⟩ := h; exact Thin.refl _
  case assign =>
    obtain ⟨_, _, h⟩ := h
    split at h
    · split at h
      · cases h; exact Thin.refl _
      · rw [assignRejects_eq h]; exact Thin.refl _
    · rw [assignRejects_eq h]; exact Thin.refl _
  case subAssign =>
    obtain ⟨D, _, h⟩ := h
    split at h
    · cases h; exact hb
    · split at h
      · split at h
        · cases h; exact hb
        · obtain ⟨L, _, h⟩ := Option.bind_eq_some_iff.1 h
          obtain ⟨⟨m', q'⟩, h1, h⟩ := Option.bind_eq_some_iff.1 h
          cases h
          exact (writeRejects_thin h1).bump (Nat.le_succ _)
      · cases h
  case subAssignScalar => exact writeRejects_thin h

/-! ## The vectors stay separate -/

/-- The program ends, normally or with an exception, in a state with `P`, if at all. -/
def EndsIn (P : PState V → Prop) : Res V → Prop
  | .done q | .threw _ q => P q
  | .more | .stuck => True

theorem EndsIn.andThen {P Q : PState V → Prop} {r : Res V} {k : PState V → Res V} (h : EndsIn P r) (hk : ∀ q, P q → EndsIn Q (k q))
    (hpq : ∀ q, P q → Q q) : EndsIn Q (r.andThen k) := by
  cases r with
  | done q => exact hk q h
  | threw m q => exact hpq q h
  | more => trivial
  | stuck => trivial

theorem EndsIn.mono {P Q : PState V → Prop} {r : Res V} (h : EndsIn P r) (hpq : ∀ q, P q → Q q) : EndsIn Q r := by
  cases r with
  | done q => exact hpq q h
  | threw m q => exact hpq q h
  | more => trivial
  | stuck => trivial

theorem EndsIn.withVal {α : Type} {P : PState V → Prop} {o : Option α} {k : α → Res V} {r : Option (String × PState V)}
    (hk : ∀ a, o = some a → EndsIn P (k a)) (hr : ∀ m q, r = some (m, q) → P q) : EndsIn P (withVal o k r) := by
  cases o with
  | some a => exact hk a rfl
  | none =>
    rcases r with _ | ⟨m, q⟩
    · trivial
    · exact hr m q rfl

theorem readRejects_eq {p q : PState V} {e : Expr V} {m : String} (h : readRejects p e = some (m, q)) : q = p := by
  unfold readRejects at h
  split at h
  · cases h; rfl
  · split at h
    · cases h; rfl
    · cases h
  · cases h

theorem indexRejects_eq {p q : PState V} {e : Expr V} {i : Index} {m : String} (h : indexRejects p e i = some (m, q)) : q = p := by
  unfold indexRejects at h
  split at h
  · cases h; rfl
  · split at h
    · cases h; rfl
    · cases h
  · cases h; rfl
  · cases h; rfl
  · obtain ⟨_, _, h⟩ := Option.bind_eq_some_iff.1 h
    split at h
    · cases h; rfl
    · cases h
  · cases h

theorem EndsIn.rounds {P : PState V → Prop} {test : PState V → Option Bool} {rej : PState V → Option (String × PState V)} {body : PState V → Res V}
    (hb : ∀ q, P q → EndsIn P (body q)) (hr : ∀ p m q, rej p = some (m, q) → q = p) : ∀ n p, P p → EndsIn P (Spec.rounds test rej body n p) := by
  intro n
  induction n with
  | zero => intro p _; trivial
  | succ n ih =>
    intro p hp
    refine EndsIn.withVal (fun t _ => ?_) (fun m q h => by rw [hr p m q h]; exact hp)
    cases t
    · exact hp
    · exact (hb p hp).andThen ih (fun _ h => h)

theorem EndsIn.each {α : Type} {P : PState V → Prop} {body : α → PState V → Res V} (hb : ∀ v q, P q → EndsIn P (body v q)) :
    ∀ l p, P p → EndsIn P (Spec.each body l p) := by
  intro l
  induction l with
  | nil => intro p hp; exact hp
  | cons v l ih => intro p hp; exact (hb v p hp).andThen ih (fun _ h => h)

theorem EndsIn.eachAt {P : PState V → Prop} {x : Nat} {body : V → PState V → Res V} (hb : ∀ v q, P q → EndsIn P (body v q)) :
    ∀ n i p, P p → EndsIn P (Spec.eachAt x body n i p) := by
  intro n
  induction n with
  | zero => intro i p hp; exact hp
  | succ n ih =>
    intro i p hp
    exact EndsIn.withVal (fun v _ => (hb v p hp).andThen (ih (i + 1)) (fun _ h => h)) (fun m q h => by cases h)

theorem EndsIn.leave {P Q : PState V → Prop} {p : PState V} {r : Res V} (h : EndsIn P r) (hl : ∀ q, P q → Q (q.leave p.next)) :
    EndsIn Q (r.leave p) := by
  cases r with
  | done q => exact hl q h
  | threw m q => exact hl q h
  | more => trivial
  | stuck => trivial

theorem Sepd.leave {U O : Nat → Prop} {q : PState V} (h : Sepd U O q) (lo : Nat) : Sepd U O (q.leave lo) := by
  refine Thin.sepd (p := q) ⟨fun x γ hx => ?_, fun x hx => .inl ?_, le_refl _⟩ h
  · simp only [PState.leave] at hx
    split at hx
    · exact ⟨γ, hx, rfl⟩
    · cases hx
  · simp only [PState.leave] at hx
    split at hx
    · exact hx
    · exact absurd rfl hx

/-- A declaration makes a vector that owns its memory. -/
theorem step_decl {zero : V} {U O : Nat → Prop} {p q : PState V} {c : Cmd V} (hp : Sepd U O p) (hc : OwnCopy O c)
    (h : Spec.step zero p c = some q) (hd : c.isDecl = true) : Sepd U (fun x => O x ∨ x = q.next - 1) q := by
  have ht := step_thin hp hc h
  have hs := ht.sepd hp
  refine ⟨hs.clean, hs.apart, ?_, hs.fresh, hs.scope⟩
  rintro x (hx | rfl)
  · exact hs.own x hx
  · rcases hq : q.bors (q.next - 1) with _ | γ
    · rfl
    · obtain ⟨β, hβ, _⟩ := ht.bors _ γ hq
      have := step_next h hd
      rw [hp.fresh (q.next - 1) (by omega)] at hβ
      cases hβ

theorem Sepd.weaken {U O O' : Nat → Prop} {p : PState V} (h : Sepd U O' p) (ho : ∀ x, O x → O' x) : Sepd U O p :=
  ⟨h.clean, h.apart, fun x hx => h.own x (ho x hx), h.fresh, h.scope⟩

theorem exec_sepd {zero : V} {fuel : Nat} {U : Nat → Prop} (a : Prog V) : ∀ (O : Nat → Prop), WellFormed a → OwnCopies O a → ∀ p, Sepd U O p → EndsIn (Sepd U O) (Spec.exec zero fuel a p) := by
  induction a with
  | skip => intro O _ _ p hp; exact hp
  | throw m => intro O _ _ p hp; exact hp
  | cmd c =>
    intro O _ h p hp
    exact EndsIn.withVal (fun q hq => (step_thin hp h hq).sepd hp) (fun m q hq => (rejects_thin hq).sepd hp)
  | seq a b iha ihb =>
    intro O w h p hp
    exact (iha O w.1 h.1 p hp).andThen (ihb O w.2 h.2) (fun _ h => h)
  | decl c k ih =>
    intro O w h p hp
    simp only [Spec.exec]
    rcases hs : Spec.step zero p c with _ | q
    · rcases hr : rejects p c with _ | ⟨m, q⟩
      · trivial
      · exact (rejects_thin hr).sepd hp
    · exact (ih (q.next - 1) _ (w.2 _) (h.2 _) q (step_decl hp h.1 hs w.1)).mono (fun q' hq' => hq'.weaken (fun x hx => .inl hx))
  | read bool e k ih =>
    intro O w h p hp
    exact EndsIn.withVal (fun v _ => ih v O (w v) (h v) p hp) (fun m q hq => by rw [readRejects_eq hq]; exact hp)
  | index e i k ih =>
    intro O w h p hp
    exact EndsIn.withVal (fun v _ => ih v O (w v) (h v) p hp) (fun m q hq => by rw [indexRejects_eq hq]; exact hp)
  | len e k ih =>
    intro O w h p hp
    exact EndsIn.withVal (fun v _ => ih v O (w v) (h v) p hp) (fun m q hq => by cases hq)
  | loop bool e c body ih =>
    intro O w h p hp
    exact EndsIn.rounds (ih O w h) (fun p m q hq => readRejects_eq hq) fuel p hp
  | forVec x body ih =>
    intro O w h p hp
    simp only [Spec.exec]
    split
    · exact EndsIn.each (fun v => ih v O (w v).1 (h v)) _ p hp
    · exact EndsIn.withVal (fun β _ => EndsIn.eachAt (fun v => ih v O (w v).1 (h v)) _ _ p hp) (fun m q hq => by cases hq)
  | forInt a b body ih =>
    intro O w h p hp
    simp only [Spec.exec]
    split
    · exact EndsIn.each (fun v => ih v O (w v) (h v)) _ p hp
    · trivial
  | forDbl a b body ih =>
    intro O w h p hp
    exact EndsIn.withVal (fun l _ => EndsIn.each (fun v => ih v O (w v) (h v)) _ p hp) (fun m q hq => by cases hq)
  | block body ih =>
    intro O w h p hp
    exact (ih O w h p hp).leave (fun q hq => hq.leave _)
  | tryCatch a b iha ihb =>
    intro O w h p hp
    have h1 : EndsIn (Sepd U O) ((Spec.exec zero fuel a p).leave p) := (iha O w.1 h.1 p hp).leave (fun q hq => hq.leave _)
    simp only [Spec.exec]
    rcases hr : (Spec.exec zero fuel a p).leave p with q | ⟨m, q⟩ | _ | _
    · rw [hr] at h1; exact h1
    · rw [hr] at h1
      exact (ihb m O (w.2 m) (h.2 m) q h1).leave (fun q hq => hq.leave _)
    · trivial
    · trivial

/-! ## Rearranged programs -/

theorem andThen_done {r : Res V} {k : PState V → Res V} {q : PState V} (h : r.andThen k = .done q) : ∃ q1, r = .done q1 ∧ k q1 = .done q := by
  cases r with
  | done q1 => exact ⟨q1, rfl, h⟩
  | threw m q1 => cases h
  | more => cases h
  | stuck => cases h

theorem withVal_is_done {α : Type} {o : Option α} {k : α → Res V} {r : Option (String × PState V)} {q : PState V} (h : withVal o k r = .done q) :
    ∃ a, o = some a ∧ k a = .done q := by
  cases o with
  | some a => exact ⟨a, rfl, h⟩
  | none => rcases r with _ | ⟨m, q1⟩ <;> cases h

/-- What ends normally in a state with `P` ends in the same way in the other program. -/
def DoneSame (P : PState V → Prop) (f g : PState V → Res V) : Prop := ∀ p q, P p → f p = .done q → g p = .done q

theorem DoneSame.seq {P : PState V → Prop} {f f' g g' : PState V → Res V} (h1 : DoneSame P f f') (hp : ∀ p, P p → EndsIn P (f p))
    (h2 : DoneSame P g g') : DoneSame P (fun p => (f p).andThen g) (fun p => (f' p).andThen g') := by
  intro p q hpp h
  obtain ⟨q1, e1, e2⟩ := andThen_done h
  have := hp p hpp
  rw [e1] at this
  show (f' p).andThen g' = _
  rw [h1 p q1 hpp e1]
  exact h2 q1 q this e2

theorem DoneSame.rounds {P : PState V → Prop} {f f' : PState V → Res V} (h : DoneSame P f f') (hp : ∀ p, P p → EndsIn P (f p))
    (test : PState V → Option Bool) (rej : PState V → Option (String × PState V)) (n : Nat) :
    DoneSame P (Spec.rounds test rej f n) (Spec.rounds test rej f' n) := by
  induction n with
  | zero => intro p q _ h; cases h
  | succ n ih =>
    intro p q hpp h1
    obtain ⟨t, e, h1⟩ := withVal_is_done h1
    show withVal (test p) _ _ = _
    rw [e]
    cases t
    · exact h1
    · exact DoneSame.seq h hp ih p q hpp h1

theorem DoneSame.each {α : Type} {P : PState V → Prop} {f f' : α → PState V → Res V} (h : ∀ v, DoneSame P (f v) (f' v))
    (hp : ∀ v p, P p → EndsIn P (f v p)) (l : List α) : DoneSame P (Spec.each f l) (Spec.each f' l) := by
  induction l with
  | nil => exact fun _ _ _ h => h
  | cons v l ih => exact DoneSame.seq (h v) (hp v) ih

theorem DoneSame.eachAt {P : PState V → Prop} {f f' : V → PState V → Res V} (h : ∀ v, DoneSame P (f v) (f' v))
    (hp : ∀ v p, P p → EndsIn P (f v p)) (x n : Nat) : ∀ i, DoneSame P (Spec.eachAt x f n i) (Spec.eachAt x f' n i) := by
  induction n with
  | zero => exact fun _ _ _ _ h => h
  | succ n ih =>
    intro i p q hpp h1
    obtain ⟨v, e, h1⟩ := withVal_is_done h1
    show withVal _ _ = _
    rw [e]
    exact DoneSame.seq (h v) (hp v) (ih (i + 1)) p q hpp h1

theorem DoneSame.leave {P : PState V → Prop} {f f' : PState V → Res V} (h : DoneSame P f f') :
    DoneSame P (fun p => (f p).leave p) (fun p => (f' p).leave p) := by
  intro p q hp h1
  show (f' p).leave p = _
  change (f p).leave p = _ at h1
  rcases e : f p with q1 | ⟨m, q1⟩ | _ | _
  · rw [e] at h1
    rw [h p q1 hp e]; exact h1
  all_goals (rw [e] at h1; cases h1)

theorem cmd_done {zero : V} {fuel : Nat} {c : Cmd V} {p q : PState V} : Spec.exec zero fuel (.cmd c) p = .done q ↔ Spec.step zero p c = some q := by
  constructor
  · intro h
    obtain ⟨a, e, h⟩ := withVal_is_done h
    cases h; exact e
  · intro h
    simp only [Spec.exec, h]; rfl

theorem cmds_done {zero : V} {fuel : Nat} {c d : Cmd V} {p q : PState V} :
    Spec.exec zero fuel (.seq (.cmd c) (.cmd d)) p = .done q ↔ Spec.run zero [c, d] p = some q := by
  constructor
  · intro h
    obtain ⟨q1, h1, h2⟩ := andThen_done h
    simp only [Spec.run, Option.bind_eq_bind, cmd_done.1 h1, Option.bind_some, cmd_done.1 h2]
  · intro h
    simp only [Spec.run, Option.bind_eq_bind, Option.bind_eq_some_iff] at h
    obtain ⟨q1, h1, q2, h2, h3⟩ := h
    cases h3
    simp only [Spec.exec, h1, withVal, Res.andThen, h2]

theorem seq2_done {zero : V} {fuel : Nat} {a b c : Prog V} {p q : PState V} :
    Spec.exec zero fuel (.seq a (.seq b c)) p = .done q ↔ ∃ q2, Spec.exec zero fuel (.seq a b) p = .done q2 ∧ Spec.exec zero fuel c q2 = .done q := by
  constructor
  · intro h
    obtain ⟨q1, h1, h2⟩ := andThen_done h
    obtain ⟨q2, h2, h3⟩ := andThen_done h2
    exact ⟨q2, by simp only [Spec.exec, h1, Res.andThen, h2], h3⟩
  · rintro ⟨q2, h1, h3⟩
    obtain ⟨q1, h1, h2⟩ := andThen_done h1
    simp only [Spec.exec, h1, Res.andThen, h2, h3]

/-- The rearranged program ends in the same state. -/
theorem Spec.Rearranged.same {zero : V} {fuel : Nat} {U : Nat → Prop} {a a' : Prog V} (h : Rearranged U a a') : ∀ (O : Nat → Prop), WellFormed a →
    OwnCopies O a → DoneSame (Sepd U O) (Spec.exec zero fuel a) (Spec.exec zero fuel a') := by
  induction h with
  | refl a => exact fun _ _ _ _ _ _ h => h
  | exchange hc hd hxy hr ht _ i =>
    intro O w o p q hp h
    have ap : ∀ x y, x ≠ y → Apart p x y := fun x y hne => ⟨hne, fun β γ h1 h2 => hp.apart x y β γ hne h1 h2⟩
    obtain ⟨q2, h1, h2⟩ := seq2_done.1 h
    have h3 := (cmds_done (fuel := fuel)).2 (run_exchange hp.clean hc hd (ap _ _ hxy) (fun z hz => ap _ _ (by rintro rfl; exact hr hz))
      (fun z hz => ap _ _ (by rintro rfl; exact ht hz)) (cmds_done.1 h1))
    have hq := exec_sepd (fuel := fuel) (zero := zero) (.seq (.cmd _) (.cmd _)) O (U := _) ⟨trivial, trivial⟩ ⟨o.1, o.2.1⟩ p hp
    rw [h1] at hq
    exact seq2_done.2 ⟨q2, h3, i O w.2.2 o.2.2 q2 q hq h2⟩
  | overwritten hr _ i =>
    intro O w o p q hp h
    have ap : ∀ x y, x ≠ y → Apart p x y := fun x y hne => ⟨hne, fun β γ h1 h2 => hp.apart x y β γ hne h1 h2⟩
    obtain ⟨q2, h1, h2⟩ := seq2_done.1 h
    have := run_overwritten hp.clean (fun z hz => ap _ _ (by rintro rfl; exact hr hz)) (cmds_done.1 h1)
    simp only [Spec.run, Option.bind_eq_bind, Option.bind_eq_some_iff] at this
    obtain ⟨q1, h3, h4⟩ := this
    cases h4
    have hq := exec_sepd (fuel := fuel) (zero := zero) (.seq (.cmd _) (.cmd _)) O (U := _) ⟨trivial, trivial⟩ ⟨o.1, o.2.1⟩ p hp
    rw [h1] at hq
    have h3 := (cmd_done (fuel := fuel)).2 h3
    simp only [Spec.exec] at h3 ⊢
    rw [h3]
    exact i O w.2.2 o.2.2 q2 q hq h2
  | seq h1 _ i j => exact fun O w o => DoneSame.seq (i O w.1 o.1) (exec_sepd _ O w.1 o.1) (j O w.2 o.2)
  | decl c _ i =>
    intro O w o p q hp h
    obtain ⟨q1, h1, h2⟩ := andThen_done h
    have h1 := cmd_done (zero := zero) (fuel := fuel) |>.1 h1
    simp only [Spec.exec, h1, withVal, Res.andThen]
    have hn := step_next h1 w.1
    have hd := step_decl hp o.1 h1 w.1
    refine i _ (fun hu => ?_) _ (w.2 _) (o.2 _) q1 q ⟨hd.clean, hd.apart, hd.own, hd.fresh, ?_⟩ h2
    · have := hp.scope _ hu; omega
    · rintro x (hx | rfl)
      · have := hp.scope x hx; omega
      · omega
  | read bool e _ i =>
    intro O w o p q hp h
    obtain ⟨v, e, h1⟩ := withVal_is_done h
    simp only [Spec.exec, e, withVal]
    exact i v O (w v) (o v) p q hp h1
  | index e j _ i =>
    intro O w o p q hp h
    obtain ⟨v, e, h1⟩ := withVal_is_done h
    simp only [Spec.exec, e, withVal]
    exact i v O (w v) (o v) p q hp h1
  | len e _ i =>
    intro O w o p q hp h
    obtain ⟨v, e, h1⟩ := withVal_is_done h
    simp only [Spec.exec, e, withVal]
    exact i v O (w v) (o v) p q hp h1
  | loop bool e c _ i => exact fun O w o => DoneSame.rounds (i O w o) (exec_sepd _ O w o) _ _ fuel
  | forVec x _ i =>
    intro O w o p q hp h
    simp only [Spec.exec] at h ⊢
    split
    · rename_i v hv
      rw [hv] at h
      exact DoneSame.each (fun v => i v O (w v).1 (o v)) (fun v => exec_sepd _ O (w v).1 (o v)) _ p q hp h
    · rename_i hv
      rw [hv] at h
      obtain ⟨β, e, h1⟩ := withVal_is_done h
      rw [e]
      exact DoneSame.eachAt (fun v => i v O (w v).1 (o v)) (fun v => exec_sepd _ O (w v).1 (o v)) _ _ _ p q hp h1
  | forInt a b _ i =>
    intro O w o p q hp h
    simp only [Spec.exec] at h ⊢
    split at h
    · rename_i hc
      rw [if_pos hc]
      exact DoneSame.each (fun v => i v O (w v) (o v)) (fun v => exec_sepd _ O (w v) (o v)) _ p q hp h
    · cases h
  | forDbl a b _ i =>
    intro O w o p q hp h
    obtain ⟨l, e, h1⟩ := withVal_is_done h
    simp only [Spec.exec, e, withVal]
    exact DoneSame.each (fun v => i v O (w v) (o v)) (fun v => exec_sepd _ O (w v) (o v)) _ p q hp h1
  | block _ i => exact fun O w o => DoneSame.leave (i O w o)
  | handler a _ i =>
    intro O w o p q hp h
    have h1 : EndsIn (Sepd _ O) ((Spec.exec zero fuel a p).leave p) := (exec_sepd a O w.1 o.1 p hp).leave (fun q hq => hq.leave _)
    simp only [Spec.exec] at h ⊢
    rcases hr : (Spec.exec zero fuel a p).leave p with q1 | ⟨m, q1⟩ | _ | _
    · rw [hr] at h; exact h
    · rw [hr] at h h1
      exact DoneSame.leave (i m O (w.2 m) (o.2 m)) q1 q h1 h
    · rw [hr] at h; cases h
    · rw [hr] at h; cases h

/-- C105 in programs with `if`, `while`, loops over vectors and ranges, blocks with local vectors and handlers: neighbouring independent
statements can be exchanged and overwritten assignments left out, at any number of places outside of the bodies of `try`, and again in
the resulting program, which has the same meaning.  The library runs both programs, and at the end every vector and every array of the caller has the same elements.  `pre` declares the vectors
that borrow, from different arrays; the program itself makes vectors that own their memory.

Missing: programs outside of the naive semantics (the operations excluded in C18), bodies of `try` (which statement throws first depends
on the order). -/
theorem C105_control_partial (zero : V) (fuel : Nat) {ls : List (List V)} {pre : List (Cmd V)} {p q : PState V}
    (hpre : Spec.run zero pre (PState.caller ls) = some p)
    (hap : ∀ x y β γ, x ≠ y → p.bors x = some β → p.bors y = some γ → β.arr ≠ γ.arr) {a a' : Prog V} (h : Rearranged (· < p.next) a a')
    (hw : WellFormed a) (hw' : WellFormed a') (ho : OwnCopies (fun x => p.bors x = none) a) (he : Spec.exec zero fuel a p = .done q) (ws : List String) :
    Spec.exec zero fuel a' p = .done q ∧ ∃ s0 ws1 s ws2 s', Mach.runOk zero (ls.map .callerArray ++ pre) Mach.start = (.ok (), s0) ∧
      a.run zero fuel (ws, s0) = some (.ok (), (ws1, s)) ∧ a'.run zero fuel (ws, s0) = some (.ok (), (ws2, s')) ∧
      (∀ z l, q.lists z = some l → Mach.ShowsVar s z l ∧ Mach.ShowsVar s' z l) ∧
      ∀ b l, q.arrays b = some l → ∀ i (hi : i < l.length), s.heap.load (some b) i = .ok l[i] ∧ s'.heap.load (some b) i = .ok l[i] := by
  obtain ⟨s1, e1, R1⟩ := Mach.Rep.caller (zero := zero) ls
  obtain ⟨s0, e0, R0⟩ := R1.run hpre
  have hs : Sepd (· < p.next) (fun x => p.bors x = none) p := ⟨R0.clean, hap, fun x hx => hx, fun x hx => by
    rcases hb : p.bors x with _ | β
    · rfl
    · obtain ⟨l, _, L⟩ := R0.b.bors x β hb
      have := L.lt
      rw [R0.n] at this
      omega, fun x hx => hx⟩
  have he' := h.same (zero := zero) (fuel := fuel) _ hw ho p q hs he
  have g := sim zero fuel a hw s0 p ws R0
  have g' := sim zero fuel a' hw' s0 p ws R0
  rw [he] at g
  rw [he'] at g'
  obtain ⟨ws1, s, e, R, _⟩ := g
  obtain ⟨ws2, s', e', R', _⟩ := g'
  have arr : ∀ {s : Mach V}, Mach.Rep s q → ∀ b l, q.arrays b = some l → ∀ i (hi : i < l.length), s.heap.load (some b) i = .ok l[i] := by
    intro s R b l hl i hi
    obtain ⟨_, k2⟩ := R.b.arrays b l hl
    exact Heap.load_some (by rw [k2]; rfl) (by rw [k2]; exact hi) (by rw [k2]; exact List.getElem?_eq_getElem _)
  exact ⟨he', s0, ws1, s, ws2, s', by rw [Mach.runOk_append e1]; exact e0, e, e', fun z l hl => ⟨R.agrees z l hl, R'.agrees z l hl⟩,
    fun b l hl i hi => ⟨arr R b l hl i hi, arr R' b l hl i hi⟩⟩

/-- `for (i : colon(1, 3)) { vec t = a; t = c(9); t = a + i; b = i; a = t; }` with `a` and `b` on arrays of the caller. -/
def rearrangeBefore : Prog Int :=
  .forInt 1 3 fun i => .block <| .decl (.declExpr .ok (.leaf 0)) fun t =>
    .seq (.cmd (.assign .ok t (.rvec [9] {}))) <| .seq (.cmd (.assign .ok t (.bin (fun a b => .ok (a + b)) (.leaf 0) (.scal i)))) <|
    .seq (.cmd (.assignScalar 1 i)) <| .seq (.cmd (.assign .ok 0 (.leaf t))) .skip

/-- The overwritten assignment is left out, and the last two statements are exchanged. -/
def rearrangeAfter : Prog Int :=
  .forInt 1 3 fun i => .block <| .decl (.declExpr .ok (.leaf 0)) fun t =>
    .seq (.cmd (.assign .ok t (.bin (fun a b => .ok (a + b)) (.leaf 0) (.scal i)))) <|
    .seq (.cmd (.assign .ok 0 (.leaf t))) <| .seq (.cmd (.assignScalar 1 i)) .skip

theorem rearranged_sample : Rearranged (· < 2) rearrangeBefore rearrangeAfter := by
  refine .forInt _ _ fun i => .block <| .decl _ fun y hy => ?_
  have h0 : y ≠ 0 := by rintro rfl; exact hy (by decide)
  have h1 : y ≠ 1 := by rintro rfl; exact hy (by decide)
  refine .overwritten (by simpa [exprReads] using h0) (.exchange .assignScalar .assign (by decide) (by simp) ?_ (.refl _))
  simpa [exprReads] using h1.symm

/-- The hypotheses hold; at the end `a` is `1 2 3` and `b` is `3`. -/
example : ∃ p q, Spec.run 0 [.declBorrow (some 0) 3, .declBorrow (some 1) 1] (PState.caller [[-5, -4, -3], [8]]) = some p ∧
    (∀ x y β γ, x ≠ y → p.bors x = some β → p.bors y = some γ → β.arr ≠ γ.arr) ∧ Rearranged (· < p.next) rearrangeBefore rearrangeAfter ∧
    WellFormed rearrangeBefore ∧ WellFormed rearrangeAfter ∧ OwnCopies (fun x => p.bors x = none) rearrangeBefore ∧
    Spec.exec 0 1 rearrangeBefore p = .done q ∧ q.lists 0 = some [1, 2, 3] ∧ q.lists 1 = some [3] := by
  refine ⟨_, _, rfl, ?_, rearranged_sample, fun i => ⟨rfl, fun y => ⟨trivial, trivial, trivial, trivial, trivial⟩⟩,
    fun i => ⟨rfl, fun y => ⟨trivial, trivial, trivial, trivial⟩⟩, fun i => ⟨trivial, fun y => ⟨trivial, trivial, trivial, trivial, trivial⟩⟩, rfl,
    by decide +kernel, by decide +kernel⟩
  intro x y β γ hne hx hy
  have hb : ∀ x β, (if x = 0 + 1 then some (⟨1, 1, 1⟩ : Bor) else if x = 0 then some ⟨0, 3, 3⟩ else none) = some β → x = β.arr := by
    intro x β h
    by_cases h1 : x = 0 + 1
    · rw [if_pos h1] at h; cases h; exact h1
    · rw [if_neg h1] at h
      by_cases h2 : x = 0
      · rw [if_pos h2] at h; cases h; exact h2
      · rw [if_neg h2] at h; cases h
  rw [← hb x β hx, ← hb y γ hy]
  exact hne

end ETR
