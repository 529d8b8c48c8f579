import Verif.Spec.Control

/-!
# Permitted programs with control flow

Every operation that the execution reaches is allowed in the state in which it is reached (`Mach.Allowed`, as for
histories in C06), the functions in tested expressions work on values, ranges have at most `2^30` elements, and the body
of a loop over a vector does not move the memory of that vector (it may write its elements).
-/

namespace ETR
namespace Spec
open Prog
variable {V : Type} {σ : Type}

/-- The states in which the condition of a `while` loop that is entered in `s0` is tested. -/
inductive Heads (test : σ → Out Bool × σ) (body : σ → Option (Out Unit × σ)) (s0 : σ) : σ → Prop
  | first : Heads test body s0 s0
  | next {s s1 s2 : σ} : Heads test body s0 s → test s = (.ok true, s1) → body s1 = some (.ok (), s2) →
      Heads test body s0 s2

/-- Round `i` of a loop over the list `l` starts in the state `s`. -/
inductive RoundOf {α : Type} (body : α → σ → Option (Out Unit × σ)) (l : List α) (s0 : σ) : Nat → σ → Prop
  | first : RoundOf body l s0 0 s0
  | next {i : Nat} {s s1 : σ} {a : α} : RoundOf body l s0 i s → l[i]? = some a → body a s = some (.ok (), s1) →
      RoundOf body l s0 (i + 1) s1

/-- Round `i` of a loop over the memory at `p` starts in the state `s`. -/
inductive RoundAt (p : Ptr) (body : V → St V → Option (Out Unit × St V)) (s0 : St V) : Nat → St V → Prop
  | first : RoundAt p body s0 0 s0
  | next {i : Nat} {s s1 : St V} {v : V} : RoundAt p body s0 i s → s.2.heap.load p i = .ok v →
      body v s = some (.ok (), s1) → RoundAt p body s0 (i + 1) s1

/-- The condition of a `while` loop. -/
def testOf (bool : Bool) (e : Expr V) (c : V → Bool) (s : St V) : Out Bool × St V :=
  say (do let v ← toScalar bool s.2.env e; return c v) s

/-- The command occurs in the program. -/
def HasCmd (c : Cmd V) : Prog V → Prop
  | .skip => False
  | .cmd d => d = c
  | .seq a b => HasCmd c a ∨ HasCmd c b
  | .decl d k => d = c ∨ ∃ y, HasCmd c (k y)
  | .read _ _ k => ∃ v, HasCmd c (k v)
  | .index _ _ k => ∃ r, HasCmd c (k r)
  | .len _ k => ∃ n, HasCmd c (k n)
  | .loop _ _ _ body => HasCmd c body
  | .forVec _ body => ∃ v, HasCmd c (body v)
  | .forInt _ _ body => ∃ i, HasCmd c (body i)
  | .forDbl _ _ body => ∃ i, HasCmd c (body i)
  | .block body => HasCmd c body
  | .throw _ => False
  | .tryCatch a b => HasCmd c a ∨ ∃ m, HasCmd c (b m)

/-- The program has no `try` block. -/
def NoTry : Prog V → Prop
  | .skip | .cmd _ => True
  | .seq a b => NoTry a ∧ NoTry b
  | .decl _ k => ∀ y, NoTry (k y)
  | .read _ _ k => ∀ v, NoTry (k v)
  | .index _ _ k => ∀ r, NoTry (k r)
  | .len _ k => ∀ n, NoTry (k n)
  | .loop _ _ _ body => NoTry body
  | .forVec _ body => ∀ v, NoTry (body v)
  | .forInt _ _ body => ∀ i, NoTry (body i)
  | .forDbl _ _ body => ∀ i, NoTry (body i)
  | .block body => NoTry body
  | .throw _ => True
  | .tryCatch _ _ => False

/-- The operation leaves the memory of the vector `x` where it is (it may write elements). -/
def Stays (x : Nat) : Cmd V → Prop
  | .setElem _ _ _ | .fill _ _ | .subAssignScalar _ _ _ => True
  | c => c.target ≠ some x

/-- No operation of the program moves the memory of the vector `x`. -/
def Rests (x : Nat) : Prog V → Prop
  | .skip => True
  | .cmd c => Stays x c
  | .seq a b => Rests x a ∧ Rests x b
  | .decl c k => c.isDecl = true ∧ Stays x c ∧ ∀ y, y ≠ x → Rests x (k y)
  | .read _ _ k => ∀ v, Rests x (k v)
  | .index _ _ k => ∀ r, Rests x (k r)
  | .len _ k => ∀ n, Rests x (k n)
  | .loop _ _ _ body => Rests x body
  | .forVec _ body => ∀ v, Rests x (body v)
  | .forInt _ _ body => ∀ i, Rests x (body i)
  | .forDbl _ _ body => ∀ i, Rests x (body i)
  | .block body => Rests x body
  | .throw _ => True
  | .tryCatch a b => Rests x a ∧ ∀ m, Rests x (b m)

/-- Everything that the execution reaches is permitted. -/
def Permits (zero : V) (fuel : Nat) : Prog V → St V → Prop
  | .skip, _ => True
  | .cmd c, s => s.2.Allowed c
  | .seq a b, s => Permits zero fuel a s ∧ ∀ s', a.run zero fuel s = some (.ok (), s') → Permits zero fuel b s'
  | .decl c k, s => s.2.Allowed c ∧
      ∀ s', Mach.exec zero c s.2 = (.ok (), s') → Permits zero fuel (k (s'.n - 1)) (s.1, s')
  | .read bool e k, s => e.FunSafe ∧
      ∀ v s', say (toScalar bool s.2.env e) s = (.ok v, s') → Permits zero fuel (k v) s'
  | .index e i k, s => ∀ r s', say (calcIndVector (e.size s.2.env) i) s = (.ok r, s') → Permits zero fuel (k r) s'
  | .len e k, s => Permits zero fuel (k (lengthOf s.2.env e)) s
  | .loop bool e c body, s => e.FunSafe ∧
      ∀ s1 s2, Heads (testOf bool e c) (body.run zero fuel) s s1 → testOf bool e c s1 = (.ok true, s2) →
        Permits zero fuel body s2
  | .forVec x body, s => (∀ v, Rests x (body v)) ∧
      ∀ i s1 v, i < (s.2.st (x, false)).sz →
        RoundAt (s.2.st (x, false)).p (fun v => (body v).run zero fuel) s i s1 →
        s1.2.heap.load (s.2.st (x, false)).p i = .ok v → Permits zero fuel (body v) s1
  | .forInt a b body, s => |b - a| < 2 ^ 30 ∧
      ∀ l s0 i s1 v, range (colonI a b) s = (.ok l, s0) →
        RoundOf (fun v => (body v).run zero fuel) l s0 i s1 → l[i]? = some v → Permits zero fuel (body v) s1
  | .forDbl a b body, s => (∀ ws n ws', convertSizeD (F64.add (F64.sub b a) (.fin 1)) ws = (.ok n, ws') → n ≤ 2 ^ 30) ∧
      (∀ ws n ws', convertSizeD (F64.add (F64.sub a b) (.fin 1)) ws = (.ok n, ws') → n ≤ 2 ^ 30) ∧
      ∀ l s0 i s1 v, range (colonD a b) s = (.ok l, s0) →
        RoundOf (fun v => (body v).run zero fuel) l s0 i s1 → l[i]? = some v → Permits zero fuel (body v) s1
  | .block body, s => Permits zero fuel body s
  | .throw _, _ => True
  | .tryCatch a b, s => Permits zero fuel a s ∧
      ∀ m s', inBlock (a.run zero fuel) s = some (.thr m, s') → Permits zero fuel (b m) s'

/-! ## Scopes -/

/-- The variables in scope: what their type says, memory of their own (`Vec<T, Buffer>`, `false`) or borrowed memory (`Vec<T, Borrow>`,
`true`). -/
abbrev Scope : Type := Nat → Option Bool

/-- The operation is one that compiles: its target is in scope, appending is deleted for borrowed memory (Borrow.hpp 160), and vectors are
destroyed by the end of their block only.  (The assignment of the member `d` is modelled for own memory.) -/
def FitsScope (Γ : Scope) : Cmd V → Prop
  | .destroy _ => False
  | .pushBack x _ | .storeAssign x _ => Γ x = some false
  | .declCopy y => Γ y ≠ none
  | c => ∀ x, c.target = some x → Γ x ≠ none

/-- The type of the vector that a declaration makes. -/
def kindOf (Γ : Scope) : Cmd V → Bool
  | .declBorrow _ _ => true
  | .declCopy y => Γ y = some true
  | _ => false

/-- Every operation of the program is applied to a vector in scope.  A declaration adds the new vector to the scope of what follows. -/
def WellScoped : Scope → Prog V → Prop
  | _, .skip | _, .throw _ => True
  | Γ, .cmd c => FitsScope Γ c
  | Γ, .seq a b => WellScoped Γ a ∧ WellScoped Γ b
  | Γ, .decl c k => c.isDecl = true ∧ FitsScope Γ c ∧
      ∀ y, Γ y = none → WellScoped (fun x => if x = y then some (kindOf Γ c) else Γ x) (k y)
  | Γ, .read _ _ k => ∀ v, WellScoped Γ (k v)
  | Γ, .index _ _ k => ∀ r, WellScoped Γ (k r)
  | Γ, .len _ k => ∀ n, WellScoped Γ (k n)
  | Γ, .loop _ _ _ body => WellScoped Γ body
  | Γ, .forVec _ body => ∀ v, WellScoped Γ (body v)
  | Γ, .forInt _ _ body => ∀ i, WellScoped Γ (body i)
  | Γ, .forDbl _ _ body => ∀ i, WellScoped Γ (body i)
  | Γ, .block body => WellScoped Γ body
  | Γ, .tryCatch a b => WellScoped Γ a ∧ ∀ m, WellScoped Γ (b m)

end Spec
end ETR
