import Verif.Model.Control

/-! Specification for C114: C++ leaves open which operand of a binary operation is evaluated first. -/

namespace ETR.Spec
variable {V : Type}

/-- The outcomes that the reading of the operand at its position can have: `p` is the position, or the failure to compute it. -/
def CanAt (can : Nat → Out V → Prop) : Out Nat → Out V → Prop
  | .ok k, o => can k o
  | .thr m, o => o = .thr m
  | .ub u, o => o = .ub u

/-- `Can env e i o`: reading element `i` of `e` can have the outcome `o`, if the order of the operands is chosen anew for each operation and
each reading.  The operand that is evaluated first decides if both fail. -/
def Can (env : Env V) : Expr V → Nat → Out V → Prop
  | .leaf x, i, o => o = env.get x i
  | .rvec l _, i, o => o = getL l i
  | .scal v, _, o => o = .ok v
  | .un f e, i, o => ∃ a, CanAt (Can env e) (posOf e.isScal (e.size env) i) a ∧ o = a >>= f
  | .bin f l r, i, o => ∃ a b, CanAt (Can env l) (posOf l.isScal (l.size env) i) a ∧
      CanAt (Can env r) (posOf r.isScal (r.size env) i) b ∧
      (o = (a >>= fun x => b >>= fun y => f x y) ∨ o = (b >>= fun y => a >>= fun x => f x y))
  | .sub e ind _, i, o => CanAt (Can env e) (modz i (e.size env) >>= getL ind) o

/-- `Reorder e e'`: `e'` is `e` with the other order of evaluation at some of the operations.  (`e.el` evaluates the first operand of `bin`
first.) -/
inductive Reorder : Expr V → Expr V → Prop
  | refl (e : Expr V) : Reorder e e
  | un (f : V → Out V) {e e' : Expr V} : Reorder e e' → Reorder (.un f e) (.un f e')
  | bin (f : V → V → Out V) {l l' r r' : Expr V} : Reorder l l' → Reorder r r' → Reorder (.bin f l r) (.bin f l' r')
  | other (f : V → V → Out V) {l l' r r' : Expr V} : Reorder l l' → Reorder r r' → Reorder (.bin f l r) (.bin (fun a b => f b a) r' l')
  | sub {e e' : Expr V} (ind : List Nat) (mp : MP) : Reorder e e' → Reorder (.sub e ind mp) (.sub e' ind mp)

/-- The same statement, compiled with another order of evaluation. -/
inductive ReorderCmd : Cmd V → Cmd V → Prop
  | refl (c : Cmd V) : ReorderCmd c c
  | declExpr (conv : V → Out V) {e e' : Expr V} : Reorder e e' → ReorderCmd (.declExpr conv e) (.declExpr conv e')
  | assign (conv : V → Out V) (x : Nat) {e e' : Expr V} : Reorder e e' → ReorderCmd (.assign conv x e) (.assign conv x e')
  | subAssign (conv : V → Out V) (same : Bool) (x : Nat) (ind : List Nat) {e e' : Expr V} :
    Reorder e e' → ReorderCmd (.subAssign conv same x ind e) (.subAssign conv same x ind e')

/-- The same program, compiled with another order of evaluation.  In the bodies of `try` the order is the same. -/
inductive ReorderProg : Prog V → Prog V → Prop
  | refl (a : Prog V) : ReorderProg a a
  | cmd {c c' : Cmd V} : ReorderCmd c c' → ReorderProg (.cmd c) (.cmd c')
  | seq {a a' b b' : Prog V} : ReorderProg a a' → ReorderProg b b' → ReorderProg (.seq a b) (.seq a' b')
  | decl {c c' : Cmd V} {k k' : Nat → Prog V} : ReorderCmd c c' → (∀ y, ReorderProg (k y) (k' y)) → ReorderProg (.decl c k) (.decl c' k')
  | read (bool : Bool) {e e' : Expr V} {k k' : V → Prog V} : Reorder e e' → (∀ v, ReorderProg (k v) (k' v)) →
    ReorderProg (.read bool e k) (.read bool e' k')
  | index (i : Index) {e e' : Expr V} {k k' : List Nat → Prog V} : Reorder e e' → (∀ v, ReorderProg (k v) (k' v)) →
    ReorderProg (.index e i k) (.index e' i k')
  | len {e e' : Expr V} {k k' : Int → Prog V} : Reorder e e' → (∀ v, ReorderProg (k v) (k' v)) → ReorderProg (.len e k) (.len e' k')
  | loop (bool : Bool) (c : V → Bool) {e e' : Expr V} {body body' : Prog V} : Reorder e e' → ReorderProg body body' →
    ReorderProg (.loop bool e c body) (.loop bool e' c body')
  | forVec (x : Nat) {body body' : V → Prog V} : (∀ v, ReorderProg (body v) (body' v)) → ReorderProg (.forVec x body) (.forVec x body')
  | forInt (a b : Int) {body body' : Int → Prog V} : (∀ v, ReorderProg (body v) (body' v)) →
    ReorderProg (.forInt a b body) (.forInt a b body')
  | forDbl (a b : F64) {body body' : F64 → Prog V} : (∀ v, ReorderProg (body v) (body' v)) →
    ReorderProg (.forDbl a b body) (.forDbl a b body')
  | block {body body' : Prog V} : ReorderProg body body' → ReorderProg (.block body) (.block body')
  | tryCatch (a : Prog V) {b b' : String → Prog V} : (∀ m, ReorderProg (b m) (b' m)) → ReorderProg (.tryCatch a b) (.tryCatch a b')

end ETR.Spec
