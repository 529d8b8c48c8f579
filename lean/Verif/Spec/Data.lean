import Verif.Model.Control

/-!
# Programs that differ in their data

Two programs have the same text, but different element types, numbers and element functions.  `R` says which elements correspond to each
other.
-/

namespace ETR
namespace Spec
variable {V W : Type}

/-- The outcomes are of the same kind, with the same message or kind of undefined behaviour, and returned values correspond. -/
def SameOut {α β : Type} (R : α → β → Prop) : Out α → Out β → Prop
  | .ok a, .ok b => R a b
  | .thr m, .thr m' => m = m'
  | .ub k, .ub k' => k = k'
  | _, _ => False

/-- The same formula over corresponding data. -/
inductive SameExpr (R : V → W → Prop) : Expr V → Expr W → Prop
  | leaf (x) : SameExpr R (.leaf x) (.leaf x)
  | rvec {l l'} (mp) : List.Forall₂ R l l' → SameExpr R (.rvec l mp) (.rvec l' mp)
  | scal {v v'} : R v v' → SameExpr R (.scal v) (.scal v')
  | un {f : V → Out V} {f' : W → Out W} {e e'} : (∀ a a', R a a' → SameOut R (f a) (f' a')) → SameExpr R e e' → SameExpr R (.un f e) (.un f' e')
  | bin {f : V → V → Out V} {f' : W → W → Out W} {l r l' r'} : (∀ a a' b b', R a a' → R b b' → SameOut R (f a b) (f' a' b')) →
      SameExpr R l l' → SameExpr R r r' → SameExpr R (.bin f l r) (.bin f' l' r')
  | sub {e e'} (ind mp) : SameExpr R e e' → SameExpr R (.sub e ind mp) (.sub e' ind mp)

/-- The same operation over corresponding data. -/
inductive SameCmd (R : V → W → Prop) : Cmd V → Cmd W → Prop
  | callerArray {l l'} : List.Forall₂ R l l' → SameCmd R (.callerArray l) (.callerArray l')
  | declDefault : SameCmd R .declDefault .declDefault
  | declSize (n) : SameCmd R (.declSize n) (.declSize n)
  | declScalar {v v'} : R v v' → SameCmd R (.declScalar v) (.declScalar v')
  | declMat (r c) : SameCmd R (.declMat r c) (.declMat r c)
  | declMatVal (r c) {v v'} : R v v' → SameCmd R (.declMatVal r c v) (.declMatVal r c v')
  | declCopy (y) : SameCmd R (.declCopy y) (.declCopy y)
  | declExpr {conv : V → Out V} {conv' : W → Out W} {e e'} : (∀ a a', R a a' → SameOut R (conv a) (conv' a')) → SameExpr R e e' →
      SameCmd R (.declExpr conv e) (.declExpr conv' e')
  | declTemp {l l'} (mp) : List.Forall₂ R l l' → SameCmd R (.declTemp l mp) (.declTemp l' mp)
  | declPtr (p n) : SameCmd R (.declPtr p n) (.declPtr p n)
  | declBorrow (p n) : SameCmd R (.declBorrow p n) (.declBorrow p n)
  | assign {conv : V → Out V} {conv' : W → Out W} (x) {e e'} : (∀ a a', R a a' → SameOut R (conv a) (conv' a')) → SameExpr R e e' →
      SameCmd R (.assign conv x e) (.assign conv' x e')
  | assignScalar (x) {v v'} : R v v' → SameCmd R (.assignScalar x v) (.assignScalar x v')
  | subAssign {conv : V → Out V} {conv' : W → Out W} (same x ind) {e e'} : (∀ a a', R a a' → SameOut R (conv a) (conv' a')) →
      SameExpr R e e' → SameCmd R (.subAssign conv same x ind e) (.subAssign conv' same x ind e')
  | subAssignScalar (x ind) {v v'} : R v v' → SameCmd R (.subAssignScalar x ind v) (.subAssignScalar x ind v')
  | setElem (x i) {v v'} : R v v' → SameCmd R (.setElem x i v) (.setElem x i v')
  | resize (x n) : SameCmd R (.resize x n) (.resize x n)
  | fill (x) {v v'} : R v v' → SameCmd R (.fill x v) (.fill x v')
  | fillVec (x y) : SameCmd R (.fillVec x y) (.fillVec x y)
  | pushBack (x) {v v'} : R v v' → SameCmd R (.pushBack x v) (.pushBack x v')
  | storeAssign (x y) : SameCmd R (.storeAssign x y) (.storeAssign x y)
  | destroy (x) : SameCmd R (.destroy x) (.destroy x)

/-- What can be seen of two states corresponds: lengths and dimensions are equal, reading an element has the same outcome. -/
def SameView (R : V → W → Prop) (s : Mach V) (s' : Mach W) : Prop :=
  ∀ x, s.env.size x = s'.env.size x ∧ s.env.mp x = s'.env.mp x ∧ ∀ i, SameOut R (s.env.get x i) (s'.env.get x i)

/-- The same program with control flow over corresponding data: what depends on an element that was read is the same program for
corresponding elements, and the conditions of loops agree on them. -/
inductive SameProg (R : V → W → Prop) : Prog V → Prog W → Prop
  | skip : SameProg R .skip .skip
  | cmd {c c'} : SameCmd R c c' → SameProg R (.cmd c) (.cmd c')
  | seq {a b a' b'} : SameProg R a a' → SameProg R b b' → SameProg R (.seq a b) (.seq a' b')
  | decl {c c' k k'} : SameCmd R c c' → (∀ x, SameProg R (k x) (k' x)) → SameProg R (.decl c k) (.decl c' k')
  | read (bool) {e e' k k'} : SameExpr R e e' → (∀ v v', R v v' → SameProg R (k v) (k' v')) → SameProg R (.read bool e k) (.read bool e' k')
  | index (i) {e e' k k'} : SameExpr R e e' → (∀ l, SameProg R (k l) (k' l)) → SameProg R (.index e i k) (.index e' i k')
  | len {e e' k k'} : SameExpr R e e' → (∀ n, SameProg R (k n) (k' n)) → SameProg R (.len e k) (.len e' k')
  | loop (bool) {e e'} {c : V → Bool} {c' : W → Bool} {b b'} : SameExpr R e e' → (∀ v v', R v v' → c v = c' v') → SameProg R b b' →
      SameProg R (.loop bool e c b) (.loop bool e' c' b')
  | forVec (x) {b b'} : (∀ v v', R v v' → SameProg R (b v) (b' v')) → SameProg R (.forVec x b) (.forVec x b')
  | forInt (a b) {k k'} : (∀ i, SameProg R (k i) (k' i)) → SameProg R (.forInt a b k) (.forInt a b k')
  | forDbl (a b) {k k'} : (∀ i, SameProg R (k i) (k' i)) → SameProg R (.forDbl a b k) (.forDbl a b k')
  | block {b b'} : SameProg R b b' → SameProg R (.block b) (.block b')
  | throw (m) : SameProg R (.throw m) (.throw m)
  | tryCatch {a a' b b'} : SameProg R a a' → (∀ m, SameProg R (b m) (b' m)) → SameProg R (.tryCatch a b) (.tryCatch a' b')

/-- The results of two programs correspond: both did not end within the bound, or they ended in the same way with the same warnings. -/
def SameEnd (R : V → W → Prop) : Option (Out Unit × Prog.St V) → Option (Out Unit × Prog.St W) → Prop
  | none, none => True
  | some (o, s), some (o', s') => o = o' ∧ s.1 = s'.1 ∧ SameView R s.2 s'.2
  | _, _ => False

end Spec
end ETR
