import Verif.Model.Held

/-!
# Named expressions as abbreviations

A held expression stands for the text of its declaration, with older names expanded: `Term`.  There are
no objects and no references here, only names and the set of names that are in scope.
-/

namespace ETR
namespace Spec
variable {V : Type}

/-- An expression over names: vectors, number variables, and held expressions together with what
they stand for. -/
inductive Term (V : Type) where
  | vec (x : Nat)
  | var (k : Nat)
  | name (k : Nat) (t : Term V)
  | rvec (l : List V) (mp : MP)
  | un (f : V → Out V) (t : Term V)
  | bin (f : V → V → Out V) (l r : Term V)
  | sub (t : Term V) (ind : List Nat) (mp : MP)

/-- What the names mean: `term k` is the meaning of the held expression `k` (`none`: not in scope, or not
usable), `num k` the current value of number variable `k`, `gone x` the vectors that were destroyed. -/
structure Names (V : Type) where
  term : Nat → Option (Term V)
  num : Nat → Option V
  next : Nat
  gone : Nat → Bool

def Names.start : Names V := ⟨fun _ => none, fun _ => none, 0, fun _ => false⟩

/-- How many objects a right-hand side makes: one per literal, call and operator. -/
def count : Src V → Nat
  | .vec _ | .name _ | .var _ => 0
  | .lit _ | .rvec _ _ => 1
  | .un _ e | .sub e _ _ => count e + 1
  | .bin _ l r => count l + count r + 1

/-- An operand that has a name.  All other operands are temporaries and have no meaning after the
declaration. -/
def operand (S : Names V) : Src V → Option (Term V)
  | .vec x => some (.vec x)
  | .var k => some (.var k)
  | .name k => (S.term k).map (.name k)
  | _ => none

/-- The meaning of a declared expression. -/
def declared (S : Names V) : Src V → Option (Term V)
  | .rvec l mp => some (.rvec l mp)
  | .un f e => (operand S e).map (.un f)
  | .bin f l r => do return .bin f (← operand S l) (← operand S r)
  | .sub e ind mp => (operand S e).map (.sub · ind mp)
  | _ => none

/-- A declared number. -/
def literal : Src V → Option V
  | .lit v => some v
  | _ => none

/-- The expression that a name abbreviates now: number variables have their current value.
`none` if some name in it is no longer in scope. -/
def Term.expr (S : Names V) : Term V → Option (Expr V)
  | .vec x => if S.gone x then none else some (.leaf x)
  | .var k => (S.num k).map .scal
  | .name k t => if (S.term k).isSome then t.expr S else none
  | .rvec l mp => some (.rvec l mp)
  | .un f t => (t.expr S).map (.un f)
  | .bin f l r => do return .bin f (← l.expr S) (← r.expr S)
  | .sub t ind mp => (t.expr S).map (.sub · ind mp)

/-- The right-hand side that `x = e` abbreviates. -/
def Names.stands (S : Names V) (k : Nat) : Option (Expr V) := S.term k >>= Term.expr S

/-- The meaning of the names after a step. -/
def Names.step (S : Names V) : HCmd V → Names V
  | .cmd (.destroy y) => { S with gone := fun x => S.gone x || x == y }
  | .cmd _ => S
  | .hold src =>
    if count src = 0 then S else
    { S with term := fun j => if j = S.next + count src - 1 then declared S src else S.term j
             num := fun j => if j = S.next + count src - 1 then literal src else S.num j
             next := S.next + count src }
  | .setNum k v => { S with num := fun j => if j = k ∧ (S.num k).isSome then some v else S.num j }
  | .use _ _ _ => S
  | .drop k => { S with term := fun j => if j = k then none else S.term j
                        num := fun j => if j = k then none else S.num j }

/-- The meaning of the names after a program. -/
def Names.after (S : Names V) (p : List (HCmd V)) : Names V := p.foldl Names.step S

/-- The program without held expressions: every use is replaced by what the name stands for at that
point.  `none` if a name is used that stands for nothing. -/
def inlined (S : Names V) : List (HCmd V) → Option (List (Cmd V))
  | [] => some []
  | .cmd c :: p => do return c :: (← inlined (S.step (.cmd c)) p)
  | .use conv x k :: p => do
    let e ← S.stands k
    return .assign conv x e :: (← inlined S p)
  | c :: p => inlined (S.step c) p

/-- The operand has a name. -/
def isName : Src V → Bool
  | .vec _ | .name _ | .var _ => true
  | _ => false

/-- The declared operation or subset has an operand without a name. -/
def onTemporary : Src V → Bool
  | .un _ e | .sub e _ _ => !isName e
  | .bin _ l r => !isName l || !isName r
  | _ => false

/-- Names are declared before they are used (otherwise the program does not compile). -/
def Scoped (n : Nat) : Src V → Prop
  | .vec _ | .lit _ | .rvec _ _ => True
  | .name k | .var k => k < n
  | .un _ e | .sub e _ _ => Scoped n e
  | .bin _ l r => Scoped n l ∧ Scoped n r

def ScopedCmd (n : Nat) : HCmd V → Prop
  | .hold src => Scoped n src
  | .use _ _ k | .drop k | .setNum k _ => k < n
  | .cmd _ => True

def ScopedAll (S : Names V) : List (HCmd V) → Prop
  | [] => True
  | c :: p => ScopedCmd S.next c ∧ ScopedAll (S.step c) p

end Spec
end ETR
