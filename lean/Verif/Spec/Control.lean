import Verif.Model.Control
import Verif.Spec.Program
import Verif.Spec.Cells
import Verif.Spec.Index
import Verif.Spec.Alloc
import Verif.Lemmas.MachFrame
import Verif.Lemmas.MachReady
import Verif.Spec.History

/-!
# Naive semantics of programs with control flow

The state maps variables to lists, as in `Spec/Program.lean`.  A `while` loop may run for `fuel` rounds; a program that would need
more has no result so far (`more`).  `threw`: an exception, of the program or of an operation that is rejected (`rejects`), was
not caught; the state is the one at that point.  `stuck`: an operation is rejected by naive semantics in another way,
or the library is known not to follow it.
-/

namespace ETR
namespace Spec
variable {V : Type}

/-- Result of a program. -/
inductive Res (V : Type)
  | done (p : PState V)
  | threw (m : String) (p : PState V)
  | more
  | stuck

/-- Continue with the rest of the program. -/
def Res.andThen (r : Res V) (k : PState V → Res V) : Res V :=
  match r with
  | done p => k p
  | threw m p => threw m p
  | more => more
  | stuck => stuck

/-- An exception, if there is one. -/
def Res.raise : Option (String × PState V) → Res V
  | some (m, p) => .threw m p
  | none => .stuck

/-- A value that may not exist. -/
def withVal {α : Type} (o : Option α) (k : α → Res V) (r : Option (String × PState V) := none) : Res V :=
  match o with
  | some a => k a
  | none => .raise r

/-- `while`. -/
def rounds (test : PState V → Option Bool) (rej : PState V → Option (String × PState V)) (body : PState V → Res V) :
    Nat → PState V → Res V
  | 0, _ => .more
  | n + 1, p => withVal (test p) (fun t => if t then (body p).andThen (rounds test rej body n) else .done p) (rej p)

/-- For each element of a list. -/
def each {α : Type} (body : α → PState V → Res V) : List α → PState V → Res V
  | [], p => .done p
  | v :: l, p => (body v p).andThen (each body l)

/-- For the elements `i`, …, `i + n - 1` of a vector that borrows: each of them is read when its turn comes. -/
def eachAt (x : Nat) (body : V → PState V → Res V) : Nat → Nat → PState V → Res V
  | 0, _, p => .done p
  | n + 1, i, p => withVal ((p.lists x).bind (fun l => l[i]?)) (fun v => (body v p).andThen (eachAt x body n (i + 1)))

/-- The first element of an expression; the others are not computed. -/
def first (p : PState V) (e : Expr V) : Option V := do
  let C ← cellsOf p.lists e
  let c ← C.head?
  val c

/-- The length of an expression; no element is computed. -/
def len (p : PState V) (e : Expr V) : Option Int := do
  let C ← cellsOf p.lists e
  if C.length < 2 ^ 31 then some C.length else none

/-- Integer index vectors consist of `int`s. -/
def plainIndex : Index → Bool
  | .vint l => l.all (fun
    | .i _ => true
    | _ => false)
  | _ => true

/-- The positions denoted by an index argument of `e`.  A number denotes a position also when it is too large: it is the use of the
position that is rejected. -/
def indexPos (p : PState V) (e : Expr V) (i : Index) : Option (List Nat) := do
  let C ← cellsOf p.lists e
  if plainIndex i = true ∧ C.length < 2 ^ 31 then
    match i with
    | .lgl _ | .vlgl _ => positions C.length i
    | _ => positions (2 ^ 31 - 1) i
  else none

/-- `a, a + 1, …` up to `b` or `a, a - 1, …` down to `b`, as doubles, for integers in the range of `int`. -/
def dblSeq : F64 → F64 → Option (List F64)
  | .fin a, .fin b =>
    if a.den = 1 ∧ b.den = 1 ∧ -2 ^ 29 ≤ a ∧ a ≤ 2 ^ 29 ∧ -2 ^ 29 ≤ b ∧ b ≤ 2 ^ 29 then
      some ((intSeq a.num b.num).map (fun (k : Int) => .fin k))
    else none
  | _, _ => none

/-- The element functions of an operation work on values. -/
def ValueOnly : Cmd V → Prop
  | .declExpr conv e | .assign conv _ e | .subAssign conv _ _ _ e => (∀ v, (conv v).NoMem) ∧ e.FunSafe
  | _ => True

/-- The program has no operation on the variable `x`. -/
def Spares (x : Nat) : Prog V → Prop
  | .skip => True
  | .cmd c => c.target ≠ some x ∧ ValueOnly c
  | .seq a b => Spares x a ∧ Spares x b
  | .decl c k => c.target ≠ some x ∧ ValueOnly c ∧ ∀ y, y ≠ x → Spares x (k y)
  | .read _ _ k => ∀ v, Spares x (k v)
  | .index _ _ k => ∀ r, Spares x (k r)
  | .len _ k => ∀ n, Spares x (k n)
  | .loop _ _ _ body => Spares x body
  | .forVec _ body => ∀ v, Spares x (body v)
  | .forInt _ _ body => ∀ i, Spares x (body i)
  | .forDbl _ _ body => ∀ i, Spares x (body i)
  | .block body => Spares x body
  | .throw _ => True
  | .tryCatch a b => Spares x a ∧ ∀ m, Spares x (b m)

/-- The bodies of the loops over a vector have no operation on that vector (the iterators of the library would not notice). -/
def WellFormed : Prog V → Prop
  | .skip => True
  | .cmd _ => True
  | .seq a b => WellFormed a ∧ WellFormed b
  | .decl c k => c.isDecl = true ∧ ∀ y, WellFormed (k y)
  | .read _ _ k => ∀ v, WellFormed (k v)
  | .index _ _ k => ∀ r, WellFormed (k r)
  | .len _ k => ∀ n, WellFormed (k n)
  | .loop _ _ _ body => WellFormed body
  | .forVec x body => ∀ v, WellFormed (body v) ∧ Spares x (body v)
  | .forInt _ _ body => ∀ i, WellFormed (body i)
  | .forDbl _ _ body => ∀ i, WellFormed (body i)
  | .block body => WellFormed body
  | .throw _ => True
  | .tryCatch a b => WellFormed a ∧ ∀ m, WellFormed (b m)

/-- The variables from `lo` on are gone. -/
def PState.leave (lo : Nat) (p : PState V) : PState V :=
  { p with
    vars := fun y => if y < lo then p.vars y else none
    bors := fun y => if y < lo then p.bors y else none }

/-- The end of a block that was entered in `p`, also when an exception leaves it. -/
def Res.leave (p : PState V) : Res V → Res V
  | .done q => .done (q.leave p.next)
  | .threw m q => .threw m (q.leave p.next)
  | .more => .more
  | .stuck => .stuck

/-- A handler. -/
def Res.orElse (r : Res V) (k : String → PState V → Res V) : Res V :=
  match r with
  | .threw m q => k m q
  | r => r

/-- The cells of a right-hand side whose elements are converted. -/
def rhs (p : PState V) (conv : V → Out V) (e : Expr V) : Option (List (Out V)) := (cellsOf p.lists e).map (·.map (· >>= conv))

/-- The variable `x` shows the elements `l` from now on (as many as before). -/
def PState.shown (p : PState V) (x : Nat) (l : List V) : PState V :=
  match p.vars x with
  | some w => p.put x (some ⟨l, w.kind⟩)
  | none =>
    match p.view x with
    | some (β, a) => p.write x β a l
    | none => p

/-- Write the values one after the other, up to the first position that does not exist. -/
def writeUpTo (l : List V) : List Nat → List V → List V
  | j :: js, v :: vs => if j < l.length then writeUpTo (l.set j v) js vs else l
  | _, _ => l

/-- A rejected assignment: the right-hand side throws, or the variable borrows and can neither exceed what it borrows nor be made shorter.
(What follows a failed assignment is not described for a variable declared by `Vec x;`.) -/
def assignRejects (p : PState V) (conv : V → Out V) (x : Nat) (e : Expr V) : Option (String × PState V) := do
  let D ← rhs p conv e
  match p.vars x with
  | some v => if (v.kind = .std ∨ v.kind = .stolen) ∧ D.length ≤ 2 ^ 30 then (failure D).map (·, p) else none
  | none => do
    let β ← p.bors x
    if β.cap < D.length then some ("number of items to replace is not a multiple of replacement length", p)
    else if D.length ≤ 2 ^ 30 then
      match failure D with
      | some m => some (m, p)
      | none => do
        let _ ← values D
        if D.length < β.size then some ("size cannot be increased above the size of the borrowed object", p) else none
    else none

/-- Writes one of which is at a position that does not exist. -/
def writeRejects (p : PState V) (x : Nat) (ind : List Nat) (vs : List V) : Option (String × PState V) := do
  let l ← p.lists x
  if ind.length ≤ l.length ∧ ∃ j ∈ ind, l.length ≤ j then some (beyond, p.shown x (writeUpTo l ind vs)) else none

/-- Operations that are rejected with an exception: the message, and the state (a temporary or an object that was not completed takes an
identifier).  An empty vector cannot be made or assigned, a position must exist, lengths must agree, and the elements of the right-hand
side must be values.  Nothing changes, except that the writes to a subset before the position that does not exist have been done. -/
def rejects (p : PState V) : Cmd V → Option (String × PState V)
  | .declSize n => if n = 0 then some ("Size has to be larger than 0", { p with next := p.next + 1 }) else none
  | .declTemp l _ => if l = [] then some ("Size has to be larger than 0", { p with next := p.next + 1 }) else none
  | .declExpr conv e => do
    let D ← rhs p conv e
    if D.length ≤ 2 ^ 30 then (failure D).map (·, { p with next := p.next + 1 }) else none
  | .setElem x i _ => do
    let l ← p.lists x
    if l ≠ [] ∧ l.length ≤ i then some (beyond, p)
    else if l = [] ∧ (p.vars x).isSome then some ("No memory was allocated", p)
    else none
  | .resize x n => do
    let _ ← p.lists x
    if n = 0 then some ("Size has to be larger than 0", p)
    else if (p.vars x).isSome then none
    else do
      let β ← p.bors x
      if β.cap < n then some ("Cannot resize Borrow element above size of borrowed object", p) else none
  | .fillVec x y => do
    let a ← p.lists x
    let b ← p.lists y
    if b.length ≠ a.length then some ("cannot use fill with vectors of different lengths", p) else none
  | .assign conv x e => do
    let _ ← p.lists x
    match e with
    | .leaf y => if (p.lists y).map List.length = some 0 then some ("Size has to be larger than 0", p) else assignRejects p conv x e
    | e => assignRejects p conv x e
  | .subAssign conv _ x ind e => do
    let D ← rhs p conv e
    if D.length ≠ ind.length then
      some ("number of items to replace is not a multiple of replacement length", { p with next := p.next + 1 })
    else if D.length ≤ 2 ^ 30 then
      match failure D with
      | some m => some (m, { p with next := p.next + 1 })
      | none => do
        let L ← values D
        let (m, q) ← writeRejects p x ind L
        return (m, { q with next := p.next + 1 })
    else none
  | .subAssignScalar x ind v => writeRejects p x ind (List.replicate ind.length v)
  | _ => none

/-- A vector without elements has no first element, and the computation of the first element may fail. -/
def readRejects (p : PState V) (e : Expr V) : Option (String × PState V) :=
  match e, cellsOf p.lists e with
  | _, some (.thr m :: _) => some (m, p)
  | .leaf x, none => if (p.vars x).map (fun v => v.val.length) = some 0 then some ("No memory was allocated", p) else none
  | _, _ => none

/-- Index arguments that the library rejects at once: numbers below 1, and arguments that select nothing. -/
def indexRejects (p : PState V) (e : Expr V) : Index → Option (String × PState V)
  | .lgl false => some ("Variable[FALSE] subsetting is not supported. Sorry", p)
  | .dbl (.fin q) => if -2 ^ 31 ≤ q ∧ q < 1 then some ("invalid index argument", p) else none
  | .vint [] | .vdbl [] => some ("Size has to be larger than 0", p)
  | .vlgl l => do
    let C ← cellsOf p.lists e
    if l ≠ [] ∧ posM C.length l = [] then some ("Size has to be larger than 0", p) else none
  | _ => none

/-- Naive semantics. -/
def exec (zero : V) (fuel : Nat) : Prog V → PState V → Res V
  | .skip, p => .done p
  | .cmd c, p => withVal (step zero p c) .done (rejects p c)
  | .seq a b, p => (exec zero fuel a p).andThen (exec zero fuel b)
  | .decl c k, p => (withVal (step zero p c) .done (rejects p c)).andThen (fun q => exec zero fuel (k (q.next - 1)) q)
  | .read _ e k, p => withVal (first p e) (fun v => exec zero fuel (k v) p) (readRejects p e)
  | .index e i k, p => withVal (indexPos p e i) (fun r => exec zero fuel (k r) p) (indexRejects p e i)
  | .len e k, p => withVal (len p e) (fun n => exec zero fuel (k n) p)
  | .loop _ e c body, p => rounds (fun p => (first p e).map c) (fun p => readRejects p e) (exec zero fuel body) fuel p
  | .forVec x body, p =>
    match p.vars x with
    | some v => each (fun v => exec zero fuel (body v)) v.val p
    | none => withVal (p.bors x) (fun β => eachAt x (fun v => exec zero fuel (body v)) β.size 0 p)
  | .forInt a b body, p =>
    if -2 ^ 29 ≤ a ∧ a ≤ 2 ^ 29 ∧ -2 ^ 29 ≤ b ∧ b ≤ 2 ^ 29 then each (fun i => exec zero fuel (body i)) (intSeq a b) p
    else .stuck
  | .forDbl a b body, p => withVal (dblSeq a b) (fun l => each (fun i => exec zero fuel (body i)) l p)
  | .block body, p => (exec zero fuel body p).leave p
  | .throw m, p => .threw m p
  | .tryCatch a b, p => ((exec zero fuel a p).leave p).orElse (fun m q => (exec zero fuel (b m) q).leave q)

end Spec
end ETR
