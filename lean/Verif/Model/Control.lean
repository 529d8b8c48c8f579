import Verif.Model.Machine
import Verif.Model.Helper

/-!
# Programs with control flow

A C++ program that uses the library: operations on vectors, scalar variables initialised by vectors, index arguments, `if`, `while`,
range-for loops over a vector or over `colon(a, b)` (`/repo/examples/bubblesort.cpp`, `/repo/examples/fibonacci.cpp`,
`/repo/README.md` 206-225), blocks with local vectors, and `try` blocks.  Scalar variables are variables of Lean (the continuations `k`
and `body`).

Simplifications: the temporary of `colon(a, b)` in the head of a loop has memory of its own, which the body cannot reach; identifiers are
not reused after the end of a block, and a vector that was destroyed before stays as it is; `catch` takes every exception, and the
handler sees its message (`e.what()`); `fuel` bounds the rounds of each `while` loop, the result `none` means that the bound was reached.
-/

namespace ETR

/-- Programs. -/
inductive Prog (V : Type)
  | skip
  /-- An operation on vectors. -/
  | cmd (c : Cmd V)
  | seq (a b : Prog V)
  /-- A declaration `Vec<T> x(...);`: the rest of the block `k` gets the new vector, which is the one constructed last. -/
  | decl (c : Cmd V) (k : Nat → Prog V)
  /-- `T v = e;` and `if (e)`: the first element of `e`; `bool` says whether its type is `bool`. -/
  | read (bool : Bool) (e : Expr V) (k : V → Prog V)
  /-- The index argument of `e(i)`: `k` gets the positions. -/
  | index (e : Expr V) (i : Index) (k : List Nat → Prog V)
  /-- `length(e)`. -/
  | len (e : Expr V) (k : Int → Prog V)
  /-- `while (e) body`; `c` is the conversion of an element to `bool`. -/
  | loop (bool : Bool) (e : Expr V) (c : V → Bool) (body : Prog V)
  /-- `for (auto v : x) body`. -/
  | forVec (x : Nat) (body : V → Prog V)
  /-- `for (auto i : colon(a, b)) body` of integers. -/
  | forInt (a b : Int) (body : Int → Prog V)
  /-- `for (auto i : colon(a, b)) body` of doubles. -/
  | forDbl (a b : F64) (body : F64 → Prog V)
  /-- `{ body }`: the vectors that were declared in the body are destroyed at its end. -/
  | block (body : Prog V)
  /-- `throw std::runtime_error(m);`, also `ass(false, m)`: Core/Utils.hpp 54-62. -/
  | throw (m : String)
  /-- `try { a } catch (std::exception &e) { b }`; the handler may use the message of the exception. -/
  | tryCatch (a : Prog V) (b : String → Prog V)

/-- `if (e) a else b`. -/
def Prog.ite {V : Type} (bool : Bool) (e : Expr V) (c : V → Bool) (a b : Prog V) : Prog V :=
  .read bool e (fun v => if c v then a else b)

/-- `do body while (e);`. -/
def Prog.doWhile {V : Type} (bool : Bool) (e : Expr V) (c : V → Bool) (body : Prog V) : Prog V :=
  .seq body (.loop bool e c body)

/-- The vectors `lo + n - 1`, ..., `lo` are destroyed, in the reverse order of their declarations: BaseStore.hpp 236-246. -/
def Mach.leave {V : Type} (lo : Nat) : Nat → M (Mach V) Unit
  | 0 => pure ()
  | n + 1 => do
    Mach.destroy (lo + n)
    Mach.leave lo n

namespace Prog
variable {V σ α : Type}

/-- The state: warnings and machine. -/
abbrev St (V : Type) : Type := List String × Mach V

/-- Continue unless an exception was thrown. -/
def andThen (r : Option (Out Unit × σ)) (k : σ → Option (Out Unit × σ)) : Option (Out Unit × σ) :=
  match r with
  | none => none
  | some (.ok _, s) => k s
  | some (.thr m, s) => some (.thr m, s)
  | some (.ub u, s) => some (.ub u, s)

/-- A computation whose result is used in the rest of the program. -/
def withOut (o : Out α × σ) (k : α → σ → Option (Out Unit × σ)) : Option (Out Unit × σ) :=
  match o with
  | (.ok a, s) => k a s
  | (.thr m, s) => some (.thr m, s)
  | (.ub u, s) => some (.ub u, s)

/-- A part that only prints. -/
def say (m : L α) (s : St V) : Out α × St V := ((m s.1).1, ((m s.1).2, s.2))

/-- The rounds of a `while` loop. -/
def rounds (test : σ → Out Bool × σ) (body : σ → Option (Out Unit × σ)) : Nat → σ → Option (Out Unit × σ)
  | 0, _ => none
  | n + 1, s => withOut (test s) (fun t s => if t then andThen (body s) (rounds test body n) else some (.ok (), s))

/-- The rounds of a range-for loop over a vector whose elements cannot change. -/
def each (body : α → σ → Option (Out Unit × σ)) : List α → σ → Option (Out Unit × σ)
  | [], s => some (.ok (), s)
  | v :: l, s => andThen (body v s) (each body l)

/-- The rounds of a range-for loop over the memory at `p`, from element `i` on; `n` are left: Core/Utils.hpp 47-52 (`It`).  The
iterators are pointers, which do not notice when the body moves the elements. -/
def eachAt (p : Ptr) (body : V → St V → Option (Out Unit × St V)) : Nat → Nat → St V → Option (Out Unit × St V)
  | 0, _, s => some (.ok (), s)
  | n + 1, i, s => withOut (s.2.heap.load p i, s) (fun v s => andThen (body v s) (eachAt p body n (i + 1)))

/-- The elements of the temporary returned by `m`: Vector/VectorClass.hpp 61-74. -/
def range {W : Type} (m : AM W Unit) (s : St V) : Out (List W) × St V :=
  match m (s.1, (Heap.empty, {})) with
  | (.ok _, (ws, (h, d))) => (iterVec h d, (ws, s.2))
  | (.thr e, (ws, _)) => (.thr e, (ws, s.2))
  | (.ub u, (ws, _)) => (.ub u, (ws, s.2))

/-- A block: what was declared in it is destroyed at its end, also when an exception leaves it. -/
def inBlock (body : St V → Option (Out Unit × St V)) (s : St V) : Option (Out Unit × St V) :=
  match body s with
  | none => none
  | some (.ub u, s1) => some (.ub u, s1)
  | some (o, s1) =>
    match Mach.leave s.2.n (s1.2.n - s.2.n) s1.2 with
    | (.ok _, m) => some (o, (s1.1, m))
    | (.thr e, m) => some (.thr e, (s1.1, m))
    | (.ub u, m) => some (.ub u, (s1.1, m))

/-- Continue after an exception. -/
def orElse (r : Option (Out Unit × σ)) (k : String → σ → Option (Out Unit × σ)) : Option (Out Unit × σ) :=
  match r with
  | some (.thr m, s) => k m s
  | r => r

/-- Execution of a program. -/
def run (zero : V) (fuel : Nat) : Prog V → St V → Option (Out Unit × St V)
  | skip, s => some (.ok (), s)
  | cmd c, s => some ((Mach.exec zero c s.2).1, (s.1, (Mach.exec zero c s.2).2))
  | seq a b, s => andThen (run zero fuel a s) (run zero fuel b)
  | decl c k, s => andThen (some ((Mach.exec zero c s.2).1, (s.1, (Mach.exec zero c s.2).2)))
      (fun s => run zero fuel (k (s.2.n - 1)) s)
  | read bool e k, s => withOut (say (toScalar bool s.2.env e) s) (fun v => run zero fuel (k v))
  | index e i k, s => withOut (say (calcIndVector (e.size s.2.env) i) s) (fun r => run zero fuel (k r))
  | len e k, s => run zero fuel (k (lengthOf s.2.env e)) s
  | loop bool e c body, s =>
    rounds (fun s => say (do let v ← toScalar bool s.2.env e; return c v) s) (run zero fuel body) fuel s
  | forVec x body, s =>
    eachAt (s.2.st (x, false)).p (fun v => run zero fuel (body v)) (s.2.st (x, false)).sz 0 s
  | forInt a b body, s => withOut (range (colonI a b) s) (each (fun i => run zero fuel (body i)))
  | forDbl a b body, s => withOut (range (colonD a b) s) (each (fun i => run zero fuel (body i)))
  | block body, s => inBlock (run zero fuel body) s
  | throw m, s => some (.thr m, s)
  | tryCatch a b, s => orElse (inBlock (run zero fuel a) s) (fun m => inBlock (run zero fuel (b m)))

end Prog
end ETR
