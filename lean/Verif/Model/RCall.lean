import Verif.Model.RIface
import Verif.Model.Control

/-!
# Functions called from R

A function that is called from R takes R objects, copies them into vectors (`Vec<T> x; x = s;`), computes, and returns
`cpp2R(e)`.  This is how the library is used from R (SEXPConversions.hpp, Vector/AssignmentOperator.hpp 244-247); at the end of the
function, also after an exception, the destructors of the vectors run.  Each argument has its own element type; the element types are
represented by one type `V` of values, as in Model/Expr.  An error raised by
R itself (`Rf_length` of a long vector, `Rf_allocVector` without memory) is modelled as an exception; R would leave the function by a
`longjmp`, without running destructors.
-/

namespace ETR
namespace Mach
variable {V W : Type}

/-- An argument: the element type of the vector that receives it, given by the type of R vector that it accepts and by the conversion of
the elements (BaseStore.hpp 188-233: `isReal`/`REAL`, `isInteger`/`INTEGER`, `isLogical`/`LOGICAL`), and the R object. -/
structure RArg (V W : Type) where
  ty : RTy
  conv : W → V
  obj : RObj W

/-- `x = s;` for an R object `s`: Vector/AssignmentOperator.hpp 244-247, BaseStore.hpp 188-233. -/
def assignSEXP (ty : RTy) (conv : W → V) (x : Nat) (r : RObj W) : M (Mach V) Unit :=
  onSlot (x, false) (Store.initSEXP ty conv r)

/-- `Vec<T0> x0; x0 = s0; Vec<T1> x1; x1 = s1; ...`: Vector/Constructors.hpp 115, Vector/AssignmentOperator.hpp 244-247. -/
def takeArgs : List (RArg V W) → M (Mach V) Unit
  | [] => pure ()
  | r :: rs => do
    let s ← M.get
    declDefault
    assignSEXP r.ty r.conv s.n r.obj
    takeArgs rs

end Mach

namespace Prog
variable {V W α : Type}

/-- The end of the function: the result or the exception `o` is kept while the vectors are destroyed. -/
def finish (o : Out α) (s : St V) : Out α × St V :=
  match o, Mach.leave 0 s.2.n s.2 with
  | .ub u, _ => (.ub u, s)
  | o, (.ok _, m) => (o, (s.1, m))
  | _, (.thr e, m) => (.thr e, (s.1, m))
  | _, (.ub u, m) => (.ub u, (s.1, m))

/-- `SEXP f(SEXP s0, SEXP s1, ...) { Vec<T0> x0; x0 = s0; ...; body; return cpp2R(res); }`: SEXPConversions.hpp 38-129; `ty` and `back` are
for the element type of the result. -/
def callR (ty : RTy) (back : V → W) (zero : V) (fuel : Nat) (args : List (Mach.RArg V W)) (body : Prog V) (res : Expr V)
    (s : St V) : Option (Out (RObj W) × St V) :=
  match Mach.takeArgs args s.2 with
  | (.thr e, m) => some (finish (.thr e) (s.1, m))
  | (.ub u, m) => some (.ub u, (s.1, m))
  | (.ok _, m) =>
    match body.run zero fuel (s.1, m) with
    | none => none
    | some (.thr e, s) => some (finish (.thr e) s)
    | some (.ub u, s) => some (.ub u, s)
    | some (.ok _, s) => some (finish (cpp2R ty back s.2.env res) s)

end Prog
end ETR
