import Verif.Spec.Eval

/-! # Replacing a named vector by the expression it was computed from -/

namespace ETR

/-- The expression `e` with `f` in place of the named vector `t`. -/
def Expr.plug {V : Type} (e : Expr V) (t : Nat) (f : Expr V) : Expr V :=
  match e with
  | .leaf x => if x = t then f else .leaf x
  | .rvec l mp => .rvec l mp
  | .scal v => .scal v
  | .un g e => .un g (e.plug t f)
  | .bin g l r => .bin g (l.plug t f) (r.plug t f)
  | .sub e ind mp => .sub (e.plug t f) ind mp

end ETR
