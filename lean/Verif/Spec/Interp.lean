import Verif.Model.Interp
import Verif.Spec.Store

/-! Specification vocabulary for interpolation. -/

namespace ETR
variable {T : Type}

/-- The vector has exactly the elements `l`; access behind the end throws. -/
structure View.Is (v : View T) (l : List T) : Prop where
  size : v.size = l.length
  el : ∀ i (hi : i < l.length), v.el i = .ok l[i]
  out : ∀ i, l.length ≤ i → ∃ e, v.el i = .thr e

namespace Spec

/-- Strictly increasing times. -/
def Increasing {K : Type} [LT K] (ts : List K) : Prop := ∀ i j (hi : i < ts.length) (hj : j < ts.length), i < j → ts[i] < ts[j]

/-- The cubic polynomial that takes the values `y1` and `y2` at `t1` and `t2`, with the slopes of the secants
through the neighbouring points. -/
noncomputable def hermite {K : Type} [Field K] (t t0 t1 t2 t3 y0 y1 y2 y3 : K) : K :=
  let x := (t - t1) / (t2 - t1)
  (1 - x) ^ 2 * (1 + 2 * x) * y1 + x ^ 2 * (3 - 2 * x) * y2
    + (t2 - t1) * x * (1 - x) ^ 2 * ((y2 - y0) / (t2 - t0)) + (t2 - t1) * x ^ 2 * (x - 1) * ((y3 - y1) / (t3 - t1))

end Spec
end ETR
