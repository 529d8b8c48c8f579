import Verif.Model.Deriv
import Verif.Model.Traits

/-! Derivatives in binary64. -/

namespace ETR

/-- binary64: the derivative traits of Core/Traits.hpp 43-230 on `double`, with `==` and `!=` of lines 147 and 219.  The functions of the
C library are parameters. -/
def DArith.f64 (pow : F64 → Nat → F64) (sin cos : F64 → F64) : DArith F64 where
  toArith := Arith.f64 pow
  sin := sin
  cos := cos
  eqv x y := F64.lt (F64.abs (F64.sub x y)) Trait.c001
  nev x y := F64.lt Trait.c001 (F64.abs (F64.sub x y))
  nz := F64.toBool

end ETR
