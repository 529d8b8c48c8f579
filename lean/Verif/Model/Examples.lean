import Verif.Model.Control
import Verif.Model.Traits

/-!
# The example programs

`/repo/examples/fibonacci.cpp` 6-13 and `/repo/examples/bubblesort.cpp` 4-22.  The elements are doubles (`sexp`).
-/

namespace ETR
namespace Examples

/-- `operator+` on doubles. -/
def plus (a b : F64) : Out F64 := .ok (F64.add a b)
/-- `operator-` on doubles. -/
def minus (a b : F64) : Out F64 := .ok (F64.sub a b)
/-- `operator>` on doubles; the result is `bool`, here 0 or 1. -/
def greater (a b : F64) : Out F64 := .ok (.fin (if F64.lt b a then 1 else 0))
/-- The vector `res` or `arr` of the examples: the first one in the program, initialised from a temporary. -/
abbrev V1 : Nat := 1

/-- `sexp res = vector(n); res(1) = 1; res(2) = 1; for (auto i : colon(3, n)) res(i) = res(i - 1) + res(i - 2);`:
fibonacci.cpp 6-12.  The example is written for `n = 20`; it uses the functions `vector`, `subassign` and `subset` of an earlier version
of the library, here their successors `vector_numeric` and `operator()`. -/
def fibonacci (n : Int) : Prog F64 :=
  .seq (.cmd (.declTemp (List.replicate n.toNat (.fin 0)) {})) <|
  .seq (.index (.leaf V1) (.int 1) fun r => .cmd (.subAssignScalar V1 r (.fin 1))) <|
  .seq (.index (.leaf V1) (.int 2) fun r => .cmd (.subAssignScalar V1 r (.fin 1))) <|
  .forInt 3 n fun i =>
    .index (.leaf V1) (.int (i - 1)) fun r1 => .index (.leaf V1) (.int (i - 2)) fun r2 => .index (.leaf V1) (.int i) fun r =>
    .cmd (.subAssign .ok false V1 r (.bin plus (.sub (.leaf V1) r1 {}) (.sub (.leaf V1) r2 {})))

/-- The variables `size`, `temp` and `swapped` of the function `bs`. -/
abbrev vSize : Nat := 2
abbrev vTemp : Nat := 3
abbrev vSwapped : Nat := 4

/-- `if (arr(i) > arr(i + 1)) { temp = arr(i); arr(i) = arr(i + 1); arr(i + 1) = temp; swapped = true; }`: bubblesort.cpp 13-18.  `RetType` of a
comparison is `double` (BinaryCalculations.hpp 24, Core/Traits.hpp 28-30), so that the condition is converted without a message. -/
def compareSwap (i : F64) : Prog F64 :=
  .index (.leaf V1) (.dbl i) fun r => .index (.leaf V1) (.dbl (F64.add i (.fin 1))) fun r' =>
  .ite false (.bin greater (.sub (.leaf V1) r {}) (.sub (.leaf V1) r' {})) F64.toBool
    (.seq (.cmd (.assign .ok vTemp (.sub (.leaf V1) r {}))) <|
     .seq (.cmd (.subAssign .ok true V1 r (.sub (.leaf V1) r' {}))) <|
     .seq (.cmd (.subAssign .ok false V1 r' (.leaf vTemp)))
       (.cmd (.assignScalar vSwapped (.fin 1))))
    .skip

/-- `swapped = false; for (auto i : colon(1, size - 1)) …`: bubblesort.cpp 11-19. -/
def pass : Prog F64 :=
  .seq (.cmd (.assignScalar vSwapped (.fin 0))) <|
  .read false (.bin minus (.leaf vSize) (.scal (.fin 1))) fun k => .forDbl (.fin 1) k compareSwap

/-- `bs(arr)` for an `arr` initialised with `l`; `temp` is the declaration of the variable `temp`: bubblesort.cpp 4-22. -/
def bubblesort (temp : Cmd F64) (l : List F64) : Prog F64 :=
  .seq (.cmd (.declTemp l {})) <|
  .seq (.cmd .declDefault) <| .seq (.cmd temp) <| .seq (.cmd .declDefault) <|
  .seq (.len (.leaf V1) fun n => .cmd (.assignScalar vSize (F64.ofInt n))) <|
  .seq (.cmd (.assignScalar vSwapped (.fin 1))) <|
  .doWhile false (.leaf vSwapped) F64.toBool pass

end Examples
end ETR
