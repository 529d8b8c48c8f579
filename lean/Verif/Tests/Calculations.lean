import Verif.Model.DerivF64
import Verif.Tests.Allocation
import Verif.Model.Traits

/-!
# The tests of the repository on the model: subsetting, interpolation and derivatives

`/repo/tests/Subsetting_Tests.cpp`, `CMR_Tests.cpp`, `Derivatives_Tests.cpp`.

`BinaryOperations_Tests.cpp` prints without assertions.  `Unary_Tests.cpp` compares with decimal values of the functions of the C
library, which are parameters of the model.  `Concepts_Tests.cpp` is about types.
-/

namespace ETR.RepoTests
open ETR

/-! ## Subsetting_Tests.cpp -/

/-- `Vec<double> v = colon(1, 16)`. -/
def v16 : Expr F64 := .rvec ((List.range 16).map (fun i => .fin (i + 1))) {}
/-- The same with `v.d.setMatrix(true, 4, 4)`. -/
def m16 : Expr F64 := .rvec ((List.range 16).map (fun i => .fin (i + 1))) ⟨true, 4, 4⟩

/-- The size of `v(i)`. -/
def subSize (i : Index) : Out Nat := do
  let e ← said (subset noVars v16 i)
  return e.size noVars
/-- The element `v(i)[k]`. -/
def subEl (i : Index) (k : Nat) : Out F64 := do
  let e ← said (subset noVars v16 i)
  e.el noVars k
/-- The size of `v(r, c)`. -/
def matSize (r c : Index) : Out Nat := do
  let e ← said (subsetM noVars m16 r c)
  return e.size noVars

/-- Index vectors. -/
def ixI (l : List Int) : Index := .vint (l.map .i)
def ixD (l : List ℚ) : Index := .vdbl (l.map lit)

/-- Subsetting_Tests.cpp 23-59. -/
example : subSize (.lgl true) = .ok 16 ∧ subSize (.lgl false) = .thr "Variable[FALSE] subsetting is not supported. Sorry" := by
  decide +kernel

/-- Subsetting_Tests.cpp 60-94 (`v(-1)` does not throw). -/
example : subSize (.int 1) = .ok 1 ∧ subEl (.int 1) 0 = .ok (.fin 1) ∧ subEl (.int 16) 0 = .ok (.fin 16) ∧
    subEl (.int 2) 0 = .ok (.fin 2) ∧ subEl (.int 3) 0 = .ok (.fin 3) ∧ subSize (.int (-1)) = .ok 1 := by decide +kernel

/-- Subsetting_Tests.cpp 96-150. -/
example : subSize (.dbl (.fin (-1))) = .thr "invalid index argument" ∧ subSize (.dbl (.fin 1)) = .ok 1 ∧
    subEl (.dbl (.fin 1)) 0 = .ok (.fin 1) ∧ subEl (.dbl (.fin 16)) 0 = .ok (.fin 16) ∧
    subSize (.dbl (lit (11 / 10))) = .ok 1 ∧ subEl (.dbl (lit (11 / 10))) 0 = .ok (.fin 1) ∧
    subEl (.dbl (lit (161 / 10))) 0 = .ok (.fin 16) := by decide +kernel

/-- Subsetting_Tests.cpp 151-167. -/
example : subSize (ixD [1, 4, 7]) = .ok 3 ∧ subEl (ixI [1, 2, 3]) 1 = .ok (.fin 2) ∧ subSize (ixD [1]) = .ok 1 ∧
    subEl (ixD [2, 3, 4]) 1 = .ok (.fin 3) ∧ subEl (ixI [2, 3, 4]) 1 = .ok (.fin 3) ∧ subEl (ixD [2, 5, 8]) 1 = .ok (.fin 5) ∧
    subSize (ixD [1, 2, 3]) = .ok 3 ∧ subSize (ixD [2, 4, 6]) = .ok 3 := by decide +kernel

/-- The mask of the tests. -/
def mask : Index := .vlgl [true, false, true, true]

/-- Subsetting_Tests.cpp 168-177. -/
example : subSize mask = .ok 12 := by decide +kernel

/-- Subsetting_Tests.cpp 178-203. -/
example : matSize (.lgl true) (.lgl true) = .ok 16 ∧ matSize (.lgl true) (.int 1) = .ok 4 ∧
    matSize (.lgl true) (.dbl (lit (11 / 10))) = .ok 4 ∧ matSize (.lgl true) (ixD [2, 3, 4]) = .ok 12 ∧
    matSize (.lgl true) (ixI [2, 3, 4]) = .ok 12 ∧ matSize (.lgl true) (ixI [1, 5, 8]) = .ok 12 := by decide +kernel

/-- Subsetting_Tests.cpp 205-226. -/
example : ∀ r ∈ [Index.int 1, .int 2, .int 3, .dbl (lit (11 / 10)), .dbl (lit (21 / 10)), .dbl (lit (31 / 10))],
    matSize r (.lgl true) = .ok 4 ∧ matSize r (.int 1) = .ok 1 ∧ matSize r (.dbl (lit (11 / 10))) = .ok 1 ∧
    matSize r (ixD [2, 3, 4]) = .ok 3 ∧ matSize r (ixI [2, 3, 4]) = .ok 3 ∧ matSize r (ixI [1, 5, 8]) = .ok 3 := by
  decide +kernel

/-- The row indices of the next tests. -/
def rows : List Index := [mask, ixI [1, 2, 4], ixD [11 / 10, 22 / 10, 49 / 10]]

/-- Subsetting_Tests.cpp 227-292. -/
example : ∀ r ∈ rows, matSize r (.lgl true) = .ok 12 ∧ matSize r (.int 1) = .ok 3 ∧ matSize r (.dbl (lit (11 / 10))) = .ok 3 ∧
    matSize r (.dbl (lit (22 / 10))) = .ok 3 ∧ matSize r (.dbl (lit (31 / 10))) = .ok 3 ∧
    ∀ c ∈ rows, matSize r c = .ok 9 := by decide +kernel

/-- Subsetting_Tests.cpp 293-310; the index expressions are given by their elements, an operation on integers with a result of
either type. -/
example : matSize (ixI [1, 2, 3]) (ixI [1, 2, 3]) = .ok 9 ∧
    matSize (ixI [1, 2, 3]) (ixD [11 / 10, 22 / 10, 33 / 10]) = .ok 9 ∧
    matSize (ixD [11 / 10, 22 / 10, 33 / 10]) (ixI [1, 2, 3]) = .ok 9 ∧
    matSize (ixD [11 / 10, 22 / 10, 33 / 10]) (ixD [11 / 10, 22 / 10, 33 / 10]) = .ok 9 ∧
    matSize (ixI [2, 4, 6]) (ixI [1, 2, 3]) = .ok 9 ∧ matSize (ixD [2, 4, 6]) (ixI [1, 2, 3]) = .ok 9 ∧
    matSize (ixI [5, 6, 7]) (ixD [11 / 10, 22 / 10, 33 / 10]) = .ok 9 ∧
    matSize (ixD [5, 6, 7]) (ixD [11 / 10, 22 / 10, 33 / 10]) = .ok 9 ∧
    matSize (ixD [22 / 10, 44 / 10, 66 / 10]) (ixI [1, 2, 3]) = .ok 9 ∧
    matSize (ixD [67 / 10, 78 / 10, 89 / 10]) (ixD [11 / 10, 22 / 10, 33 / 10]) = .ok 9 := by decide +kernel

/-- Subsetting_Tests.cpp 312-320. -/
example : matSize (ixI [1, 2, 3]) (ixD [65 / 10, 75 / 10, 85 / 10]) = .ok 9 ∧
    matSize (ixI [1, 2, 3]) (ixD [61 / 10, 72 / 10, 83 / 10]) = .ok 9 ∧
    matSize (ixD [11 / 10, 22 / 10, 33 / 10]) (ixI [2, 4, 4]) = .ok 9 ∧
    matSize (ixD [11 / 10, 22 / 10, 33 / 10]) (ixD [2, 4, 4]) = .ok 9 ∧
    matSize (ixD [11 / 10, 22 / 10, 33 / 10]) (ixD [22 / 10, 44 / 10, 66 / 10, 55 / 10]) = .ok 12 := by decide +kernel

/-- A program with the matrix `v` as vector 1. -/
def withV {α : Type} (m : M (Mach F64) α) : Out α :=
  ((do Mach.declTemp (.fin 0) ((List.range 16).map (fun i => .fin (i + 1))) ⟨true, 4, 4⟩; m : M (Mach F64) α) Mach.start).1

/-- Subsetting_Tests.cpp 322-357. -/
example : withV (do Mach.atSet 1 (.int 1) (lit (101 / 10)); M.reads (fun s => s.atGet 1 (.int 1))) = .ok (lit (101 / 10)) ∧
    withV (M.reads (fun s => s.atGet 1 (.int 0))) = .thr "Error: out of boundaries --> value below 1" ∧
    withV (M.reads (fun s => s.atGet 1 (.int 2000))) = .thr "Error: out of boundaries --> value beyond size of vector" ∧
    withV (do Mach.atSetM 1 (.int 2) (.int 3) (lit (203 / 10)); M.reads (fun s => s.atGetM 1 (.int 2) (.int 3))) =
      .ok (lit (203 / 10)) ∧
    withV (M.reads (fun s => s.atGetM 1 (.int 0) (.int 0))) = .thr "Error: out of boundaries --> value beyond size of vector" ∧
    withV (M.reads (fun s => s.atGetM 1 (.int 2000) (.int 1))) =
      .thr "Error: out of boundaries --> value beyond size of vector" := by decide +kernel

/-- Subsetting_Tests.cpp 358-363. -/
example : atR noVars (ints [1, 2, 3]) (.int 1) = .ok 2 ∧ atR noVars (.rvec [(1 : Int), 2, 3, 4] ⟨true, 2, 2⟩) (.int 2) = .ok 3 ∧
    atRM noVars (.rvec [(1 : Int), 2, 3, 4] ⟨true, 2, 2⟩) (.int 2) (.int 2) = .ok 4 := by decide +kernel

/-! ## CMR_Tests.cpp -/

/-- A power function: the rounded power of a finite number. -/
def rpow : F64 → Nat → F64
  | .fin q, n => F64.rnd (q ^ n)
  | x, _ => x

/-- The vector with the elements `l`. -/
def view (l : List F64) : View F64 := ⟨l.length, getL l, .ub .oob⟩

/-- CMR_Tests.cpp 17. -/
def timeVec : View F64 :=
  ⟨12, getL ([2, 4, 6, 8, 10, 12, 14, 16, 18, 20, 22, 24].map F64.ofInt), .ok (.fin 0)⟩

/-- CMR_Tests.cpp 18-22. -/
def parVec : View F64 := view ([757609564810991 / 10 ^ 15, 63666793727316 / 10 ^ 14, 945256690960377 / 10 ^ 15,
  693654675036669 / 10 ^ 15, 40791315655224 / 10 ^ 14, 832679984159768 / 10 ^ 17, 423512101406232 / 10 ^ 15,
  280910033034161 / 10 ^ 15, 740243628388271 / 10 ^ 15, 43786640977487 / 10 ^ 15, 291369898477569 / 10 ^ 15,
  99397567496635 / 10 ^ 14].map lit)

/-- `eq` with the tolerance `tol`: CMR_Tests.cpp 9-14. -/
def close (tol : ℚ) (x : Out F64) (y : ℚ) : Bool :=
  match x with
  | .ok v => F64.lt (F64.abs (F64.sub v (lit y))) (lit tol)
  | _ => false

/-- CMR_Tests.cpp 25-40 and the time points of 43-60, all with the tolerance of the test.  `timeVec.back()` reads one element
behind the end, for time points from 22 to below 24; the test has none of these, so that any value will do. -/
example :
    let cmr (t : ℚ) : Out F64 := cmrInternal (Arith.f64 rpow) (lit t) timeVec parVec
    close (1 / 10) (cmr (-4)) (757609564810991 / 10 ^ 15) ∧ close (1 / 10) (cmr (-2)) (757609564810991 / 10 ^ 15) ∧
    close (1 / 10) (cmr 0) (757609564810991 / 10 ^ 15) ∧ close (1 / 10) (cmr 2) (757609564810991 / 10 ^ 15) ∧
    close (1 / 10) (cmr 4) (63666793727316 / 10 ^ 14) ∧ close (1 / 10) (cmr 6) (945256690960377 / 10 ^ 15) ∧
    close (1 / 10) (cmr 8) (693654675036669 / 10 ^ 15) ∧ close (1 / 10) (cmr 10) (40791315655224 / 10 ^ 14) ∧
    close (1 / 10) (cmr 12) (832679984159768 / 10 ^ 17) ∧ close (1 / 10) (cmr 13) (212867364670874 / 10 ^ 15) ∧
    close (1 / 10) (cmr 14) (423512101406232 / 10 ^ 15) ∧ close (1 / 10) (cmr 15) (337624879446775 / 10 ^ 15) ∧
    close (1 / 10) (cmr 24) (99397567496635 / 10 ^ 14) ∧ close (1 / 10) (cmr 25) (99397567496635 / 10 ^ 14) ∧
    close (1 / 10) (cmr 26) (99397567496635 / 10 ^ 14) ∧ close (1 / 10) (cmr 28) (99397567496635 / 10 ^ 14) := by decide +kernel

/-- At the two points between time points, 13 and 15, the result differs from the reference values of the test by more than 0.01 and less
than 0.02; the tolerance 0.1 of the test accepts this. -/
example :
    let cmr (t : ℚ) : Out F64 := cmrInternal (Arith.f64 rpow) (lit t) timeVec parVec
    close (2 / 100) (cmr 13) (212867364670874 / 10 ^ 15) ∧ ¬ close (1 / 100) (cmr 13) (212867364670874 / 10 ^ 15) ∧
    close (2 / 100) (cmr 15) (337624879446775 / 10 ^ 15) ∧ ¬ close (1 / 100) (cmr 15) (337624879446775 / 10 ^ 15) := by
  decide +kernel

/-- CMR_Tests.cpp 54-59: a vector as time point. -/
example : close (1 / 10) (said (cmrVec (Arith.f64 rpow) 2 (.ok (.fin 13)) timeVec parVec)) (212867 / 10 ^ 6) := by decide +kernel

/-! ## Derivatives_Tests.cpp -/

/-- `pi` of the test. -/
def piT : F64 := lit (3141593 / 1000000)

/-- binary64 with the traits of `==` and `!=`; `sin` and `cos` at the four points of the test. -/
def dbl : DArith F64 :=
  DArith.f64 rpow (fun _ => .fin 0) (fun x => if x = piT ∨ x = F64.mul (.fin 3) piT then .fin (-1) else .fin 1)

/-- The variables `a` and `b`. -/
def vA : DVar := (.buffer, 0)
def vB : DVar := (.buffer, 1)

/-- Values and derivatives of `a` and `b` after a program; `a` is the independent variable. -/
def derivs (p : List (AV.Stmt F64)) : Out (List (List (Option F64)) × List (List F64)) :=
  ((do
    AV.run dbl p
    let s ← M.get
    let da ← AV.getDerivs dbl vA
    let db ← AV.getDerivs dbl vB
    return ([vA, vB].map (fun x => (s.val x).cells.take (s.val x).sz), [da, db]) :
      M (AV F64) (List (List (Option F64)) × List (List F64))) (AV.start 0 .buffer)).1

def con (c : Nat) (l : List ℚ) : AV.Stmt F64 := .setCon c (l.map lit)
def val (l : List ℚ) : List (Option F64) := l.map (fun q => some (lit q))

/-- Derivatives_Tests.cpp 24-46. -/
example : derivs [.setCon 0 [piT, F64.mul (.fin 2) piT, F64.mul (.fin 3) piT, F64.mul (.fin 4) piT], .assign vA (.con 0),
      con 1 [4, 5, 6, 7], .assign vB (.con 1), .assign vB (.sin (.var vA))] =
    .ok ([[some piT, some (F64.mul (.fin 2) piT), some (F64.mul (.fin 3) piT), some (F64.mul (.fin 4) piT)], val [0, 0, 0, 0]],
      [[1, 1, 1, 1].map lit, [-1, 1, -1, 1].map lit]) := by decide +kernel

/-- Derivatives_Tests.cpp 48-67. -/
example : derivs [con 0 [1, 2, 3], .assign vA (.con 0), con 1 [4, 5, 6], .assign vB (.bin .mul (.con 1) (.var vA)),
      .assign vA (.bin .add (.var vB) (.var vB))] =
    .ok ([val [8, 20, 36], val [4, 10, 18]], [[8, 10, 12].map lit, [4, 5, 6].map lit]) := by decide +kernel

/-- Derivatives_Tests.cpp 69-87. -/
example : derivs [con 0 [1, 2, 3, 4], .assign vA (.con 0), con 1 [4, 5, 6, 7], .assign vB (.con 1)] =
    .ok ([val [1, 2, 3, 4], val [4, 5, 6, 7]], [[1, 1, 1, 1].map lit, [0, 0, 0, 0].map lit]) := by decide +kernel

/-- Derivatives_Tests.cpp 89-108.  The test compares the first element of the derivative of `a`, which has one element. -/
example : derivs [con 0 [1, 2, 3, 4], .assign vA (.con 0), con 1 [4, 5, 6, 7], .assign vB (.con 1), con 2 [314 / 100],
      .assign vA (.con 2)] =
    .ok ([val [314 / 100], val [4, 5, 6, 7]], [[1].map lit, [0, 0, 0, 0].map lit]) := by decide +kernel

/-- The programs of the tests below: `a` and `b` are set, then `b = e`. -/
def program (e : DExpr) : List (AV.Stmt F64) :=
  [con 0 [3, 6, 9, 12], .assign vA (.con 0), con 1 [4, 5, 6, 7], .assign vB (.con 1), con 2 [3], .assign vB e]

/-- Derivatives_Tests.cpp 111-130 (the expected derivative 0.3333 with the tolerance 0.01). -/
example : derivs (program (.bin .div (.var vA) (.con 2))) =
      .ok ([val [3, 6, 9, 12], val [1, 2, 3, 4]], [[1, 1, 1, 1].map lit, List.replicate 4 (F64.div (.fin 1) (.fin 3))]) ∧
    close (1 / 100) (.ok (F64.div (.fin 1) (.fin 3))) (3333 / 10000) := by decide +kernel

/-- Derivatives_Tests.cpp 133-153. -/
example : derivs (program (.bin .add (.bin .div (.var vA) (.con 2)) (.bin .mul (.bin .mul (.var vA) (.var vB)) (.var vB)))) =
      .ok ([val [3, 6, 9, 12], val [49, 152, 327, 592]],
        [[1, 1, 1, 1].map lit, [16, 25, 36, 49].map (fun q => F64.add (F64.div (.fin 1) (.fin 3)) (.fin q))]) ∧
    [16, 25, 36, 49].all (fun q => close (1 / 100) (.ok (F64.add (F64.div (.fin 1) (.fin 3)) (.fin q))) (3333 / 10000 + q)) := by
  decide +kernel

/-- Derivatives_Tests.cpp 155-285: the comparisons. -/
example :
    [DOp.eq, .ne, .lt, .gt, .ge, .le].map (fun op => derivs (program (.bin op (.var vA) (.var vB)))) =
    [[0, 0, 0, 0], [1, 1, 1, 1], [1, 0, 0, 0], [0, 1, 1, 1], [0, 1, 1, 1], [1, 0, 0, 0]].map (fun l =>
      .ok ([val [3, 6, 9, 12], val l], [[1, 1, 1, 1].map lit, [0, 0, 0, 0].map lit])) := by decide +kernel

end ETR.RepoTests
