import Verif.Tests.Stores

/-!
# The tests of the repository on the model: functions that create vectors

`/repo/tests/Vector_Tests.cpp`, `Colon_Tests.cpp`, `Rep_Tests.cpp`, `Matrix_Tests.cpp`, `Coca_Tests.cpp`, `Helper_Tests.cpp`.

Where a test asserts a message only inside of `catch`, the example states whether the call throws.  Left out: vectors with 50000 and
more elements (the sizes are covered by the theorems on `vector_*`).
-/

namespace ETR.RepoTests
open ETR

/-! ## Vector_Tests.cpp -/

/-- A size argument of type `int`, `double` and `bool`. -/
def szI (k : Int) : SizeArg := .one (.s (.i k))
def szD (q : ℚ) : SizeArg := .one (.s (.d (lit q)))
def szB (b : Bool) : SizeArg := .one (.s (.b b))

def numericSize (a : SizeArg) : Out Nat := builtSize (vectorNumeric (F64.fin 0) a)
def integerSize (a : SizeArg) : Out Nat := builtSize (vectorInteger (0 : Int) a)
def logicalSize (a : SizeArg) : Out Nat := builtSize (vectorLogical false false a)

/-- Vector_Tests.cpp 13-39, 81-89. -/
example : numericSize (szI 5) = .ok 5 ∧ numericSize (szD 5) = .ok 5 ∧ numericSize (szD (55 / 10)) = .ok 5 ∧
    numericSize (szB true) = .ok 1 := by decide +kernel

/-- Vector_Tests.cpp 40-52, 60-72, 80-86. -/
example : ∀ a ∈ [szI 0, szI (-1), szD (1 / 10), szD (-11 / 10), szB false], numericSize a = .thr "invalid times argument" := by
  intro a ha
  simp only [List.mem_cons, List.not_mem_nil, or_false] at ha
  rcases ha with rfl | rfl | rfl | rfl | rfl <;> decide +kernel

/-- Vector_Tests.cpp 53-58 and 73-78: `vector_numeric(SIZE_MAX)` and the largest double are converted to `int`, which is undefined; what
the test observes is the behaviour of the compiler. -/
example : numericSize (.one (.n (2 ^ 64 - 1))) = .ub .badConv ∧
    numericSize (.one (.s (.d (.fin (2 ^ 1024 - 2 ^ 971))))) = .ub .badConv := by decide +kernel

/-- Vector_Tests.cpp 93-119, 160-169. -/
example : integerSize (szI 5) = .ok 5 ∧ integerSize (szD 5) = .ok 5 ∧ integerSize (szD (55 / 10)) = .ok 5 ∧
    integerSize (szB true) = .ok 1 := by decide +kernel

/-- Vector_Tests.cpp 120-152, 160-166. -/
example : ∀ a ∈ [szI 0, szI (-1), .one (.n (2 ^ 64 - 1)), szD (1 / 10), szD (-11 / 10), szB false],
    integerSize a = .thr "invalid times argument" := by
  intro a ha
  simp only [List.mem_cons, List.not_mem_nil, or_false] at ha
  rcases ha with rfl | rfl | rfl | rfl | rfl | rfl <;> decide +kernel

/-- Vector_Tests.cpp 173-199, 240-249. -/
example : logicalSize (szI 5) = .ok 5 ∧ logicalSize (szD 5) = .ok 5 ∧ logicalSize (szD (55 / 10)) = .ok 5 ∧
    logicalSize (szB true) = .ok 1 := by decide +kernel

/-- Vector_Tests.cpp 200-232, 240-246. -/
example : ∀ a ∈ [szI 0, szI (-1), .one (.n (2 ^ 64 - 1)), szD (1 / 10), szD (-11 / 10), szB false],
    logicalSize a = .thr "invalid times argument" := by
  intro a ha
  simp only [List.mem_cons, List.not_mem_nil, or_false] at ha
  rcases ha with rfl | rfl | rfl | rfl | rfl | rfl <;> decide +kernel

/-- Vector_Tests.cpp 176-178: the test checks `vec1` again instead of `vec2`; `vec2` has one element. -/
example : builtSize (vectorLogical false true (szI 5)) = .ok 1 := by decide +kernel

/-- Vector_Tests.cpp 252-281. -/
example : numericSize (.vec 1 (.ok (.s (.d (.fin 10))))) = .ok 10 ∧
    numericSize (.vec 3 (.ok (.s (.d (.fin 10))))) = .thr "invalid length argument" ∧
    numericSize (.vec 3 (.ok (.s (.d (.fin (-10)))))) = .thr "invalid length argument" := by decide +kernel

/-- A new constant after a function of `Allocation/` with an index. -/
def constant (m : CM Unit) : Out (List (Option F64)) :=
  match m ([], {}) with
  | (.ok _, s) => .ok (s.2.cells.take s.2.sz)
  | (.thr e, _) => .thr e
  | (.ub u, _) => .ub u

/-- Vector_Tests.cpp 283-362. -/
example : constant (vectorCon (szI 3)) = .ok (List.replicate 3 (some (.fin 0))) ∧
    constant (vectorCon (szI 0)) = .thr "invalid times argument" ∧
    constant (vectorCon (szI (-10))) = .thr "invalid times argument" := by decide +kernel

/-! ## Colon_Tests.cpp -/

/-- Colon_Tests.cpp 9-22. -/
example : built (colonInt (.one (-1)) (.one 10)) = .ok [-1, 0, 1, 2, 3, 4, 5, 6, 7, 8, 9, 10] ∧
    built (colonInt (.one 10) (.one (-2))) = .ok [10, 9, 8, 7, 6, 5, 4, 3, 2, 1, 0, -1, -2] := by decide +kernel

/-- Colon_Tests.cpp 24-47. -/
example :
    built (colonDbl (.one (lit (1025 / 100))) (.one (lit (-15 / 10)))) =
      .ok ((List.range 12).map (fun i => .fin (1025 / 100 - i))) ∧
    built (colonDbl (.one (lit (125 / 100))) (.one (lit (46 / 10)))) =
      .ok [.fin (125 / 100), .fin (225 / 100), .fin (325 / 100), .fin (425 / 100)] ∧
    built (colonDbl (.one (lit (125 / 100))) (.one (.fin 5))) =
      .ok [.fin (125 / 100), .fin (225 / 100), .fin (325 / 100), .fin (425 / 100)] ∧
    built (colonDbl (.one (.fin 1)) (.one (lit (46 / 10)))) = .ok [.fin 1, .fin 2, .fin 3, .fin 4] := by decide +kernel

/-- The first elements of vectors that are used as bounds. -/
def cD (n : Nat) (x : Int) : CArg F64 := .vec n (.ok (.fin x))
def cI (n : Nat) (x : Int) : CArg Int := .vec n (.ok x)

/-- Colon_Tests.cpp 51-73 and 76-83. -/
example : builtSize (colonDbl (cD 3 1) (.one (.fin 10))) = .ok 10 ∧ built (colonDbl (cD 3 1) (.one (.fin 1))) = .ok [.fin 1] ∧
    built (colonDbl (cD 3 0) (.one (.fin 0))) = .ok [.fin 0] ∧
    builtSize (colonInt (cI 3 1) (.one 7)) = .ok 7 ∧ built (colonInt (cI 3 1) (.one 1)) = .ok [1] ∧
    built (colonInt (cI 3 0) (.one 0)) = .ok [0] ∧
    builtSize (colonDbl (cD 1 0) (.one (.fin 0))) = .ok 1 ∧ builtSize (colonDbl (cD 1 1) (.one (.fin 0))) = .ok 2 ∧
    builtSize (colonDbl (cD 1 0) (cD 1 1)) = .ok 2 ∧ builtSize (colonDbl (cD 1 1) (cD 1 1)) = .ok 1 := by decide +kernel

/-- Colon_Tests.cpp 85-120. -/
example : built (colonDbl (.one (.fin 10)) (cD 3 1)) = .ok ((List.range 10).map (fun i => .fin (10 - i))) ∧
    builtSize (colonDbl (.one (.fin 10)) (.vec 0 (.thr "No memory was allocated"))) = .thr "No memory was allocated" ∧
    built (colonDbl (.one (.fin 10)) (cD 1 5)) = .ok [.fin 10, .fin 9, .fin 8, .fin 7, .fin 6, .fin 5] ∧
    built (colonDbl (.one (.fin (-5))) (cD 3 1)) = .ok [.fin (-5), .fin (-4), .fin (-3), .fin (-2), .fin (-1), .fin 0, .fin 1] := by
  decide +kernel

/-- Colon_Tests.cpp 123-145. -/
example : built (colonDbl (cD 3 1) (cD 3 4)) = .ok [.fin 1, .fin 2, .fin 3, .fin 4] := by decide +kernel

/-- The constant after the calls one after the other. -/
def constantOf (ms : List (CM Unit)) : Out (List (Option F64)) := constant (ms.foldl (fun a m => do a; m) (pure ()))

/-- Its size. -/
def constantSize (ms : List (CM Unit)) : Out Nat := do
  let l ← constantOf ms
  return l.length

/-- Colon_Tests.cpp 147-206: the calls use the same constant again. -/
example :
    let is (l : List ℚ) : Out (List (Option F64)) := .ok (l.map (fun q => some (.fin q)))
    let a := colonConInt (.one 0) (.one 1)
    let b := colonConInt (.one 1) (.one 10)
    let c := colonConDbl (.one (lit (11 / 10))) (.one (lit (101 / 10)))
    let d := colonConInt (.one (-1)) (.one 10)
    let e := colonConInt (.one 10) (.one (-2))
    let f := colonConDbl (.one (lit (1025 / 100))) (.one (lit (-15 / 10)))
    let g := colonConDbl (.one (lit (125 / 100))) (.one (lit (46 / 10)))
    let h := colonConDbl (.one (lit (125 / 100))) (.one (.fin 5))
    let i := colonConDbl (.one (.fin 1)) (.one (lit (46 / 10)))
    constantSize [a] = .ok 2 ∧ constantSize [a, b] = .ok 10 ∧
    constantSize [a, b, c] = .ok 10 ∧
    constantOf [a, b, c, d] = is [-1, 0, 1, 2, 3, 4, 5, 6, 7, 8, 9, 10] ∧
    constantOf [a, b, c, d, e] = is [10, 9, 8, 7, 6, 5, 4, 3, 2, 1, 0, -1, -2] ∧
    constantOf [a, b, c, d, e, f] = is ((List.range 12).map (fun i => 1025 / 100 - i)) ∧
    constantOf [a, b, c, d, e, f, g] = is [125 / 100, 225 / 100, 325 / 100, 425 / 100] ∧
    constantOf [a, b, c, d, e, f, g, h] = is [125 / 100, 225 / 100, 325 / 100, 425 / 100] ∧
    constantOf [a, b, c, d, e, f, g, h, i] = is [1, 2, 3, 4] := by decide +kernel

/-! ## Rep_Tests.cpp -/

/-- `coca(…)` of integers, as a temporary. -/
def ints (l : List Int) : Expr Int := .rvec l {}

/-- Rep_Tests.cpp 8-34. -/
example : built (rep 0 noVars (.scal (1 : Int)) (szI 2)) = .ok [1, 1] ∧
    built (rep 0 noVars (.scal (1 : Int)) (.vec 3 (.ok (.s (.i 1))))) = .ok [1] ∧
    built (rep 0 noVars (.scal (1 : Int)) (.vec 3 (.ok (.s (.d (.fin 2)))))) = .ok [1, 1] ∧
    builtSize (rep 0 noVars (.scal (1 : Int)) (.vec 1 (.ok (.s (.b false))))) = .thr "invalid times argument" := by decide +kernel

/-- Rep_Tests.cpp 35-50. -/
example : built (rep 0 noVars (.vec (ints [1, 2, 3])) (szI 5)) = .ok [1, 2, 3, 1, 2, 3, 1, 2, 3, 1, 2, 3, 1, 2, 3] ∧
    builtSize (rep 0 noVars (.vec (ints [11, 22, 33, 44])) (szI 5)) = .ok 20 ∧
    builtSize (rep 0 noVars (.vec (.bin (fun a b => .ok (a + b)) (ints [11, 22, 33, 44]) (ints [11, 22, 33, 44]))) (szI 5)) = .ok 20 ∧
    builtSize (rep 0 noVars (.vec (ints [1, 2, 3])) (.vec 3 (.ok (.s (.i 5))))) = .ok 15 ∧
    builtSize (rep 0 noVars (.vec (.bin (fun a b => .ok (a + b)) (ints [1, 2, 3]) (.scal 1))) (.vec 3 (.ok (.s (.d (.fin 6)))))) = .ok 18 := by
  decide +kernel

/-! ## Matrix_Tests.cpp -/

/-- Matrix_Tests.cpp 9-11, 32-35. -/
example : built (matrix 0 noVars (.scal (1 : Int)) (szI 2) (szI 2)) = .ok [1, 1, 1, 1] ∧
    builtSize (matrix 0 noVars (.vec (ints ((List.range 16).map (fun i => (i : Int) + 1)))) (szI 4) (szI 4)) = .ok 16 ∧
    builtSize (matrix 0 noVars (.vec (.bin (fun a b => .ok (a + b)) (ints ((List.range 16).map (fun i => (i : Int) + 1))) (.scal 1)))
      (szI 4) (szI 4)) = .ok 16 ∧
    builtSize (matrix 0 noVars (.vec (ints ((List.range 16).map (fun i => (i : Int) + 1)))) (.vec 1 (.ok (.s (.d (.fin 4))))) (szI 4)) =
      .ok 16 := by decide +kernel

/-! ## Coca_Tests.cpp -/

def sI (k : Int) : CoArg := .scal (.i k)
def sD (q : ℚ) : CoArg := .scal (.d (lit q))
def sB (b : Bool) : CoArg := .scal (.b b)
def vI (l : List Int) : CoArg := .vec .int (.rvec (l.map .i) {})
def vD (l : List ℚ) : CoArg := .vec .double (.rvec (l.map (fun q => .d (lit q))) {})

/-- Coca_Tests.cpp 9-37. -/
example : determineType (sI 1) [sI 2, sI 3] = .int ∧ determineType (sD (11 / 10)) [sD (21 / 10), sD (31 / 10)] = .double ∧
    determineType (sB false) [sB true, sB false, sB false] = .bool ∧ determineType (sD (11 / 10)) [sI 2, sI 3, sI 4] = .double ∧
    determineType (sI 1) [sI 2, sI 3, sI 4, sD (55 / 10)] = .double ∧ determineType (sI 1) [sB false, sI 2, sB true] = .int ∧
    determineType (sI 1) [sB false, sD (22 / 10), sB true] = .double ∧
    determineType (sI 1) [sB false, vD [11 / 10, 22 / 10], sB true] = .double ∧
    determineType (vD [11 / 10, 22 / 10]) [sI 1, sB true] = .double := by decide +kernel

/-- Coca_Tests.cpp 39-66. -/
example : builtSize (coca noVars (sI 1) [sI 2, sI 3]) = .ok 3 ∧ builtSize (coca noVars (sB true) [sI 2, sI 3]) = .ok 3 ∧
    built (coca noVars (sB true) [sD (22 / 10), sI 3]) = .ok [.d (.fin 1), .d (lit (22 / 10)), .d (.fin 3)] ∧
    builtSize (coca noVars (vI (List.replicate 16 1)) [sI 4, sI 5]) = .ok 18 ∧
    built (coca noVars (vI ((List.range 16).map (fun i => (i : Int) + 1))) [sI 9, sI 9, sI 9, sI 9]) =
      .ok (((List.range 16).map (fun i => .i ((i : Int) + 1))) ++ [.i 9, .i 9, .i 9, .i 9]) ∧
    builtSize (coca noVars (vI [1, 16]) [sI 4, sI 4, sI 4, sI 5]) = .ok 6 ∧
    builtSize (coca noVars (vD (List.replicate 16 0)) [sI 4, sI 4, sI 4, sI 5]) = .ok 20 ∧
    builtSize (coca noVars (vI (List.replicate 16 1)) [sI 4, sI 5, vI [1, 2, 3], vI [1, 1, 1, 1]]) = .ok 25 ∧
    builtSize (coca noVars (vD [1, 2, 3]) [sD (314 / 100), sI 60]) = .ok 5 ∧
    builtSize (coca noVars (vD [1, 2, 3]) [sI 1, sI 2, vD [1, 2, 3]]) = .ok 8 := by decide +kernel

/-! ## Helper_Tests.cpp -/

/-- Helper_Tests.cpp 8-42. -/
example : [Scal.d .nan, .d (.inf false), .d (.fin 0), .d (lit (314 / 100)), .i 14, .d (.inf true)].map Scal.isNA =
      [true, false, false, false, false, false] ∧
    [Scal.d .nan, .d (.inf false), .d (.fin 0), .d (lit (314 / 100)), .i 14, .d (.inf true)].map Scal.isInf =
      [false, true, false, false, false, true] := by decide +kernel

/-- Helper_Tests.cpp 44-64. -/
example : numericSize (szI 40) = .ok 40 ∧ numericSize (szI 1) = .ok 1 ∧
    (Expr.bin (fun a b => .ok (a + b)) (ints [1, 2, 3]) (ints [4, 5])).size noVars = 3 ∧
    (Expr.bin (fun a b => .ok (a * b)) (ints [1, 2, 3]) (.scal 3)).size noVars = 3 ∧
    lengthOf noVars (.scal (Scal.i 1)) = 1 ∧ lengthOf noVars (.scal (Scal.b true)) = 1 ∧
    lengthOf noVars (.scal (Scal.d .nan)) = 1 := by decide +kernel

/-- Helper_Tests.cpp 66-100. -/
example : built (dim noVars (.rvec (List.replicate 16 (3 : Int)) ⟨true, 4, 4⟩)) = .ok [4, 4] ∧
    built (dim noVars (.rvec (List.replicate 8 (3 : Int)) ⟨true, 2, 4⟩)) = .ok [2, 4] ∧
    built (dim noVars (.scal (1 : Int))) = .thr "dim can only be called with matrix" ∧
    built (dim noVars (ints [1, 2, 3])) = .thr "dim can only be called with matrix" ∧
    built (dim noVars (.rvec (List.replicate 8 (3 : Int)) ⟨true, 4, 2⟩)) = .ok [4, 2] := by decide +kernel

end ETR.RepoTests
