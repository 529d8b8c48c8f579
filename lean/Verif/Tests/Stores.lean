import Verif.Model.Machine
import Verif.Model.Helper
import Verif.Model.At
import Verif.Model.DerivAlloc

/-!
# The tests of the repository on the model: common definitions, stores and borrowed vectors

The files in this directory repeat the assertions of `/repo/tests/*.cpp` on the model, by evaluation.  They are tests of the model
against the behaviour that the authors of the library assert; they are not proofs of properties.

This file: `BaseStore_Tests.cpp` and `Borrow_Tests.cpp`.
-/

namespace ETR.RepoTests
open ETR

/-- A decimal literal of the tests. -/
def lit (q : ℚ) : F64 := F64.rnd q

/-- The elements of a vector that is built by one of the functions of `Allocation/`. -/
def built {V : Type} (m : AM V Unit) : Out (List V) :=
  match m ([], (Heap.empty, {})) with
  | (.ok _, s) => s.2.2.iterate s.2.1
  | (.thr e, _) => .thr e
  | (.ub u, _) => .ub u

/-- Its size. -/
def builtSize {V : Type} (m : AM V Unit) : Out Nat :=
  match m ([], (Heap.empty, {})) with
  | (.ok _, s) => .ok s.2.2.sz
  | (.thr e, _) => .thr e
  | (.ub u, _) => .ub u

/-- The result of a computation that prints. -/
def said {α : Type} (m : L α) : Out α := (m []).1

/-- The result of operations on a new store. -/
def store {α : Type} (m : SM F64 α) : Out α := (m (Heap.empty, {})).1

/-- The element `i` of the store. -/
def nth (i : Nat) : SM F64 F64 := M.reads (fun st => st.2.get st.1 i)

/-- No named vectors. -/
def noVars {V : Type} : Env V := ⟨fun _ => 0, fun _ _ => .thr "", fun _ => {}⟩

/-- BaseStore_Tests.cpp 10-25. -/
example : store (nth 0) = .thr "No memory was allocated" ∧
    store Store.self = .ok { p := none, sz := 0, capacity := 0, allocated := false, mp := ⟨false, 0, 0⟩ } := by decide +kernel

/-- BaseStore_Tests.cpp 28-37.  `static_cast<int>(1.15 * 100)` is 114, since `1.15 * 100` is less than 115 in binary64. -/
example : F64.toI32 (F64.mul (lit (115 / 100)) (.fin 100)) = .ok 114 ∧
    store (do
      Store.ctorInt (.fin 0) 100
      let s ← Store.self
      Store.pushBack (.fin 0) (lit (314 / 100))
      let t ← Store.self
      let v ← nth (t.sz - 1)
      return (s.sz, s.capacity, t.sz, v)) = .ok (100, 114, 101, lit (314 / 100)) := by decide +kernel

/-- BaseStore_Tests.cpp 40-49. -/
example : F64.toI32 (F64.mul (lit (115 / 100)) (.fin 3)) = .ok 3 ∧
    store (do
      Store.ctorInt (.fin 0) 3
      let s ← Store.self
      Store.pushBack (.fin 0) (lit (314 / 100))
      let t ← Store.self
      let v ← nth (t.sz - 1)
      return (s.sz, s.capacity, t.sz, v)) = .ok (3, 3, 4, lit (314 / 100)) := by decide +kernel

/-- BaseStore_Tests.cpp 51-62. -/
example : store (do
      Store.pushBack (.fin 0) (.fin 0)
      Store.pushBack (.fin 0) (.fin 1)
      Store.pushBack (.fin 0) (.fin 2)
      Store.pushBack (.fin 0) (.fin 3)
      return [← nth 0, ← nth 1, ← nth 2, ← nth 3]) = .ok [.fin 0, .fin 1, .fin 2, .fin 3] := by decide +kernel

/-- BaseStore_Tests.cpp 64-76. -/
example : store (do
      Store.resize (.fin 0) 10
      let s ← Store.self
      Store.set (s.sz - 1) (lit (45 / 10))
      let v ← nth (s.sz - 1)
      Store.resize (.fin 0) 1000
      let t ← Store.self
      Store.set (t.sz - 1) (lit (4005 / 10))
      let w ← nth (t.sz - 1)
      return (s.sz, v, t.sz, w)) = .ok (10, lit (45 / 10), 1000, lit (4005 / 10)) := by decide +kernel

/-- BaseStore_Tests.cpp 79-90. -/
example : store (do
      Store.init 10
      let s ← Store.self
      Store.set (s.sz - 1) (lit (45 / 10))
      let v ← nth (s.sz - 1)
      Store.init 1000
      let t ← Store.self
      Store.set (t.sz - 1) (lit (4005 / 10))
      let w ← nth (t.sz - 1)
      return (s.sz, v, t.sz, w)) = .ok (10, lit (45 / 10), 1000, lit (4005 / 10)) := by decide +kernel

/-- BaseStore_Tests.cpp 93-106. -/
example : store (do
      Store.resize (.fin 0) 10
      Store.fillScalar (lit (34 / 10))
      let l ← M.reads (fun st => st.2.iterate st.1)
      Store.resize (.fin 0) 100
      Store.fillScalar (lit (34 / 10))
      let l' ← M.reads (fun st => st.2.iterate st.1)
      return (l, l')) = .ok (List.replicate 10 (lit (34 / 10)), List.replicate 100 (lit (34 / 10))) := by decide +kernel

/-- BaseStore_Tests.cpp 108-123. -/
example : store (do
      Store.resize (.fin 0) 10
      Store.fillLoop 10 (fun _ i => .ok (F64.ofNat (i + 1)))
      let l ← M.reads (fun st => st.2.iterate st.1)
      Store.resize (.fin 0) 100
      Store.fillLoop 100 (fun _ i => .ok (F64.ofNat (i + 1)))
      let l' ← M.reads (fun st => st.2.iterate st.1)
      return (l, l')) =
    .ok ((List.range 10).map (fun i => F64.ofNat (i + 1)), (List.range 100).map (fun i => F64.ofNat (i + 1))) := by decide +kernel

/-! ## Borrow_Tests.cpp -/

/-- A new program with memory of `n` elements of the caller and a vector, number 0, that borrows it. -/
def borrowing {α : Type} (n : Nat) (m : M (Mach F64) α) : Out α :=
  ((do Mach.callerArray (List.replicate n (.fin 0)); Mach.declBorrow (some 0) n; m : M (Mach F64) α) Mach.start).1

/-- Size, capacity and last element of vector 0. -/
def shown : M (Mach F64) (Nat × Nat × F64) := fun s =>
  let d := s.st (0, false)
  match d.get s.heap (d.sz - 1) with
  | .ok v => (.ok (d.sz, d.capacity, v), s)
  | .thr e => (.thr e, s)
  | .ub u => (.ub u, s)

/-- Borrow_Tests.cpp 28-38 and 41-52 (the test does not initialise the memory; it reads only what it has written). -/
example : borrowing 100 (do Mach.setElem 0 99 (lit (314 / 100)); shown) = .ok (100, 100, lit (314 / 100)) ∧
    borrowing 3 (do Mach.setElem 0 2 (lit (314 / 100)); shown) = .ok (3, 3, lit (314 / 100)) := by decide +kernel

/-- Borrow_Tests.cpp 54-76. -/
example : borrowing 10 (do
      Mach.resize (.fin 0) 0 5
      Mach.setElem 0 4 (lit (45 / 10))
      let a ← shown
      Mach.resize (.fin 0) 0 7
      Mach.setElem 0 6 (lit (4005 / 10))
      let b ← shown
      return (a, b)) = .ok ((5, 10, lit (45 / 10)), (7, 10, lit (4005 / 10))) ∧
    borrowing 10 (Mach.resize (.fin 0) 0 1000) = .thr "Cannot resize Borrow element above size of borrowed object" := by decide +kernel

/-- Borrow_Tests.cpp 91-100. -/
example : borrowing 10 (do
      Mach.fill 0 (lit (34 / 10))
      M.reads (fun s => (s.st (0, false)).iterate s.heap)) = .ok (List.replicate 10 (lit (34 / 10))) := by decide +kernel

/-- Borrow_Tests.cpp 102-112. -/
example : borrowing 10 (do
      Mach.onSlot (0, false) (Store.fillLoop 10 (fun _ i => .ok (F64.ofNat (i + 1))))
      M.reads (fun s => (s.st (0, false)).iterate s.heap)) = .ok ((List.range 10).map (fun i => F64.ofNat (i + 1))) := by decide +kernel

/-- Borrow_Tests.cpp 131-133: `ret(1) = 2; ret(2) = true; ret(3) = 3.14`. -/
example : ((do
      Mach.declTemp (.fin 0) (List.replicate 20 (.fin 0)) {}
      let one (k : Int) (v : F64) : M (Mach F64) Unit := do
        let ind ← M.lift (said (calcIndVector 20 (.int k)))
        Mach.subAssignScalar 1 ind v
      one 1 (.fin 2)
      one 2 (.fin 1)
      one 3 (lit (314 / 100))
      M.reads (fun s => (s.st (1, false)).iterate s.heap) : M (Mach F64) (List F64)) Mach.start).1 =
    .ok ([.fin 2, .fin 1, lit (314 / 100)] ++ List.replicate 17 (.fin 0)) := by decide +kernel

end ETR.RepoTests
