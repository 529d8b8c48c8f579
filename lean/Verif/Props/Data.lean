import Verif.Lemmas.Data

/-!
# C117: what the library does with elements does not depend on what they are

Two programs have the same text, but different element types, numbers and element functions, which correspond to each other by `R`.
-/

namespace ETR
open Spec Mach Data
variable {V W : Type} {R : V → W → Prop} {z : V} {z' : W}

/-- Histories: the same undefined behaviour or none, equal lengths and dimensions, corresponding elements. -/
theorem C117_history (hz : R z z') {cs : List (Cmd V)} {cs' : List (Cmd W)} (h : List.Forall₂ (SameCmd R) cs cs') (sched : List Bool) :
    (runAll z cs (start sched)).1 = (runAll z' cs' (start sched)).1 ∧
    SameView R (runAll z cs (start sched)).2 (runAll z' cs' (start sched)).2 :=
  have := machR_runAll hz h (machR_start sched)
  ⟨this.1, sameView_of this.2⟩

/-- The outcome of each operation of a history, with the message of an exception, is the same. -/
theorem C117_outcome (hz : R z z') {cs : List (Cmd V)} {cs' : List (Cmd W)} (h : List.Forall₂ (SameCmd R) cs cs') {c : Cmd V} {c' : Cmd W}
    (hc : SameCmd R c c') (sched : List Bool) :
    (exec z c (runAll z cs (start sched)).2).1 = (exec z' c' (runAll z' cs' (start sched)).2).1 :=
  sameOut_unit (sim_exec hz hc _ _ (machR_runAll hz h (machR_start sched)).2).1

/-- Programs with control flow: they end in the same way, with the same warnings, equal lengths and dimensions, and corresponding elements. -/
theorem C117_program (hz : R z z') {p : Prog V} {p' : Prog W} (h : SameProg R p p') (fuel : Nat) (ws : List String) (sched : List Bool) :
    SameEnd R (p.run z fuel (ws, start sched)) (p'.run z' fuel (ws, start sched)) := by
  have := endR_run hz fuel h (ws, start sched) (ws, start sched) ⟨rfl, machR_start sched⟩
  revert this
  rcases p.run z fuel (ws, start sched) with _ | ⟨o, s⟩ <;> rcases p'.run z' fuel (ws, start sched) with _ | ⟨o', s'⟩
  · exact id
  · exact id
  · exact id
  · exact fun h => ⟨h.1, h.2.1, sameView_of h.2.2⟩

/-- Element functions that never fail: which exceptions are thrown, the lengths and the dimensions do not depend on the numbers at all. -/
theorem C117_shape {cs cs' : List (Cmd V)} (h : List.Forall₂ (SameCmd fun _ _ => True) cs cs') {c c' : Cmd V}
    (hc : SameCmd (fun _ _ => True) c c') (z z' : V) (sched : List Bool) :
    (exec z c (runAll z cs (start sched)).2).1 = (exec z' c' (runAll z' cs' (start sched)).2).1 ∧
    ∀ x, (runAll z cs (start sched)).2.env.size x = (runAll z' cs' (start sched)).2.env.size x ∧
      (runAll z cs (start sched)).2.env.mp x = (runAll z' cs' (start sched)).2.env.mp x :=
  ⟨C117_outcome (R := fun _ _ => True) trivial h hc sched,
    fun x => ⟨((C117_history (R := fun _ _ => True) (z := z) (z' := z') trivial h sched).2 x).1,
      ((C117_history (R := fun _ _ => True) (z := z) (z' := z') trivial h sched).2 x).2.1⟩⟩

/-- A translation `g` of the elements with which the element functions commute: the elements of the translated program are the translated
elements. -/
theorem C117_translate (g : V → W) {cs : List (Cmd V)} {cs' : List (Cmd W)} (h : List.Forall₂ (SameCmd fun v w => w = g v) cs cs')
    (sched : List Bool) (x i : Nat) :
    (runAll (g z) cs' (start sched)).2.env.get x i = (do let v ← (runAll z cs (start sched)).2.env.get x i; pure (g v)) := by
  have := ((C117_history (R := fun v w => w = g v) (z := z) rfl h sched).2 x).2.2 i
  revert this
  rcases (runAll z cs (start sched)).2.env.get x i with a | a | a <;> rcases (runAll (g z) cs' (start sched)).2.env.get x i with b | b | b <;>
    first | exact False.elim | exact fun h => congrArg _ h | exact fun h => congrArg _ h.symm

/-- The condition on the element functions is needed: an integer addition overflows or not depending on the numbers, and so do the exceptions
of a program whose `if` looks at an element. -/
theorem C117_needs :
    (∃ v w : Int, (exec 0 (.declExpr .ok (.bin (fun a b => ckI32 (a + b)) (.scal 1) (.rvec [v] {}))) (start [])).1 ≠
      (exec 0 (.declExpr .ok (.bin (fun a b => ckI32 (a + b)) (.scal 1) (.rvec [w] {}))) (start [])).1) ∧
    ∃ k : Int → Prog Int, ∃ v w : Int,
      ((Prog.read false (.rvec [v] {}) k).run 0 1 ([], start [])).map Prod.fst ≠ ((Prog.read false (.rvec [w] {}) k).run 0 1 ([], start [])).map Prod.fst :=
  ⟨⟨2 ^ 31 - 1, 0, by decide +kernel⟩,
    ⟨fun a => if a = 0 then .throw "zero" else .skip, 0, 1, by decide +kernel⟩⟩

/-! ## Witnesses -/

/-- A program over the numbers `a`, `b`: a matrix with the elements `a`, `b`, `a`, `b`; its double; a failing write; an appended element; a
subset. -/
def dataProg (a b : Int) : List (Cmd Int) :=
  [.declMat 2 2, .subAssignScalar 0 [0, 2] a, .subAssignScalar 0 [1, 3] b,
   .declExpr .ok (.bin (fun x y => .ok (x + y)) (.leaf 0) (.leaf 0)), .setElem 1 7 a, .pushBack 1 b,
   .subAssign .ok true 0 [3] (.un (fun x => .ok (-x)) (.sub (.leaf 1) [0] {}))]

theorem dataProg_same {R : Int → Int → Prop} {a b a' b' : Int} (ha : R a a') (hb : R b b') (hadd : ∀ x x' y y', R x x' → R y y' → R (x + y) (x' + y'))
    (hneg : ∀ x x', R x x' → R (-x) (-x')) : List.Forall₂ (SameCmd R) (dataProg a b) (dataProg a' b') :=
  .cons (.declMat 2 2) <| .cons (.subAssignScalar 0 _ ha) <| .cons (.subAssignScalar 0 _ hb) <|
    .cons (.declExpr (fun _ _ h => h) (.bin hadd (.leaf 0) (.leaf 0))) <| .cons (.setElem 1 7 ha) <| .cons (.pushBack 1 hb) <|
    .cons (.subAssign true 0 _ (fun _ _ h => h) (.un hneg (.sub _ _ (.leaf 1)))) .nil

-- C117_history, C117_translate: multiplication of all numbers by -3
example : List.Forall₂ (SameCmd fun v w => w = -3 * v) (dataProg 5 7) (dataProg (-15) (-21)) :=
  dataProg_same (by decide) (by decide) (fun _ _ _ _ h h' => by rw [h, h']; omega) (fun _ _ h => by rw [h]; omega)

example : (runAll 0 (dataProg 5 7) (start [])).1 = none ∧
    (List.range 4).map ((runAll 0 (dataProg 5 7) (start [])).2.env.get 0) = [.ok 5, .ok 7, .ok 5, .ok (-10)] ∧
    (runAll 0 (dataProg 5 7) (start [])).2.env.mp 1 = ⟨true, 2, 2⟩ ∧ (runAll 0 (dataProg 5 7) (start [])).2.env.size 1 = 5 := by
  decide +kernel

example (x i : Nat) : (runAll (-3 * 0) (dataProg (-15) (-21)) (start [])).2.env.get x i =
    (do let v ← (runAll 0 (dataProg 5 7) (start [])).2.env.get x i; pure (-3 * v)) :=
  C117_translate (z := 0) (fun v => -3 * v)
    (dataProg_same (by decide) (by decide) (fun _ _ _ _ h h' => by rw [h, h']; omega) (fun _ _ h => by rw [h]; omega)) [] x i

-- C117_outcome, C117_shape: any numbers; the write behind the end fails in the same way
example (a b a' b' : Int) : List.Forall₂ (SameCmd fun _ _ => True) (dataProg a b) (dataProg a' b') :=
  dataProg_same trivial trivial (fun _ _ _ _ _ _ => trivial) (fun _ _ _ => trivial)

example (a b v : Int) : (exec 0 (.setElem 1 7 v) (runAll 0 (dataProg a b) (start [])).2).1 = .thr "Error: out of boundaries --> value beyond size of vector" ∧
    (runAll 0 (dataProg a b) (start [])).2.env.size 1 = 5 := by
  have h := C117_shape (dataProg_same (R := fun _ _ => True) (a := a) (b := b) (a' := 5) (b' := 7) trivial trivial (fun _ _ _ _ _ _ => trivial)
    (fun _ _ _ => trivial)) (.setElem 1 7 (v := v) (v' := 0) trivial) 0 0 []
  have e : (exec 0 (.setElem 1 7 0) (runAll 0 (dataProg 5 7) (start [])).2).1 = .thr "Error: out of boundaries --> value beyond size of vector" ∧
    (runAll 0 (dataProg 5 7) (start [])).2.env.size 1 = 5 := by decide +kernel
  exact ⟨h.1.trans e.1, (h.2 1).1.trans e.2⟩

/-- A loop that subtracts `d` as long as the first element is positive and appends every second value to a vector. -/
def dataLoop (a d : Int) : Prog Int :=
  .decl (.declScalar a) fun x => .decl (.declScalar 0) fun y =>
    .loop false (.leaf x) (fun v => decide (0 < v)) <|
      .seq (.cmd (.assign .ok x (.bin (fun u v => .ok (u - v)) (.leaf x) (.scal d)))) <|
      .read false (.leaf x) fun v => .tryCatch (.cmd (.pushBack y v)) fun m => .throw m

-- C117_program: multiplication of all numbers by 3, which does not change their signs
theorem dataLoop_same (a d : Int) : SameProg (fun v w => w = 3 * v) (dataLoop a d) (dataLoop (3 * a) (3 * d)) :=
  .decl (.declScalar rfl) fun x => .decl (.declScalar rfl) fun y =>
    .loop false (.leaf x) (fun v v' h => by subst h; exact decide_eq_decide.2 (by omega)) <|
      .seq (.cmd (.assign x (fun _ _ h => h) (.bin (fun _ _ _ _ h h' => by subst h; subst h'; exact (Int.mul_sub 3 _ _).symm) (.leaf x) (.scal rfl)))) <|
      .read false (.leaf x) fun v v' h => .tryCatch (.cmd (.pushBack y h)) fun m => .throw m

example : ((dataLoop 5 2).run 0 9 ([], start [])).map (fun r => (r.1, (List.range 4).map (r.2.2.env.get 1))) =
      some (.ok (), [.ok 0, .ok 3, .ok 1, .ok (-1)]) ∧
    ((dataLoop 15 6).run 0 9 ([], start [])).map (fun r => (r.1, (List.range 4).map (r.2.2.env.get 1))) =
      some (.ok (), [.ok 0, .ok 9, .ok 3, .ok (-3)]) := by decide +kernel

example : SameEnd (fun v w => w = 3 * v) ((dataLoop 5 2).run 0 9 ([], start [])) ((dataLoop 15 6).run 0 9 ([], start [])) :=
  C117_program (R := fun v w => w = 3 * v) (by decide) (dataLoop_same 5 2) 9 [] []

end ETR
