import Verif.Props.Subset
import Verif.Props.Construct

/-!
# C96: index of another arithmetic type
-/

namespace ETR
open Mach Spec
variable {V : Type}

/-- C96, what holds: for an index of another arithmetic type (such as `std::size_t`) every use except storing a number is rejected or
undefined, and no variable is changed: reading an element fails with an error (or has undefined behaviour if the vector is empty), and
so does `x = v(k)` and `v(k) = e`, for every state, every vector and every value of the index.

Missing: the selected element is never delivered (`C96_false_read`) and storing a number is silently ignored (`C96_false_write`). -/
theorem C96_partial {zero : V} {conv : V → Out V} (env : Env V) (e : Expr V) (k : ℚ) (ws : List String) :
    ∃ e', subsetOther env e k ws = (.ok e', ws) ∧
      (∀ i v, e'.el env i ≠ .ok v) ∧
      (1 ≤ e.size env → ∀ i, ∃ m, e'.el env i = .thr m) ∧
      (∀ (s : Mach V) x, ∃ m, exec zero (.assign conv x e') s = (.thr m, s)) := by
  refine ⟨.sub e [] {}, rfl, ?_, ?_, ?_⟩
  · intro i v h
    simp only [Expr.el, modz, getL] at h
    by_cases hz : e.size env = 0
    · rw [if_pos hz] at h; simp at h
    · rw [if_neg hz] at h; simp at h
  · intro hz i
    refine ⟨"Error: out of boundaries --> value beyond size of vector", ?_⟩
    simp only [Expr.el, modz, getL]
    rw [if_neg (by omega)]
    simp
  · intro s x
    have ft : Mach.fillTemp zero conv x (.sub e [] {}) s = (.thr "Size has to be larger than 0", s) := by
      unfold Mach.fillTemp
      rw [M.bind_ok (M.get_apply _), M.bind_thr (e := "Size has to be larger than 0") (s' := s)]
      show onSlot (x, true) (Store.resize zero 0) s = _
      rw [onSlot_apply, Store.resize_zero, put_self]
    refine ⟨"Size has to be larger than 0", ?_⟩
    show Mach.assign zero conv x (.sub e [] {}) s = _
    unfold Mach.assign
    rw [M.bind_ok (M.get_apply _)]
    split
    · unfold assignBorrow
      rw [M.bind_ok (M.get_apply _), M.bind_ok (a := ()) (s' := s) (by simp [M.ass, Expr.size]), M.bind_thr ft]
    · unfold assignBuffer
      rw [M.bind_thr ft]

/-- C96, storing a number through such an index has no effect at all and reports no error: in every state, for every vector, index value
and number. -/
theorem C96_write_characterised {zero : V} (n : Nat) (k : ℚ) (ws : List String) :
    ∃ ind, calcIndOther n k ws = (.ok ind, ws) ∧ ∀ (s : Mach V) x v, exec zero (.subAssignScalar x ind v) s = (.ok (), s) :=
  ⟨[], rfl, fun _ _ _ => rfl⟩

/-- C96, a vector assigned through such an index: always an error, and no variable is changed. -/
theorem C96_assign_partial {zero : V} {conv : V → Out V} {same : Bool} (n : Nat) (k : ℚ) (ws : List String) :
    ∃ ind, calcIndOther n k ws = (.ok ind, ws) ∧ ∀ (s : Mach V) x e, Reach zero s →
      ∃ m s', exec zero (.subAssign conv same x ind e) s = (.thr m, s') ∧ ∀ y, y < s.n → SameVar s s' y := by
  refine ⟨[], rfl, fun s x e r => ?_⟩
  have I := r.inv
  obtain ⟨s3, q3, I3, n3, o3⟩ := I.bump.destroy_same (t := s.n) (by simp [Mach.bump])
  have body : ∃ m, subAssignBody zero conv same x [] e s.n s.bump = (.thr m, s.bump) := by
    unfold subAssignBody
    rw [M.bind_ok (M.get_apply _)]
    by_cases hz : e.size s.bump.env = 0
    · refine ⟨"Size has to be larger than 0", ?_⟩
      rw [M.bind_ok (a := ()) (s' := s.bump) (by simp [M.ass, hz]), M.bind_thr (e := "Size has to be larger than 0") (s' := s.bump)]
      unfold Mach.fillTemp
      rw [M.bind_ok (M.get_apply _), M.bind_thr (e := "Size has to be larger than 0") (s' := s.bump)]
      rw [hz, onSlot_apply, Store.resize_zero, put_self]
    · exact ⟨"number of items to replace is not a multiple of replacement length", M.bind_thr (by simp [M.ass, hz])⟩
  obtain ⟨m, hm⟩ := body
  refine ⟨m, s3, ?_, fun y hy => ?_⟩
  · show Mach.subAssign zero conv same x [] e s = _
    unfold Mach.subAssign
    rw [withTmp_thr hm, M.bind_ok q3]
    rfl
  · have := o3 y (by omega)
    exact this

/-- The property is false: after `x(2) = 5.0` with a `std::size_t` index the second element of `x` is still 0, with an `int` index it
is 5. -/
theorem C96_false_write :
    (exec (F64.fin 0) (.declSize 3) start).1 = .ok () ∧
    let s := (exec (F64.fin 0) (.declSize 3) start).2
    (calcIndOther 3 2 []).1 = .ok [] ∧ (exec (F64.fin 0) (.subAssignScalar 0 [] (.fin 5)) s).1 = .ok () ∧
    (exec (F64.fin 0) (.subAssignScalar 0 [] (.fin 5)) s).2.env.get 0 1 = .ok (.fin 0) ∧
    (calcIndVector 3 (.int 2) []).1 = .ok [1] ∧
    (exec (F64.fin 0) (.subAssignScalar 0 [1] (.fin 5)) s).2.env.get 0 1 = .ok (.fin 5) := by
  decide +kernel

/-- Nor is it the element that is read: with a `std::size_t` index 2 the expression `w + x(2)` divides by zero when its first element is
computed; with an `int` index it is `w[0] + x[1]`. -/
theorem C96_false_read (env : Env Int) (w x : List Int) (a b : Int) (hw : w[0]? = some a) (hx : x[1]? = some b) :
    (∃ e', (subsetOther env (.rvec x {}) 2 []).1 = .ok e' ∧
      (Expr.bin (fun a b => .ok (a + b)) (.rvec w {}) e').el env 0 = .ub .modZero) ∧
    ∃ e', (subset env (.rvec x {}) (.int 2) []).1 = .ok e' ∧
      (Expr.bin (fun a b => .ok (a + b)) (.rvec w {}) e').el env 0 = .ok (a + b) := by
  obtain ⟨w0, rfl⟩ : ∃ t, w = a :: t := by cases w <;> simp_all
  obtain ⟨c, t, rfl⟩ : ∃ c t, x = c :: b :: t := by
    match x, hx with
    | [_], h => simp at h
    | c :: b' :: t, h => simp at h; exact ⟨c, t, by rw [h]⟩
  constructor
  · refine ⟨.sub (.rvec (c :: b :: t) {}) [] {}, rfl, ?_⟩
    simp [Expr.el, Expr.size, Expr.isScal, posOf, modz, getL]
  · refine ⟨.sub (.rvec (c :: b :: t) {}) [1] {}, ?_, ?_⟩
    · rfl
    · simp [Expr.el, Expr.size, Expr.isScal, posOf, modz, getL]

example : ∃ s, Reach (0 : Int) s ∧ s.env.size 0 = 4 ∧
    (exec 0 (.assign .ok 2 (.sub (.leaf 0) [] {})) s).1 = .thr "Size has to be larger than 0" ∧
    (exec 0 (.subAssign .ok false 0 [] (.leaf 2)) s).1 = .thr "number of items to replace is not a multiple of replacement length" :=
  ⟨_, sampleReach, by decide +kernel, by decide +kernel, by decide +kernel⟩

/-- `v(2.5f)` of `v = c(5, 6)`: nothing can be read from it; `v(2.5f) = 3` writes nothing. -/
example : ∃ e', subsetOther (⟨fun _ => 2, fun _ i => getL [5, 6] i, fun _ => {}⟩ : Env Int) (.leaf 0) (5 / 2) [] = (.ok e', []) ∧
    ∃ m, e'.el ⟨fun _ => 2, fun _ i => getL [5, 6] i, fun _ => {}⟩ 0 = .thr m := by
  obtain ⟨e', h, _, h2, _⟩ := C96_partial (zero := (0 : Int)) (conv := .ok) ⟨fun _ => 2, fun _ i => getL [5, 6] i, fun _ => {}⟩ (.leaf 0) (5 / 2) []
  exact ⟨e', h, h2 (by show 1 ≤ 2; omega) 0⟩

example : ∃ ind, calcIndOther 4 (5 / 2) [] = (.ok ind, []) ∧
    exec 0 (.subAssignScalar 0 ind 3) (runAll (0 : Int) sampleHistory start).2 = (.ok (), (runAll (0 : Int) sampleHistory start).2) := by
  obtain ⟨ind, h, h'⟩ := C96_write_characterised (zero := (0 : Int)) 4 (5 / 2) []
  exact ⟨ind, h, h' _ _ _⟩

example : ∃ ind, calcIndOther 4 (5 / 2) [] = (.ok ind, []) ∧ ∃ m s', exec 0 (.subAssign .ok true 0 ind (.scal 3)) (runAll (0 : Int) sampleHistory start).2 =
    (.thr m, s') ∧ SameVar (runAll (0 : Int) sampleHistory start).2 s' 0 := by
  obtain ⟨ind, h, h'⟩ := C96_assign_partial (zero := (0 : Int)) (conv := .ok) (same := true) 4 (5 / 2) []
  obtain ⟨m, s', e, hs⟩ := h' _ 0 (.scal 3) sampleReach
  exact ⟨ind, h, m, s', e, hs 0 (by decide +kernel)⟩

end ETR
