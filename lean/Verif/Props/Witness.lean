import Verif.Props.Helper
import Verif.Props.Vector
import Verif.Props.Store
import Verif.Props.Subset
import Verif.Props.Traits
import Verif.Props.Typed
import Verif.Props.At
import Verif.Props.Expr

/-! Concrete states that meet the hypotheses of further theorems. -/

namespace ETR
open Spec

theorem rvec_reads {V : Type} (env : Env V) (l : List V) (mp : MP) (i : Nat) (hi : i < l.length) : (Expr.rvec l mp).el env i = .ok l[i] := by
  simp [Expr.el, getL, hi]

/-- `C64_length_false`: a vector with `2^31` elements. -/
example : lengthOf ⟨fun _ => 2 ^ 31, fun _ _ => .ok 7, fun _ => {}⟩ (.leaf 0 : Expr Nat) = -2147483648 := by
  have := C64_length_false (env := ⟨fun _ => 2 ^ 31, fun _ _ => .ok 7, fun _ => {}⟩) (e := (.leaf 0 : Expr Nat))
    (l := List.replicate (2 ^ 31) 7) ⟨by rw [List.length_replicate]; rfl, fun i hi => by rw [List.getElem_replicate]; rfl⟩
    (by rw [List.length_replicate]) (by rw [List.length_replicate]; norm_num)
  rw [this, List.length_replicate]
  norm_num

/-- `C64_empty_false` -/
example : Rejects (isNAVec ⟨fun _ => 0, fun _ _ => .ok (.i 0), fun _ => {}⟩ (.leaf 4)) Heap.empty [] := (C64_empty_false rfl _ _).1

/-- `C69_subset_undefined`: two elements, three indices. -/
example : ∃ (h : Heap Nat) (s : Store), Shows h s [5, 6] ∧ iterSubset h s [1, 0, 1] = .ub .oob := by
  refine ⟨⟨fun _ => ⟨2, fun i => some (5 + i), true, true⟩, 1, []⟩, ⟨some 0, 2, 2, true, {}⟩, ?_, ?_⟩
  · exact ⟨rfl, by decide⟩
  · exact C69_subset_undefined (b := 0) rfl rfl (fun _ _ => rfl) (by decide)

/-- `C05_capacity_covers_size_int` -/
example : ∃ c, capOfInt 1000000000 = .ok c ∧ 1000000000 ≤ c := (C05_capacity_covers_size_int 1000000000 (by norm_num)).1

/-- `C29_read_double`: the index 2.5 addresses the second element. -/
example (env : Env Nat) : ∃ e' ws', subset env (.rvec [7, 8, 9] {}) (.dbl (.fin (5 / 2))) [] = (.ok e', ws') ∧ Denotes env e' [8] :=
  C29_read_double (l := [7, 8, 9]) ⟨rfl, rvec_reads env _ _⟩ (by decide) (k := 2) (by norm_num) (by decide) (by decide) []

/-- `C31_double_partial`: the indices 3.5 and 1. -/
example (env : Env Nat) : ∃ e' ws' l', subset env (.rvec [7, 8, 9] {}) (.vdbl [.fin (7 / 2), .fin 1]) [] = (.ok e', ws') ∧
    Denotes env e' l' ∧ l' = [9, 7] := by
  obtain ⟨e', ws', l', h1, h2, h3⟩ := C31_double_partial (env := env) (e := .rvec [7, 8, 9] {}) (l := [7, 8, 9]) ⟨rfl, rvec_reads env _ _⟩ (by decide)
    (qs := [7 / 2, 1]) (by simp) (by decide) (by simp; norm_num) []
  refine ⟨e', ws', l', h1, h2, ?_⟩
  have h0 : ⌊(7 / 2 : ℚ)⌋ = 3 := by norm_num
  have : l'.map some = [some 9, some 7] := by rw [h3]; simp [h0]
  rcases l' with _ | ⟨a, _ | ⟨b, _ | ⟨c, t⟩⟩⟩ <;> simp_all

/-- `C38_vector_partial` -/
example : (calcIndVector 3 (.dbl (.fin (5 / 2))) []).1 = (calcIndVector 3 (.int 2) []).1 := by
  have := (C38_vector_partial 3 (5 / 2) (by norm_num) (by norm_num) [] []).2.1
  rwa [show ⌊(5 / 2 : ℚ)⌋ = 2 by norm_num] at this

/-- `C28_minus_unary` -/
example : Trait.minusUnary (.i 5) = .ok (.i (-5)) := Trait.C28_minus_unary 5 (by unfold InI32; omega)

/-- `C25_numeric_partial`: one element of each type. -/
example (env : Env Scal) (g : F64 → F64) : (Expr.un (Trait.unary g) (.rvec [.i 3, .b true] {})).el env 1 = .ok (.d (g (.fin 1))) := by
  simpa using (C25_numeric_partial env (.rvec [.i 3, .b true] {}) [.i 3, .b true] g rfl (rvec_reads env _ _) 1 (by decide)).2.2 true rfl

/-- `C42_temporary_matrix_partial` -/
example (env : Env Nat) : atRM env (.rvec [1, 2, 3, 4, 5, 6] ⟨true, 2, 3⟩) (.int 2) (.int 3) = .ok 6 := by
  have := C42_temporary_matrix_partial (env := env) (e := .rvec [1, 2, 3, 4, 5, 6] ⟨true, 2, 3⟩) (nr := 2) (nc := 3) (l := [1, 2, 3, 4, 5, 6])
    ⟨⟨rfl, rvec_reads env _ _⟩, rfl, rfl, rfl, rfl⟩ (i := 1) (j := 2) (by decide) (by decide) (by decide)
  simpa using this

/-- `Mach.C03_resize_borrowed`: a borrowed vector of length 3 shrinks to 2 and cannot grow to 4. -/
example : (∃ s', Mach.exec 0 (.resize 0 2) (Mach.runAll (0 : Int) [.callerArray [1, 2, 3], .declBorrow (some 0) 3] Mach.start).2 = (.ok (), s') ∧
      s'.env.size 0 = 2) ∧
    ∃ m s', Mach.exec 0 (.resize 0 4) (Mach.runAll (0 : Int) [.callerArray [1, 2, 3], .declBorrow (some 0) 3] Mach.start).2 = (.thr m, s') := by
  obtain ⟨s', h1, h2, _⟩ := (Mach.C03_resize_borrowed (zero := (0 : Int))
    (Mach.runAll (0 : Int) [.callerArray [1, 2, 3], .declBorrow (some 0) 3] Mach.start).2 0 2 (by decide +kernel) (by decide)).1 (by decide +kernel)
  obtain ⟨m, h3⟩ := (Mach.C03_resize_borrowed (zero := (0 : Int))
    (Mach.runAll (0 : Int) [.callerArray [1, 2, 3], .declBorrow (some 0) 3] Mach.start).2 0 4 (by decide +kernel) (by decide)).2 (by decide +kernel)
  exact ⟨⟨s', h1, h2⟩, m, _, h3⟩

end ETR
