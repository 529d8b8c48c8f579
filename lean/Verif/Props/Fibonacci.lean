import Mathlib.Data.Nat.Fib.Basic
import Verif.Model.Examples
import Verif.Lemmas.Naive
import Verif.Props.Control

/-! # C78: the example `fibonacci.cpp` -/

namespace ETR
open Spec Mach Examples

/-- The sequence in double precision. -/
def fibD : Nat → F64
  | 0 => .fin 1
  | 1 => .fin 1
  | k + 2 => F64.add (fibD (k + 1)) (fibD k)

theorem fib78 : Nat.fib 78 ≤ 2 ^ 53 := by decide +kernel

/-- Up to the 78th number the sequence is exact. -/
theorem fibD_exact : ∀ k, k + 1 ≤ 78 → fibD k = .fin (Nat.fib (k + 1)) := by
  intro k
  induction k using Nat.strong_induction_on with
  | _ k ih =>
    intro hk
    match k, ih, hk with
    | 0, _, _ => simp [fibD]
    | 1, _, _ => simp [fibD]
    | k + 2, ih, hk =>
      simp only [fibD]
      rw [ih (k + 1) (by omega) (by omega), ih k (by omega) (by omega)]
      have hle : Nat.fib (k + 2 + 1) ≤ 2 ^ 53 := le_trans (Nat.fib_mono hk) fib78
      have e : ((Nat.fib (k + 1 + 1) : ℚ)) + (Nat.fib (k + 1) : ℚ) = ((Nat.fib (k + 2 + 1) : Int) : ℚ) := by
        rw [Nat.fib_add_two (n := k + 1)]; push_cast; ring
      show F64.rnd ((Nat.fib (k + 1 + 1) : ℚ) + (Nat.fib (k + 1) : ℚ)) = _
      rw [e, F64.rnd_int (by rw [abs_of_nonneg (by positivity)]; exact_mod_cast hle)]
      simp

/-- The vector after the numbers up to `k` have been computed. -/
def fibList (n k : Nat) : List F64 := (List.range k).map fibD ++ List.replicate (n - k) (.fin 0)

theorem fibList_get {n k i : Nat} (hi : i < k) (h : i < (fibList n k).length) : (fibList n k)[i] = fibD i := by
  simp [fibList, hi]

theorem fibList_length {n k : Nat} (hk : k ≤ n) : (fibList n k).length = n := by simp [fibList]; omega

theorem fibList_set {n k : Nat} (hk : k < n) : (fibList n k).set k (fibD k) = fibList n (k + 1) := by
  unfold fibList
  rw [List.set_append_right _ _ (by simp)]
  simp only [List.length_map, List.length_range, Nat.sub_self]
  rw [show n - k = (n - (k + 1)) + 1 by omega, List.replicate_succ, List.set_cons_zero, List.range_succ]
  simp

/-- One round. -/
theorem fib_round (zero : F64) (fuel : Nat) {n k : Nat} (hk : 2 ≤ k) (hkn : k < n) (hn : n < 2 ^ 31) {p : PState F64} {kd : Kind}
    (hv : p.vars V1 = some ⟨fibList n k, kd⟩) :
    ∃ p', Spec.exec zero fuel
      (.index (.leaf V1) (.int ((k : Int) + 1 - 1)) fun r1 => .index (.leaf V1) (.int ((k : Int) + 1 - 2)) fun r2 =>
        .index (.leaf V1) (.int ((k : Int) + 1)) fun r =>
        .cmd (.subAssign .ok false V1 r (.bin plus (.sub (.leaf V1) r1 {}) (.sub (.leaf V1) r2 {})))) p = .done p' ∧
      p'.vars V1 = some ⟨fibList n (k + 1), kd⟩ := by
  have hl := fibList_length (n := n) (k := k) (by omega)
  simp only [Spec.exec]
  rw [index_int hv (by omega) (by rw [hl]; omega) (by rw [hl]; exact hn)]
  simp only [withVal]
  rw [index_int hv (by omega) (by rw [hl]; omega) (by rw [hl]; exact hn)]
  simp only
  rw [index_int hv (by omega) (by rw [hl]; omega) (by rw [hl]; exact hn)]
  simp only
  have e1 : ((k : Int) + 1 - 1 - 1).toNat = k - 1 := by omega
  have e2 : ((k : Int) + 1 - 2 - 1).toNat = k - 2 := by omega
  have e3 : ((k : Int) + 1 - 1).toNat = k := by omega
  rw [e1, e2, e3]
  have hs := step_sub1 (zero := zero) (same := false) hv (j := k) (by omega)
    (e := .bin plus (.sub (.leaf V1) [k - 1] {}) (.sub (.leaf V1) [k - 2] {})) (v := fibD k)
    (eval_bin1 (eval_sub1 hv (by omega) {}) (eval_sub1 hv (by omega) {}) (by
      rw [fibList_get (by omega), fibList_get (by omega)]
      obtain ⟨m, rfl⟩ : ∃ m, k = m + 2 := ⟨k - 2, by omega⟩
      simp [plus, fibD]))
  rw [hs, fibList_set hkn]
  exact ⟨_, rfl, by simp [PState.put]⟩

/-- All rounds. -/
theorem fib_rounds (zero : F64) (fuel : Nat) {n : Nat} (hn : n < 2 ^ 31) : ∀ (m k : Nat), 2 ≤ k → k + m = n →
    ∀ (p : PState F64) (kd : Kind), p.vars V1 = some ⟨fibList n k, kd⟩ →
    ∃ p', Spec.each (fun i => Spec.exec zero fuel
      (.index (.leaf V1) (.int (i - 1)) fun r1 => .index (.leaf V1) (.int (i - 2)) fun r2 => .index (.leaf V1) (.int i) fun r =>
        .cmd (.subAssign .ok false V1 r (.bin plus (.sub (.leaf V1) r1 {}) (.sub (.leaf V1) r2 {})))))
      ((List.range m).map (fun (i : Nat) => (k : Int) + 1 + i)) p = .done p' ∧ p'.vars V1 = some ⟨fibList n n, kd⟩ := by
  intro m
  induction m with
  | zero =>
    intro k hk hkm p kd hv
    obtain rfl : k = n := by omega
    exact ⟨p, rfl, hv⟩
  | succ m ih =>
    intro k hk hkm p kd hv
    rw [List.range_succ_eq_map, List.map_cons, List.map_map]
    simp only [Spec.each]
    obtain ⟨p1, e1, hv1⟩ := fib_round zero fuel hk (show k < n by omega) hn hv
    simp only [Nat.cast_zero, add_zero]
    rw [e1]
    simp only [Res.andThen]
    obtain ⟨p2, e2, hv2⟩ := ih (k + 1) (by omega) (by omega) p1 kd hv1
    refine ⟨p2, ?_, hv2⟩
    rw [← e2]
    congr 1
    apply List.map_congr_left
    intro i _
    simp only [Function.comp]
    push_cast
    ring

theorem fib_naive (zero : F64) (fuel : Nat) {n : Nat} (h3 : 3 ≤ n) (hn : n ≤ 2 ^ 29) :
    ∃ p, Spec.exec zero fuel (fibonacci n) PState.empty = .done p ∧ p.vars V1 = some ⟨(List.range n).map fibD, .stolen⟩ := by
  obtain ⟨m, rfl⟩ : ∃ m, n = m + 2 := ⟨n - 2, by omega⟩
  unfold fibonacci
  simp only [Spec.exec, Int.toNat_natCast]
  have h0 : step zero PState.empty (.declTemp (List.replicate (m + 2) (F64.fin 0)) {}) =
      some (PState.empty.new 1 ⟨List.replicate (m + 2) (.fin 0), .stolen⟩) := by
    simp only [step, stepOwn, lim]
    rw [if_pos ⟨by simp, by simp; omega⟩]
    rfl
  rw [h0]
  simp only [withVal, Res.andThen]
  generalize hp : (PState.empty.new 1 ⟨List.replicate (m + 2) (F64.fin 0), .stolen⟩ : PState F64) = p
  have hv : p.vars V1 = some ⟨List.replicate (m + 2) (.fin 0), .stolen⟩ := by subst hp; rfl
  rw [index_int hv (by omega) (by simp; omega) (by simp; omega)]
  simp only
  rw [step_set1 hv (by simp)]
  simp only
  generalize hp1 : p.put V1 _ = p1
  have hv1 : p1.vars V1 = some ⟨(List.replicate (m + 2) (F64.fin 0)).set 0 (.fin 1), .stolen⟩ := by subst hp1; simp
  rw [index_int hv1 (by omega) (by simp) (by simp; omega)]
  simp only
  rw [step_set1 hv1 (by simp)]
  simp only
  generalize hp2 : p1.put V1 _ = p2
  have hv2 : p2.vars V1 = some ⟨fibList (m + 2) 2, .stolen⟩ := by
    subst hp2
    rw [put_vars_same]
    simp [fibList, fibD, List.range_succ, List.replicate_succ]
  rw [if_pos (by omega)]
  obtain ⟨p', e, hv'⟩ := fib_rounds zero fuel (n := m + 2) (by omega) m 2 (by omega) (by omega) p2 .stolen hv2
  refine ⟨p', ?_, by rw [hv']; simp [fibList]⟩
  rw [← e]
  congr 1
  unfold intSeq
  rw [if_pos (by omega)]
  rw [show ((m + 2 : Nat) : Int) - 3 + 1 = m by push_cast; ring, Int.toNat_natCast]
  rfl

theorem fib_wellFormed (n : Int) : WellFormed (fibonacci n) :=
  ⟨trivial, fun _ => trivial, fun _ => trivial, fun _ _ _ _ => trivial⟩

/-- The program computes the sequence in double precision, for every length from 3 to 2^29. -/
theorem C78_partial (fuel : Nat) {n : Nat} (h3 : 3 ≤ n) (hn : n ≤ 2 ^ 29) (ws : List String) :
    ∃ ws' s, (fibonacci n).run (.fin 0) fuel (ws, start) = some (.ok (), (ws', s)) ∧ ShowsVar s V1 ((List.range n).map fibD) := by
  obtain ⟨p, e, hv⟩ := fib_naive (.fin 0) fuel h3 hn
  obtain ⟨ws', s, e', hs⟩ := run_empty (.fin 0) fuel _ (fib_wellFormed n) e ws
  exact ⟨ws', s, e', hs _ _ (lists_of_vars hv)⟩

/-- The first 78 elements are the Fibonacci numbers. -/
theorem C78_exact_partial (fuel : Nat) {n : Nat} (h3 : 3 ≤ n) (hn : n ≤ 78) (ws : List String) :
    ∃ ws' s, (fibonacci n).run (.fin 0) fuel (ws, start) = some (.ok (), (ws', s)) ∧
      ShowsVar s V1 ((List.range n).map (fun k => .fin (Nat.fib (k + 1)))) := by
  obtain ⟨ws', s, e, h⟩ := C78_partial fuel h3 (by omega) ws
  refine ⟨ws', s, e, ?_⟩
  have : (List.range n).map fibD = (List.range n).map (fun k => .fin (Nat.fib (k + 1))) := by
    apply List.map_congr_left
    intro k hk
    exact fibD_exact k (by have := List.mem_range.mp hk; omega)
  rwa [this] at h

/-- The example: 20 numbers. -/
example : ∃ ws' s, (fibonacci 20).run (.fin 0) 1 ([], start) = some (.ok (), (ws', s)) ∧ s.env.get V1 19 = .ok (.fin 6765) := by
  obtain ⟨ws', s, e, h⟩ := C78_exact_partial 1 (n := 20) (by norm_num) (by norm_num) []
  have := h.2 19 (by simp)
  simp only [List.getElem_map, List.getElem_range] at this
  exact ⟨ws', s, e, by rw [this, show Nat.fib (19 + 1) = 6765 by decide +kernel]; norm_num⟩

/-- C78 is false for every length from 79 on: the 79th Fibonacci number is no double, so that the vector does not hold the sequence. -/
theorem C78_false (fuel : Nat) {n : Nat} (h79 : 79 ≤ n) (hn : n ≤ 2 ^ 29) (ws : List String) :
    ∃ ws' s, (fibonacci n).run (.fin 0) fuel (ws, start) = some (.ok (), (ws', s)) ∧
      ¬ ShowsVar s V1 ((List.range n).map (fun k => .fin (Nat.fib (k + 1)))) := by
  obtain ⟨ws', s, e, h⟩ := C78_partial fuel (n := n) (by omega) hn ws
  refine ⟨ws', s, e, fun h' => ?_⟩
  have h1 := h.2 78 (by simp; omega)
  have h2 := h'.2 78 (by simp; omega)
  rw [h1] at h2
  simp only [List.getElem_map, List.getElem_range] at h2
  exact absurd (Out.ok.inj h2) (by decide +kernel)

example : ∃ ws' s, (fibonacci 100).run (.fin 0) 1 ([], start) = some (.ok (), (ws', s)) ∧
    ¬ ShowsVar s V1 ((List.range 100).map (fun k => .fin (Nat.fib (k + 1)))) :=
  C78_false 1 (by norm_num) (by norm_num) []

/-- C78 is false for two numbers: `colon(3, 2)` counts down and the program leaves the vector. -/
theorem C78_two_false : ∃ m, ((fibonacci 2).run (.fin 0) 1 ([], start)).map Prod.fst = some (.thr m) :=
  ⟨"Error: out of boundaries --> value beyond size of vector", by decide +kernel⟩

/-- `C78_partial` applied with 1000 elements, which exceed the range in which doubles hold the numbers exactly. -/
example : ∃ ws' s, (fibonacci 1000).run (.fin 0) 1 ([], start) = some (.ok (), (ws', s)) ∧ s.env.size V1 = 1000 := by
  obtain ⟨ws', s, e, h⟩ := C78_partial 1 (n := 1000) (by norm_num) (by norm_num) []
  exact ⟨ws', s, e, h.1.trans (by simp)⟩

end ETR
