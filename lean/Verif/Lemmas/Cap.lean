import Verif.Lemmas.F64
import Verif.Model.Store

/-! The capacity computation `static_cast<std::size_t>(n * 1.15)`. -/

namespace ETR
open F64

theorem c115_eq : c115 = fin (mkRat 2589569785738035 2251799813685248) := by decide +kernel

private theorem p1022 : pow2 (-1022) ≤ 1 := by
  have := pow2_mono (a := -1022) (b := 0) (by norm_num)
  simpa [pow2_eq] using this

private def C : ℚ := 2589569785738035 / 2251799813685248

private theorem c115_C : c115 = fin C := by
  rw [c115_eq]; congr 1; rw [Rat.mkRat_eq_div]; unfold C; norm_num

theorem truncQ_of_nonneg {q : ℚ} (h : 0 ≤ q) : truncQ q = ⌊q⌋ := by simp [truncQ, h]; rfl

/-- The double nearest to `n * 1.15`, for every natural number up to `2^64`. -/
theorem mul115_lo {n : Nat} (h1 : 1 ≤ n) (h2 : n ≤ 2 ^ 64) :
    ∃ y : ℚ, F64.mul (F64.ofNat n) c115 = fin y ∧ n * (1148 / 1000 : ℚ) ≤ y ∧ y ≤ n * (116 / 100) := by
  have hn1 : (1:ℚ) ≤ n := by exact_mod_cast h1
  have hn2 : (n:ℚ) ≤ 2^64 := by exact_mod_cast h2
  have p53 : pow2 (-53) = 1 / 2^53 := by rw [pow2_eq]; norm_num
  have a1 : (1:ℚ) ≤ |(n:ℚ)| := by rw [abs_of_nonneg (by positivity)]; exact hn1
  have e1 := rndQ_relerr (q := (n:ℚ)) (le_trans p1022 a1)
  rw [abs_of_nonneg (by positivity : (0:ℚ) ≤ n), p53, abs_le] at e1
  set x := rndQ (n:ℚ) with hx
  have hxlo : (n:ℚ) * (1 - 1/2^53) ≤ x := by linarith [e1.1]
  have hxhi : x ≤ (n:ℚ) * (1 + 1/2^53) := by linarith [e1.2]
  have hx1 : 0 < x := lt_of_lt_of_le (by norm_num; linarith) hxlo
  have hfx : F64.ofNat n = fin x := by
    unfold F64.ofNat
    rw [rnd_of_lt]
    rw [← hx, abs_of_pos hx1]
    refine lt_of_le_of_lt ?_ pow2_1024_gt
    calc x ≤ (n:ℚ) * (1 + 1/2^53) := hxhi
      _ ≤ 2^64 * (1 + 1/2^53) := by gcongr
      _ ≤ 2^100 := by norm_num
  have hC1 : (1149/1000 : ℚ) ≤ C := by unfold C; norm_num
  have hC2 : C ≤ 115/100 := by unfold C; norm_num
  have hCpos : 0 < C := by linarith
  have hxC : (1:ℚ) ≤ x * C := by
    calc (1:ℚ) ≤ (1 * (1 - 1/2^53)) * (1149/1000) := by norm_num
      _ ≤ (n * (1 - 1/2^53)) * C := by gcongr
      _ ≤ x * C := by gcongr
  have a2 : (1:ℚ) ≤ |x * C| := by rw [abs_of_nonneg (by positivity)]; exact hxC
  have e2 := rndQ_relerr (q := x * C) (le_trans p1022 a2)
  rw [abs_of_nonneg (by positivity : (0:ℚ) ≤ x * C), p53, abs_le] at e2
  set y := rndQ (x * C) with hy
  have hylo : x * C * (1 - 1/2^53) ≤ y := by linarith [e2.1]
  have hyhi : y ≤ x * C * (1 + 1/2^53) := by linarith [e2.2]
  have hy0 : 0 < y := lt_of_lt_of_le (by norm_num; linarith) hylo
  have hy2 : y ≤ n * (116/100) := by
    calc y ≤ x * C * (1 + 1/2^53) := hyhi
      _ ≤ (n * (1 + 1/2^53)) * (115/100) * (1 + 1/2^53) := by gcongr
      _ = n * ((1 + 1/2^53) * (115/100) * (1 + 1/2^53)) := by ring
      _ ≤ n * (116/100) := by gcongr; norm_num
  refine ⟨y, ?_, ?_, hy2⟩
  · rw [hfx, c115_C]
    simp only [F64.mul]
    rw [rnd_of_lt]
    rw [← hy, abs_of_pos hy0]
    refine lt_of_le_of_lt ?_ pow2_1024_gt
    calc y ≤ n * (116/100) := hy2
      _ ≤ 2^64 * (116/100) := by gcongr
      _ ≤ 2^100 := by norm_num
  · calc (n:ℚ) * (1148 / 1000) ≤ n * ((1 - 1/2^53) * (1149/1000) * (1 - 1/2^53)) := by gcongr; norm_num
      _ = (n * (1 - 1/2^53)) * (1149/1000) * (1 - 1/2^53) := by ring
      _ ≤ x * C * (1 - 1/2^53) := by gcongr
      _ ≤ y := hylo

theorem mul115 {n : Nat} (h1 : 1 ≤ n) (h2 : n ≤ 2 ^ 64) :
    ∃ y : ℚ, F64.mul (F64.ofNat n) c115 = fin y ∧ (n : ℚ) ≤ y ∧ y ≤ n * (116 / 100) := by
  obtain ⟨y, e, h3, h4⟩ := mul115_lo h1 h2
  have : (0:ℚ) ≤ n := by positivity
  exact ⟨y, e, by linarith, h4⟩

theorem capOf_zero : capOf 0 = .ok 0 := by decide +kernel

/-- Capacity is at least the size and at most 1.16 times the size. -/
theorem capOf_spec {n : Nat} (h2 : n ≤ 2 ^ 63) :
    ∃ c, capOf n = .ok c ∧ n ≤ c ∧ 100 * c ≤ 116 * n := by
  rcases Nat.eq_zero_or_pos n with h0 | h1
  · subst h0; exact ⟨0, capOf_zero, le_refl _, le_refl _⟩
  obtain ⟨y, e, hlo, hhi⟩ := mul115 h1 (by omega)
  have hy0 : (0:ℚ) ≤ y := le_trans (by positivity) hlo
  have hf0 : 0 ≤ ⌊y⌋ := Int.floor_nonneg.mpr hy0
  have hle : (⌊y⌋ : ℚ) ≤ y := Int.floor_le y
  have hhi' : ((100 * ⌊y⌋ : Int) : ℚ) ≤ ((116 * n : Int) : ℚ) := by
    push_cast; linarith
  have hhi'' : 100 * ⌊y⌋ ≤ 116 * (n : Int) := by exact_mod_cast hhi'
  have hlo' : (n : Int) ≤ ⌊y⌋ := Int.le_floor.mpr (by exact_mod_cast hlo)
  have hn : (n : Int) ≤ 2^63 := by exact_mod_cast h2
  refine ⟨⌊y⌋.toNat, ?_, by omega, by omega⟩
  unfold capOf
  rw [e]
  simp only [toSizeT, truncQ_of_nonneg hy0, two64]
  rw [if_pos]
  constructor
  · exact hf0
  · push_cast; omega

/-- For every `size_t`, the capacity is at least the size unless the conversion overflows. -/
theorem capOf_ge {n c : Nat} (h2 : n < 2 ^ 64) (e : capOf n = .ok c) : n ≤ c := by
  rcases Nat.eq_zero_or_pos n with h0 | h1
  · omega
  obtain ⟨y, e', hlo, _⟩ := mul115 h1 (by omega)
  have hy0 : (0:ℚ) ≤ y := le_trans (by positivity) hlo
  have hlo' : (n : Int) ≤ ⌊y⌋ := Int.le_floor.mpr (by exact_mod_cast hlo)
  unfold capOf at e
  rw [e'] at e
  simp only [toSizeT, truncQ_of_nonneg hy0] at e
  split at e
  · simp only [Out.ok.injEq] at e; omega
  · simp at e

/-- The capacity exceeds the size from 7 elements on. -/
theorem capOf_gt {n c : Nat} (h1 : 7 ≤ n) (h2 : n < 2 ^ 64) (e : capOf n = .ok c) : n < c := by
  obtain ⟨y, e', hlo, _⟩ := mul115_lo (n := n) (by omega) (by omega)
  have hn : (7:ℚ) ≤ n := by exact_mod_cast h1
  have hy0 : (0:ℚ) ≤ y := le_trans (by positivity) hlo
  have hlo' : (n : Int) + 1 ≤ ⌊y⌋ := Int.le_floor.mpr (by push_cast; linarith)
  unfold capOf at e
  rw [e'] at e
  simp only [toSizeT, truncQ_of_nonneg hy0] at e
  split at e
  · simp only [Out.ok.injEq] at e; omega
  · simp at e

theorem capOfInt_natCast (n : Nat) : capOfInt n = capOf n := by
  simp [capOfInt, capOf, F64.ofInt, F64.ofNat]

/-- The `int` variant agrees while the capacity stays below `2^31`. -/
theorem capOfI32_spec {n : Nat} (h : 116 * n < 100 * 2 ^ 31) :
    ∃ c, capOfI32 n = .ok c ∧ capOf n = .ok c ∧ n ≤ c ∧ 100 * c ≤ 116 * n := by
  have h2 : n ≤ 2 ^ 63 := by omega
  obtain ⟨c, e, hlo, hhi⟩ := capOf_spec h2
  refine ⟨c, ?_, e, hlo, hhi⟩
  unfold capOf at e
  unfold capOfI32
  rcases hm : F64.mul (F64.ofNat n) c115 with _ | b | q
  · rw [hm] at e; simp [toSizeT] at e
  · rw [hm] at e; simp [toSizeT] at e
  · rw [hm] at e
    simp only [toSizeT] at e
    split at e
    · rename_i hq
      simp only [Out.ok.injEq] at e
      have hc : InI32 (truncQ q) := by unfold InI32; omega
      simp only [toI32, if_pos hc, Out.ok_bind, Out.pure_eq, Out.ok.injEq]
      unfold wrap64 two64
      have : truncQ q % ((18446744073709551616 : Nat) : Int) = truncQ q := by
        apply Int.emod_eq_of_lt hq.1
        unfold InI32 at hc; omega
      rw [this]; exact e
    · simp at e

end ETR
