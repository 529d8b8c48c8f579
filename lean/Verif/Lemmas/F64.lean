import Verif.Base.F64
import Mathlib.Tactic.Linarith
import Mathlib.Tactic.Ring
import Mathlib.Tactic.FieldSimp
import Mathlib.Tactic.Positivity
import Mathlib.Tactic.NormNum
import Mathlib.Tactic.GCongr

/-! Rounding lemmas for `F64`. -/

namespace ETR.F64

theorem pow2_eq (k : Int) : pow2 k = (2 : ℚ) ^ k := by
  unfold pow2
  split
  · rename_i h
    obtain ⟨n, rfl⟩ := Int.eq_ofNat_of_zero_le h
    simp [Rat.mkRat_eq_div]
  · rename_i h
    obtain ⟨n, hn⟩ : ∃ n : Nat, -k = n := Int.eq_ofNat_of_zero_le (by omega)
    have : k = -(n : Int) := by omega
    subst this
    simp [Rat.mkRat_eq_div]

theorem pow2_pos (k : Int) : 0 < pow2 k := by rw [pow2_eq]; positivity

theorem pow2_add (a b : Int) : pow2 (a + b) = pow2 a * pow2 b := by
  simp only [pow2_eq]; rw [zpow_add₀ (by norm_num)]

theorem pow2_mono {a b : Int} (h : a ≤ b) : pow2 a ≤ pow2 b := by
  simp only [pow2_eq]; exact zpow_le_zpow_right₀ (by norm_num) h

theorem pow2_lt_iff {a b : Int} : pow2 a < pow2 b ↔ a < b := by
  simp only [pow2_eq]; exact zpow_lt_zpow_iff_right₀ (by norm_num)

theorem pow2_natCast (n : Nat) : pow2 n = (2 : ℚ) ^ n := by rw [pow2_eq]; simp

/-- `ilog` is the floor of the binary logarithm. -/
theorem ilog_spec {q : ℚ} (hq : 0 < q) : pow2 (ilog q) ≤ q ∧ q < pow2 (ilog q + 1) := by
  have hn : 0 < q.num := Rat.num_pos.mpr hq
  obtain ⟨n, hn'⟩ : ∃ n : Nat, q.num = n := Int.eq_ofNat_of_zero_le hn.le
  have hn0 : n ≠ 0 := by omega
  have hd0 : q.den ≠ 0 := q.den_nz
  have hqe : q = (n : ℚ) / (q.den : ℚ) := by
    conv_lhs => rw [← Rat.num_div_den q, hn']
    simp
  have h1 := Nat.log2_self_le hn0
  have h2 := @Nat.lt_log2_self n
  have h3 := Nat.log2_self_le hd0
  have h4 := @Nat.lt_log2_self q.den
  set a := Nat.log2 n
  set b := Nat.log2 q.den
  have h1' : (2:ℚ)^a ≤ n := by exact_mod_cast h1
  have h2' : (n:ℚ) < 2^(a+1) := by exact_mod_cast h2
  have h3' : (2:ℚ)^b ≤ q.den := by exact_mod_cast h3
  have h4' : (q.den:ℚ) < 2^(b+1) := by exact_mod_cast h4
  have hdpos : (0:ℚ) < q.den := by exact_mod_cast Nat.pos_of_ne_zero hd0
  have up : q < pow2 ((a:Int) - b + 1) := by
    rw [hqe, div_lt_iff₀ hdpos, pow2_eq]
    have : (2:ℚ)^((a:Int)-b+1) * 2^b = 2^(a+1) := by
      rw [← zpow_natCast, ← zpow_add₀ (by norm_num), ← zpow_natCast]; congr 1; push_cast; ring
    calc (n:ℚ) < 2^(a+1) := h2'
      _ = (2:ℚ)^((a:Int)-b+1) * 2^b := this.symm
      _ ≤ _ := by gcongr
  have lo : pow2 ((a:Int) - b - 1) ≤ q := by
    rw [hqe, le_div_iff₀ hdpos, pow2_eq]
    have : (2:ℚ)^((a:Int)-b-1) * 2^(b+1) = 2^a := by
      rw [← zpow_natCast, ← zpow_add₀ (by norm_num), ← zpow_natCast]; congr 1; push_cast; ring
    calc (2:ℚ)^((a:Int)-b-1) * q.den ≤ (2:ℚ)^((a:Int)-b-1) * 2^(b+1) := by gcongr
      _ = 2^a := this
      _ ≤ n := h1'
  have hil : ilog q = if q < pow2 ((a:Int) - b) then (a:Int) - b - 1 else (a:Int) - b := by
    unfold ilog
    rw [hn']
    simp [a, b]
  rw [hil]
  split
  · rename_i h
    refine ⟨lo, ?_⟩
    rwa [show (a:Int) - b - 1 + 1 = (a:Int) - b by ring]
  · rename_i h
    exact ⟨not_lt.mp h, up⟩

theorem ilog_unique {q : ℚ} (hq : 0 < q) {e : Int} (h1 : pow2 e ≤ q) (h2 : q < pow2 (e + 1)) :
    ilog q = e := by
  obtain ⟨h3, h4⟩ := ilog_spec hq
  have a1 : e < ilog q + 1 := pow2_lt_iff.mp (lt_of_le_of_lt h1 h4)
  have a2 : ilog q < e + 1 := pow2_lt_iff.mp (lt_of_le_of_lt h3 h2)
  omega

theorem floor_le' (q : ℚ) : (Rat.floor q : ℚ) ≤ q := Int.floor_le q
theorem lt_floor' (q : ℚ) : q < Rat.floor q + 1 := Int.lt_floor_add_one q

theorem rhe_err (q : ℚ) : |(rhe q : ℚ) - q| ≤ 1 / 2 := by
  have h1 := floor_le' q
  have h2 := lt_floor' q
  unfold rhe
  rw [abs_le]
  dsimp only
  split
  · constructor <;> linarith
  · split
    · push_cast; constructor <;> linarith
    · split
      · constructor <;> linarith
      · push_cast; constructor <;> linarith

theorem rhe_intCast (n : Int) : rhe (n : ℚ) = n := by
  have : Rat.floor (n : ℚ) = n := by
    have := Int.floor_intCast (R := ℚ) n
    exact this
  simp [rhe, this]

/-- Rounding to an integer is monotone. -/
theorem rhe_mono {p q : ℚ} (h : p ≤ q) : rhe p ≤ rhe q := by
  have h1 := floor_le' p
  have h2 := lt_floor' p
  have h3 := floor_le' q
  have h4 := lt_floor' q
  have hf : Rat.floor p ≤ Rat.floor q := Int.floor_mono h
  rcases hf.lt_or_eq with hlt | heq
  · have a : rhe p ≤ Rat.floor p + 1 := by unfold rhe; dsimp only; split_ifs <;> omega
    have b : Rat.floor q ≤ rhe q := by unfold rhe; dsimp only; split_ifs <;> omega
    omega
  · unfold rhe
    dsimp only
    rw [← heq] at h3 h4 ⊢
    split_ifs <;> first | omega | (exfalso; linarith)

theorem rhe_neg (q : ℚ) : rhe (-q) = - rhe q := by
  have h1 := floor_le' q
  have h2 := lt_floor' q
  by_cases hi : (Rat.floor q : ℚ) = q
  · rw [← hi, rhe_intCast]
    have : (-(Rat.floor q : ℚ)) = ((-(Rat.floor q) : Int) : ℚ) := by push_cast; rfl
    rw [this, rhe_intCast]
  · have hlt : (Rat.floor q : ℚ) < q := lt_of_le_of_ne h1 hi
    have hf : Rat.floor (-q) = - Rat.floor q - 1 := by
      show ⌊-q⌋ = _
      apply Int.floor_eq_iff.mpr
      push_cast
      constructor <;> linarith
    unfold rhe
    dsimp only
    rw [hf]
    push_cast
    split_ifs <;> first | omega | (exfalso; linarith)

theorem ulpExp_ge (q : ℚ) : -1074 ≤ ulpExp q := le_max_right _ _

theorem rndQ_zero : rndQ 0 = 0 := by simp [rndQ]

theorem rndQ_ne {q : ℚ} (h : q ≠ 0) :
    rndQ q = (rhe (q / pow2 (ulpExp q)) : ℚ) * pow2 (ulpExp q) := by simp [rndQ, h]

theorem rndQ_neg (q : ℚ) : rndQ (-q) = - rndQ q := by
  by_cases h : q = 0
  · simp [h, rndQ_zero]
  · rw [rndQ_ne h, rndQ_ne (neg_ne_zero.mpr h)]
    have : ulpExp (-q) = ulpExp q := by simp [ulpExp]
    rw [this, neg_div, rhe_neg]; push_cast; ring

/-- Absolute error of rounding: half a unit in the last place. -/
theorem rndQ_err (q : ℚ) : |rndQ q - q| ≤ pow2 (ulpExp q) / 2 := by
  by_cases h : q = 0
  · have := (pow2_pos (ulpExp q)).le
    rw [h] at this ⊢
    simp [rndQ_zero]; positivity
  rw [rndQ_ne h]
  have hp := pow2_pos (ulpExp q)
  have e : (rhe (q / pow2 (ulpExp q)) : ℚ) * pow2 (ulpExp q) - q
      = ((rhe (q / pow2 (ulpExp q)) : ℚ) - q / pow2 (ulpExp q)) * pow2 (ulpExp q) := by
    field_simp
  rw [e, abs_mul, abs_of_pos hp]
  have := rhe_err (q / pow2 (ulpExp q))
  calc _ ≤ (1 / 2 : ℚ) * pow2 (ulpExp q) := by gcongr
    _ = _ := by ring

/-- Relative error of rounding in the normal range. -/
theorem rndQ_relerr {q : ℚ} (h : pow2 (-1022) ≤ |q|) : |rndQ q - q| ≤ |q| * pow2 (-53) := by
  have hq : 0 < |q| := lt_of_lt_of_le (pow2_pos _) h
  obtain ⟨h1, h2⟩ := ilog_spec hq
  have hi : -1022 ≤ ilog |q| := by
    have : pow2 (-1022) < pow2 (ilog |q| + 1) := lt_of_le_of_lt h h2
    have := pow2_lt_iff.mp this
    omega
  have hu : ulpExp q = ilog |q| - 52 := by unfold ulpExp; omega
  have := rndQ_err q
  rw [hu] at this
  have e : pow2 (ilog |q| - 52) / 2 = pow2 (ilog |q|) * pow2 (-53) := by
    have : pow2 (ilog |q| - 52) = pow2 (ilog |q|) * pow2 (-53) * pow2 1 := by
      rw [← pow2_add, ← pow2_add]; congr 1; ring
    rw [this]
    have h2 : pow2 1 = 2 := by rw [pow2_eq]; norm_num
    rw [h2]; ring
  rw [e] at this
  calc _ ≤ _ := this
    _ ≤ |q| * pow2 (-53) := by
      have := pow2_pos (-53)
      gcongr

/-- Numbers with at most 53 significant bits are not changed by rounding. -/
theorem rndQ_exact {m k : Int} (hm : |m| ≤ 2 ^ 53) (hk : -1074 ≤ k) :
    rndQ ((m : ℚ) * pow2 k) = (m : ℚ) * pow2 k := by
  by_cases h0 : m = 0
  · simp [h0, rndQ_zero]
  set q : ℚ := (m : ℚ) * pow2 k with hq
  have hqne : q ≠ 0 := mul_ne_zero (by exact_mod_cast h0) (pow2_pos k).ne'
  have hqpos : 0 < |q| := abs_pos.mpr hqne
  obtain ⟨h1, h2⟩ := ilog_spec hqpos
  have habs : |q| = (|m| : Int) * pow2 k := by
    rw [hq, abs_mul, abs_of_pos (pow2_pos k)]; push_cast; rfl
  by_cases hmax : |m| = 2 ^ 53
  · -- a power of two
    have hqp : |q| = pow2 (53 + k) := by
      rw [habs, hmax, pow2_add]
      have : pow2 53 = 2 ^ 53 := pow2_natCast 53
      rw [this]; push_cast; rfl
    have hil : ilog |q| = 53 + k := by
      apply ilog_unique hqpos (by rw [hqp])
      rw [hqp]; exact pow2_lt_iff.mpr (by omega)
    have hu : ulpExp q = k + 1 := by unfold ulpExp; rw [hil]; omega
    have hdiv : ∃ m' : Int, m = 2 * m' := by
      rcases abs_choice m with h | h
      · exact ⟨2 ^ 52, by rw [← h, hmax]; norm_num⟩
      · refine ⟨- 2 ^ 52, ?_⟩
        have : -m = 2 ^ 53 := by rw [← h]; exact hmax
        omega
    obtain ⟨m', rfl⟩ := hdiv
    have he : q / pow2 (k + 1) = (m' : ℚ) := by
      rw [hq, pow2_add]
      have h2 : pow2 1 = 2 := by rw [pow2_eq]; norm_num
      rw [h2]
      have := (pow2_pos k).ne'
      push_cast
      field_simp
    rw [rndQ_ne hqne, hu, he, rhe_intCast, ← he]
    have := (pow2_pos (k+1)).ne'
    field_simp
  · have hlt : |m| < 2 ^ 53 := lt_of_le_of_ne hm hmax
    have hub : |q| < pow2 (53 + k) := by
      rw [habs, pow2_add]
      have : pow2 53 = 2 ^ 53 := pow2_natCast 53
      rw [this]
      have hp := pow2_pos k
      have : ((|m| : Int) : ℚ) < 2 ^ 53 := by exact_mod_cast hlt
      gcongr
    have hil : ilog |q| < 53 + k := pow2_lt_iff.mp (lt_of_le_of_lt h1 hub)
    have hu : ulpExp q ≤ k := by unfold ulpExp; omega
    obtain ⟨j, hj⟩ : ∃ j : Nat, k = ulpExp q + j := ⟨(k - ulpExp q).toNat, by omega⟩
    have he : q / pow2 (ulpExp q) = ((m * 2 ^ j : Int) : ℚ) := by
      have hp := (pow2_pos (ulpExp q)).ne'
      have : pow2 k = pow2 (ulpExp q) * 2 ^ j := by
        conv_lhs => rw [hj]
        rw [pow2_add, pow2_natCast]
      rw [div_eq_iff hp]
      conv_lhs => rw [hq, this]
      push_cast; ring
    rw [rndQ_ne hqne, he, rhe_intCast, ← he]
    have := (pow2_pos (ulpExp q)).ne'
    field_simp

theorem rndQ_int {n : Int} (h : |n| ≤ 2 ^ 53) : rndQ n = n := by
  have := @rndQ_exact n 0 h (by norm_num)
  simpa [pow2_eq] using this

theorem pow2_1024_gt : (2 : ℚ) ^ 100 < pow2 1024 := by
  have : pow2 1024 = (2:ℚ)^1024 := pow2_natCast 1024
  rw [this]
  exact pow_lt_pow_right₀ (by norm_num) (by norm_num)

theorem rnd_of_lt {q : ℚ} (h : |rndQ q| < pow2 1024) : rnd q = fin (rndQ q) := by
  unfold rnd
  simp [not_le.mpr h]

theorem rnd_int {n : Int} (h : |n| ≤ 2 ^ 53) : rnd n = fin n := by
  have hr := rndQ_int h
  rw [rnd_of_lt, hr]
  rw [hr]
  refine lt_trans ?_ pow2_1024_gt
  have : |(n : ℚ)| ≤ 2 ^ 53 := by exact_mod_cast h
  calc _ ≤ _ := this
    _ < _ := pow_lt_pow_right₀ (by norm_num) (by norm_num)

theorem ofInt_eq {n : Int} (h : |n| ≤ 2 ^ 53) : ofInt n = fin n := rnd_int h

theorem ofNat_eq {n : Nat} (h : n ≤ 2 ^ 53) : ofNat n = fin n := by
  have := @rnd_int n (by rw [abs_of_nonneg (by positivity)]; exact_mod_cast h)
  simpa [ofNat] using this

/-- Rounding is monotone. -/
theorem rndQ_mono_pos {p q : ℚ} (hp : 0 < p) (h : p ≤ q) : rndQ p ≤ rndQ q := by
  have hq : 0 < q := lt_of_lt_of_le hp h
  have hup : ulpExp p ≤ ulpExp q := by
    unfold ulpExp
    rw [abs_of_pos hp, abs_of_pos hq]
    have : ilog p < ilog q + 1 := pow2_lt_iff.mp
      (lt_of_le_of_lt (ilog_spec hp).1 (lt_of_le_of_lt h (ilog_spec hq).2))
    omega
  rcases hup.lt_or_eq with hlt | heq
  · -- different exponents: separated by a power of two
    have hqu : ulpExp q = ilog q - 52 := by
      unfold ulpExp at hlt ⊢
      rw [abs_of_pos hp, abs_of_pos hq] at hlt
      rw [abs_of_pos hq]; omega
    have hpi : ilog p + 1 ≤ ilog q := by
      unfold ulpExp at hlt
      rw [abs_of_pos hp, abs_of_pos hq] at hlt
      omega
    have b1 : p ≤ pow2 (ilog q) := le_trans (ilog_spec hp).2.le (pow2_mono hpi)
    have c1 : rndQ p ≤ pow2 (ilog q) := by
      rw [rndQ_ne hp.ne']
      obtain ⟨j, hj⟩ : ∃ j : Nat, ilog q = ulpExp p + j :=
        ⟨(ilog q - ulpExp p).toNat, by omega⟩
      have hpp := pow2_pos (ulpExp p)
      have : rhe (p / pow2 (ulpExp p)) ≤ 2 ^ j := by
        have : p / pow2 (ulpExp p) ≤ ((2 ^ j : Int) : ℚ) := by
          rw [div_le_iff₀ hpp]
          calc p ≤ pow2 (ilog q) := b1
            _ = _ := by rw [hj, pow2_add, pow2_natCast]; push_cast; ring
        have := rhe_mono this
        rwa [rhe_intCast] at this
      have h' : (rhe (p / pow2 (ulpExp p)) : ℚ) ≤ 2 ^ j := by exact_mod_cast this
      calc _ ≤ (2:ℚ) ^ j * pow2 (ulpExp p) := by gcongr
        _ = _ := by rw [hj, pow2_add, pow2_natCast]; ring
    have c2 : pow2 (ilog q) ≤ rndQ q := by
      rw [rndQ_ne hq.ne', hqu]
      have hpp := pow2_pos (ilog q - 52)
      have e : pow2 (ilog q) = (2:ℚ)^52 * pow2 (ilog q - 52) := by
        have : pow2 (52:Nat) = (2:ℚ)^52 := pow2_natCast 52
        rw [← this, ← pow2_add]; congr 1; push_cast; ring
      have : (2 ^ 52 : Int) ≤ rhe (q / pow2 (ilog q - 52)) := by
        have : ((2 ^ 52 : Int) : ℚ) ≤ q / pow2 (ilog q - 52) := by
          rw [le_div_iff₀ hpp]
          calc _ = pow2 (ilog q) := by rw [e]; push_cast; rfl
            _ ≤ q := (ilog_spec hq).1
        have := rhe_mono this
        rwa [rhe_intCast] at this
      have h' : (2:ℚ)^52 ≤ (rhe (q / pow2 (ilog q - 52)) : ℚ) := by exact_mod_cast this
      calc _ = _ := e
        _ ≤ _ := by gcongr
    exact c1.trans c2
  · rw [rndQ_ne hp.ne', rndQ_ne hq.ne', heq]
    have hpp := pow2_pos (ulpExp q)
    have : rhe (p / pow2 (ulpExp q)) ≤ rhe (q / pow2 (ulpExp q)) := rhe_mono (by gcongr)
    have h' : (rhe (p / pow2 (ulpExp q)) : ℚ) ≤ rhe (q / pow2 (ulpExp q)) := by exact_mod_cast this
    gcongr

theorem rndQ_nonneg {q : ℚ} (h : 0 ≤ q) : 0 ≤ rndQ q := by
  rcases h.eq_or_lt with h | h
  · rw [← h, rndQ_zero]
  · rw [rndQ_ne h.ne']
    have hpp := pow2_pos (ulpExp q)
    have : (0:Int) ≤ rhe (q / pow2 (ulpExp q)) := by
      have h0 : ((0:Int):ℚ) ≤ q / pow2 (ulpExp q) := by push_cast; positivity
      have := rhe_mono h0
      rwa [rhe_intCast] at this
    have h' : (0:ℚ) ≤ rhe (q / pow2 (ulpExp q)) := by exact_mod_cast this
    positivity

theorem rndQ_mono {p q : ℚ} (h : p ≤ q) : rndQ p ≤ rndQ q := by
  rcases lt_or_ge 0 p with hp | hp
  · exact rndQ_mono_pos hp h
  · rcases lt_or_ge q 0 with hq | hq
    · have := rndQ_mono_pos (p := -q) (q := -p) (by linarith) (by linarith)
      rw [rndQ_neg, rndQ_neg] at this; linarith
    · have h1 := rndQ_nonneg hq
      have h2 := rndQ_nonneg (q := -p) (by linarith)
      rw [rndQ_neg] at h2; linarith

end ETR.F64
