import Verif.Props.Traits

/-! C106: arithmetic on doubles is rounded correctly. -/

namespace ETR
open F64

namespace Spec

/-- Numbers with at most 53 significant bits and an exponent of at least -1074: binary64 without a largest exponent. -/
def Grid (v : ℚ) : Prop := ∃ m k : Int, |m| < 2 ^ 53 ∧ -1074 ≤ k ∧ v = m * (2 : ℚ) ^ k

/-- `v` is the number next to `q`; if there are two of them, the one with the even last digit. -/
def Nearest (q v : ℚ) : Prop :=
  Grid v ∧ (∀ g, Grid g → |v - q| ≤ |g - q|) ∧
  ∀ g, Grid g → g ≠ v → |g - q| = |v - q| → ∃ m k : Int, v = 2 * m * (2 : ℚ) ^ k ∧ |g - v| = (2 : ℚ) ^ k

/-- `x` is the binary64 result of an operation with the exact result `q`: IEEE 754, 4.3.1. -/
def Rounded (q : ℚ) (x : F64) : Prop :=
  ∃ v, Nearest q v ∧ if |v| < 2 ^ 1024 then x = fin v else x = inf (decide (q < 0))

end Spec
open Spec

/-- There is at most one such number. -/
theorem nearest_unique {q v w : ℚ} (hv : Nearest q v) (hw : Nearest q w) : v = w := by
  by_contra hne
  have e : |w - q| = |v - q| := le_antisymm (hw.2.1 v hv.1) (hv.2.1 w hw.1)
  obtain ⟨m, k, h1, h2⟩ := hv.2.2 w hw.1 (Ne.symm hne) e
  obtain ⟨m', k', h3, h4⟩ := hw.2.2 v hv.1 hne e.symm
  have hk : (2 : ℚ) ^ k = (2 : ℚ) ^ k' := by rw [← h2, ← h4, abs_sub_comm]
  have hp : (2 : ℚ) ^ k ≠ 0 := by positivity
  rw [← hk] at h3
  have h5 : w - v = (2 * (m' - m) : Int) * (2 : ℚ) ^ k := by rw [h1, h3]; push_cast; ring
  rw [h5, abs_mul, abs_of_pos (show (0 : ℚ) < 2 ^ k by positivity)] at h2
  have h6 : |((2 * (m' - m) : Int) : ℚ)| = 1 := by
    have := mul_right_cancel₀ hp (h2.trans (one_mul _).symm)
    exact this
  have h7 : |2 * (m' - m)| = (1 : Int) := by exact_mod_cast h6
  rcases abs_eq (by norm_num : (0 : Int) ≤ 1) |>.1 h7 with h | h <;> omega

theorem rounded_unique {q : ℚ} {x y : F64} (hx : Rounded q x) (hy : Rounded q y) : x = y := by
  obtain ⟨v, h1, h2⟩ := hx
  obtain ⟨w, h3, h4⟩ := hy
  obtain rfl := nearest_unique h1 h3
  split at h2
  · rename_i h; rw [if_pos h] at h4; rw [h2, h4]
  · rename_i h; rw [if_neg h] at h4; rw [h2, h4]

/-- Rounding to an integer gives a nearest one, and in a tie an even one. -/
theorem rhe_nearest (x : ℚ) (j : Int) : |(rhe x : ℚ) - x| ≤ |(j : ℚ) - x| ∧
    (j ≠ rhe x → |(j : ℚ) - x| = |(rhe x : ℚ) - x| → ∃ m : Int, rhe x = 2 * m ∧ |(j : ℚ) - rhe x| = 1) := by
  have herr := rhe_err x
  have hfar : j ≠ rhe x → 1 ≤ |(j : ℚ) - rhe x| := by
    intro hj
    have : (1 : Int) ≤ |j - rhe x| := Int.one_le_abs (sub_ne_zero.2 hj)
    exact_mod_cast this
  have htri : |(j : ℚ) - rhe x| ≤ |(j : ℚ) - x| + |(rhe x : ℚ) - x| := by
    have := abs_sub_le (j : ℚ) x (rhe x)
    rwa [abs_sub_comm x] at this
  refine ⟨?_, fun hj he => ?_⟩
  · by_cases hj : j = rhe x
    · rw [hj]
    · have := hfar hj; linarith
  · have h1 := hfar hj
    have h2 : |(rhe x : ℚ) - x| = 1 / 2 := by linarith
    have h3 : |(j : ℚ) - rhe x| = 1 := by linarith
    have hl := floor_le' x
    have hu := lt_floor' x
    have heven : rhe x % 2 = 0 := by
      revert h2
      unfold rhe
      dsimp only
      split
      · intro h2; rw [abs_sub_comm, abs_of_nonneg (by linarith)] at h2; linarith
      · split
        · intro h2
          push_cast at h2
          rw [abs_of_nonneg (by linarith)] at h2; linarith
        · split
          · intro _; assumption
          · intro _; omega
    exact ⟨rhe x / 2, by omega, h3⟩

theorem grid_zero : Grid 0 := ⟨0, 0, by norm_num, by norm_num, by norm_num⟩

theorem nearest_of_grid {q : ℚ} (h : Grid q) : Nearest q q :=
  ⟨h, fun g _ => by simp, fun g _ hne he => absurd (sub_eq_zero.1 (abs_eq_zero.1 (by simpa using he))) hne⟩

theorem rndQ_nearest (q : ℚ) : Nearest q (rndQ q) := by
  by_cases hq : q = 0
  · rw [hq, rndQ_zero]; exact nearest_of_grid grid_zero
  have hqa : 0 < |q| := abs_pos.2 hq
  obtain ⟨hl, hu⟩ := ilog_spec hqa
  set e := ulpExp q with he
  have hpe := pow2_pos e
  have hge : -1074 ≤ e := ulpExp_ge q
  have hil : ilog |q| - 52 ≤ e := le_max_left _ _
  set x := q / pow2 e with hx
  have hqx : q = x * pow2 e := by rw [hx]; field_simp
  have hr : rndQ q = (rhe x : ℚ) * pow2 e := rndQ_ne hq
  have habs : |q| = |x| * pow2 e := by rw [hqx, abs_mul, abs_of_pos hpe]
  have hp53 : pow2 53 = 2 ^ 53 := pow2_natCast 53
  have hxlt : |x| < 2 ^ 53 := by
    have h1 : |q| < pow2 (53 + e) := lt_of_lt_of_le hu (pow2_mono (by omega))
    rw [pow2_add, habs, hp53] at h1
    exact lt_of_mul_lt_mul_right h1 hpe.le
  have hscale : ∀ j : ℚ, |j * pow2 e - q| = |j - x| * pow2 e := by
    intro j
    conv_lhs => rw [hqx, ← sub_mul, abs_mul, abs_of_pos hpe]
  -- numbers that are no multiples of the unit are farther away
  have hother : ∀ g, Grid g → (∃ j : Int, g = j * pow2 e) ∨ |rndQ q - q| < |g - q| := by
    rintro g ⟨m, k, hm, hk, rfl⟩
    rw [← pow2_eq]
    rcases le_or_gt e k with hek | hek
    · left
      obtain ⟨n, hn⟩ := Int.eq_ofNat_of_zero_le (show 0 ≤ k - e by omega)
      refine ⟨m * 2 ^ n, ?_⟩
      have : k = n + e := by omega
      rw [this, pow2_add, pow2_natCast]
      push_cast; ring
    · right
      have hee : e = ilog |q| - 52 := by
        rw [he]; unfold ulpExp
        have : ¬ (ilog |q| - 52 < -1074) := fun h => by
          have : e = -1074 := by rw [he]; unfold ulpExp; omega
          omega
        omega
      have hg : |(m : ℚ) * pow2 k| < pow2 (52 + e) := by
        rw [abs_mul, abs_of_pos (pow2_pos k)]
        have h1 : |(m : ℚ)| < 2 ^ 53 := by exact_mod_cast hm
        calc |(m : ℚ)| * pow2 k < 2 ^ 53 * pow2 k := by have := pow2_pos k; gcongr
          _ = pow2 (53 + k) := by rw [pow2_add, hp53]
          _ ≤ pow2 (52 + e) := pow2_mono (by omega)
      have hP : pow2 (52 + e) ≤ |q| := by rw [hee]; convert hl using 2; omega
      -- the power of two below `|q|`, with the sign of `q`
      obtain ⟨s, hs1, hs2⟩ : ∃ s : Int, |q| = s * q ∧ |(s : ℚ)| = 1 := by
        rcases le_total 0 q with h | h
        · exact ⟨1, by rw [abs_of_nonneg h]; simp, by simp⟩
        · exact ⟨-1, by rw [abs_of_nonpos h]; simp, by simp⟩
      have hss : (s : ℚ) * s = 1 := by rw [← abs_mul_abs_self, hs2]; norm_num
      have hqs : q = s * |q| := by rw [hs1, ← mul_assoc, hss, one_mul]
      have hnear := (rhe_nearest x (s * 2 ^ 52)).1
      have h52 : pow2 (52 + e) = 2 ^ 52 * pow2 e := by rw [pow2_add, show pow2 52 = 2 ^ 52 from pow2_natCast 52]
      have h1 : |rndQ q - q| ≤ |q| - pow2 (52 + e) := by
        have h2 : |(((s * 2 ^ 52 : Int) : ℚ)) * pow2 e - q| = |q| - pow2 (52 + e) := by
          have h3 : (((s * 2 ^ 52 : Int) : ℚ)) * pow2 e - q = s * (pow2 (52 + e) - |q|) := by
            rw [mul_sub, ← hqs, h52]; push_cast; ring
          rw [h3, abs_mul, hs2, one_mul, abs_sub_comm, abs_of_nonneg (by linarith)]
        rw [← h2, hscale, hr, hscale]
        gcongr
      have h4 : |q| - |(m : ℚ) * pow2 k| ≤ |(m : ℚ) * pow2 k - q| := by
        have := abs_sub_abs_le_abs_sub q ((m : ℚ) * pow2 k)
        rwa [abs_sub_comm q] at this
      linarith
  refine ⟨?_, fun g hg => ?_, fun g hg hne heq => ?_⟩
  · -- the result is such a number
    have hb : |rhe x| ≤ 2 ^ 53 := by
      have h1 : rhe x ≤ rhe ((2 ^ 53 : Int) : ℚ) := rhe_mono (by push_cast; linarith [le_abs_self x])
      have h2 : rhe ((-2 ^ 53 : Int) : ℚ) ≤ rhe x := rhe_mono (by push_cast; linarith [neg_abs_le x])
      rw [rhe_intCast] at h1 h2
      exact abs_le.2 ⟨by linarith, h1⟩
    rw [hr]
    rcases hb.lt_or_eq with h | h
    · exact ⟨rhe x, e, h, hge, by rw [pow2_eq]⟩
    · have h2 : pow2 (e + 1) = pow2 e * 2 := by rw [pow2_add, show pow2 1 = 2 by rw [pow2_eq]; norm_num]
      rcases abs_eq (by positivity) |>.1 h with h | h
      · exact ⟨2 ^ 52, e + 1, by norm_num, by omega, by rw [h, ← pow2_eq, h2]; push_cast; ring⟩
      · exact ⟨-2 ^ 52, e + 1, by norm_num, by omega, by rw [h, ← pow2_eq, h2]; push_cast; ring⟩
  · rcases hother g hg with ⟨j, rfl⟩ | h
    · rw [hr, hscale, hscale]
      have := (rhe_nearest x j).1
      gcongr
    · exact h.le
  · rcases hother g hg with ⟨j, rfl⟩ | h
    · rw [hr, hscale, hscale] at heq
      have h1 : |(j : ℚ) - x| = |(rhe x : ℚ) - x| := mul_right_cancel₀ hpe.ne' heq
      have h2 : j ≠ rhe x := fun h => hne (by rw [h, hr])
      obtain ⟨m, hm, hd⟩ := (rhe_nearest x j).2 h2 h1
      refine ⟨m, e, by rw [hr, hm, pow2_eq]; push_cast; ring, ?_⟩
      rw [hr, ← sub_mul, abs_mul, abs_of_pos hpe, hd, one_mul, pow2_eq]
    · exact absurd heq h.ne'

theorem rnd_rounded (q : ℚ) : Rounded q (rnd q) := by
  refine ⟨rndQ q, rndQ_nearest q, ?_⟩
  have h : pow2 1024 = 2 ^ 1024 := pow2_natCast 1024
  unfold rnd
  rw [h]
  split
  · rename_i h1; simp only [if_neg (not_le.2 h1)]
  · rename_i h1; simp only [if_pos (not_lt.1 h1)]

theorem rounded_iff {q : ℚ} {x : F64} : rnd q = x ↔ Rounded q x :=
  ⟨fun h => h ▸ rnd_rounded q, fun h => rounded_unique (rnd_rounded q) h⟩

theorem d_inj {x y : F64} : (Out.ok (Scal.d x) = .ok (Scal.d y)) ↔ x = y := by simp

/-- C106: the sum, the difference, the product and the quotient of two elements of type double that are numbers is the binary64 number
nearest to the exact result, in a tie the one with the even last digit, and infinite with the sign of the exact result
if that exceeds all binary64 numbers.  The result is determined by this. -/
theorem C106_double (p q : ℚ) (x : F64) :
    (Trait.plus (.d (fin p)) (.d (fin q)) = .ok (.d x) ↔ Rounded (p + q) x) ∧
    (Trait.minus (.d (fin p)) (.d (fin q)) = .ok (.d x) ↔ Rounded (p - q) x) ∧
    (Trait.times (.d (fin p)) (.d (fin q)) = .ok (.d x) ↔ Rounded (p * q) x) ∧
    (q ≠ 0 → (Trait.divide (.d (fin p)) (.d (fin q)) = .ok (.d x) ↔ Rounded (p / q) x)) := by
  refine ⟨?_, ?_, ?_, fun hq => ?_⟩
  · rw [← rounded_iff]; exact d_inj
  · rw [← rounded_iff, sub_eq_add_neg]; exact d_inj
  · rw [← rounded_iff]; exact d_inj
  · rw [← rounded_iff]
    unfold Trait.divide
    rw [d_inj]
    simp only [Scal.toD, F64.div, if_neg hq]

/-- 0.1 + 0.2 is not 0.3, but the next number. -/
example : ∃ p q r, rnd (1 / 10) = fin p ∧ rnd (1 / 5) = fin q ∧ rnd (3 / 10) = fin r ∧ Rounded (p + q) (fin (r + 1 / 2 ^ 54)) := by
  exact ⟨3602879701896397 / 2 ^ 55, 3602879701896397 / 2 ^ 54, 5404319552844595 / 2 ^ 54, by decide +kernel, by decide +kernel, by decide +kernel,
    rounded_iff.1 (by decide +kernel)⟩

/-- Ties: 2^53 + 1 and 2^53 + 3. -/
example : Rounded (2 ^ 53 + 1) (fin (2 ^ 53)) ∧ Rounded (2 ^ 53 + 3) (fin (2 ^ 53 + 4)) :=
  ⟨rounded_iff.1 (by decide +kernel), rounded_iff.1 (by decide +kernel)⟩

/-- An overflow, the smallest number and an underflow. -/
example : Rounded (-(2 ^ 1024)) (inf true) ∧ Rounded (1 / 2 ^ 1074) (fin (1 / 2 ^ 1074)) ∧ Rounded (1 / 2 ^ 1075) (fin 0) :=
  ⟨rounded_iff.1 (by decide +kernel), rounded_iff.1 (by decide +kernel), rounded_iff.1 (by decide +kernel)⟩

theorem toD_exact {n : Int} (h : InI32 n) : F64.ofInt n = fin n :=
  ofInt_eq (by unfold InI32 at h; rw [abs_le]; constructor <;> omega)

/-- C106: an integer element is not changed by its conversion to double: with a double operand the result is rounded once, and the
quotient of two integers is the number nearest to the exact quotient. -/
theorem C106_integer {n k : Int} (hn : InI32 n) (hk : InI32 k) (q : ℚ) (x : F64) :
    (Trait.plus (.i n) (.d (fin q)) = .ok (.d x) ↔ Rounded (n + q) x) ∧
    (Trait.minus (.i n) (.d (fin q)) = .ok (.d x) ↔ Rounded (n - q) x) ∧
    (Trait.times (.i n) (.d (fin q)) = .ok (.d x) ↔ Rounded (n * q) x) ∧
    (Trait.plus (.d (fin q)) (.i n) = .ok (.d x) ↔ Rounded (q + n) x) ∧
    (Trait.minus (.d (fin q)) (.i n) = .ok (.d x) ↔ Rounded (q - n) x) ∧
    (Trait.times (.d (fin q)) (.i n) = .ok (.d x) ↔ Rounded (q * n) x) ∧
    (k ≠ 0 → (Trait.divide (.i n) (.i k) = .ok (.d x) ↔ Rounded (n / k) x)) := by
  have h1 := toD_exact hn
  have h2 := toD_exact hk
  refine ⟨?_, ?_, ?_, ?_, ?_, ?_, fun hk0 => ?_⟩
  · rw [← (C106_double n q x).1]; simp [Trait.plus, Trait.arith, Scal.int?, Scal.toD, h1]
  · rw [← (C106_double n q x).2.1]; simp [Trait.minus, Trait.arith, Scal.int?, Scal.toD, h1]
  · rw [← (C106_double n q x).2.2.1]; simp [Trait.times, Trait.arith, Scal.int?, Scal.toD, h1]
  · rw [← (C106_double q n x).1]; simp [Trait.plus, Trait.arith, Scal.int?, Scal.toD, h1]
  · rw [← (C106_double q n x).2.1]; simp [Trait.minus, Trait.arith, Scal.int?, Scal.toD, h1]
  · rw [← (C106_double q n x).2.2.1]; simp [Trait.times, Trait.arith, Scal.int?, Scal.toD, h1]
  · rw [← (C106_double n k x).2.2.2 (by exact_mod_cast hk0)]; simp [Trait.divide, Scal.toD, h1, h2]

example : InI32 7 ∧ InI32 2 ∧ Trait.divide (.i 7) (.i 2) = .ok (.d (fin (7 / 2))) := by decide +kernel

theorem rnd_ne_nan (q : ℚ) : rnd q ≠ .nan := by
  unfold rnd; dsimp only; split <;> simp

/-- C106: when a result is not a number.  A missing value among the operands, and the indeterminate forms inf - inf, 0 * inf, 0 / 0 and
inf / inf, and nothing else. -/
theorem C106_nan (x y : F64) :
    (Trait.plus (.d x) (.d y) = .ok (.d .nan) ↔ x = .nan ∨ y = .nan ∨ ∃ b, x = inf b ∧ y = inf (!b)) ∧
    (Trait.minus (.d x) (.d y) = .ok (.d .nan) ↔ x = .nan ∨ y = .nan ∨ ∃ b, x = inf b ∧ y = inf b) ∧
    (Trait.times (.d x) (.d y) = .ok (.d .nan) ↔ x = .nan ∨ y = .nan ∨ ∃ b, (x = fin 0 ∧ y = inf b) ∨ (x = inf b ∧ y = fin 0)) ∧
    (Trait.divide (.d x) (.d y) = .ok (.d .nan) ↔ x = .nan ∨ y = .nan ∨ (x = fin 0 ∧ y = fin 0) ∨ ∃ a b, x = inf a ∧ y = inf b) := by
  have hp : ∀ x y, F64.add x y = .nan ↔ x = .nan ∨ y = .nan ∨ ∃ b, x = inf b ∧ y = inf (!b) := by
    intro x y
    rcases x with _ | a | p <;> rcases y with _ | b | q <;> simp [F64.add, rnd_ne_nan]
    cases a <;> cases b <;> simp
  refine ⟨?_, ?_, ?_, ?_⟩
  · show Out.ok (Scal.d (F64.add x y)) = _ ↔ _
    rw [d_inj]; exact hp x y
  · show Out.ok (Scal.d (F64.add x (F64.neg y))) = _ ↔ _
    rw [d_inj, hp]
    rcases y with _ | b | q <;> simp [F64.neg]
  · show Out.ok (Scal.d (F64.mul x y)) = _ ↔ _
    rw [d_inj]
    rcases x with _ | a | p <;> rcases y with _ | b | q <;> simp only [F64.mul]
    all_goals simp [rnd_ne_nan]
  · show Out.ok (Scal.d (F64.div x y)) = _ ↔ _
    rw [d_inj]
    rcases x with _ | a | p <;> rcases y with _ | b | q <;> simp only [F64.div]
    all_goals first
      | (simp; done)
      | (split
         · split <;> simp_all
         · simp_all [rnd_ne_nan])

example : Trait.plus (.d (inf true)) (.d (inf false)) = .ok (.d .nan) ∧ Trait.divide (.d (fin 0)) (.d (fin 0)) = .ok (.d .nan) ∧
    Trait.divide (.d (fin 1)) (.d (fin 0)) ≠ .ok (.d .nan) := by decide +kernel

/-- C106: operations with an infinite operand.  (Quotients by zero are left out: their sign depends on the sign of zero, which is not
part of the model.) -/
theorem C106_infinite (a : Bool) (p : ℚ) :
    (Trait.plus (.d (inf a)) (.d (fin p)) = .ok (.d (inf a)) ∧ Trait.plus (.d (fin p)) (.d (inf a)) = .ok (.d (inf a))) ∧
    (Trait.minus (.d (inf a)) (.d (fin p)) = .ok (.d (inf a)) ∧ Trait.minus (.d (fin p)) (.d (inf a)) = .ok (.d (inf (!a)))) ∧
    (p ≠ 0 → Trait.times (.d (inf a)) (.d (fin p)) = .ok (.d (inf (a != decide (p < 0))))) ∧
    Trait.divide (.d (fin p)) (.d (inf a)) = .ok (.d (fin 0)) ∧
    (p ≠ 0 → Trait.divide (.d (inf a)) (.d (fin p)) = .ok (.d (inf (a != decide (p < 0))))) := by
  refine ⟨⟨rfl, rfl⟩, ⟨rfl, rfl⟩, fun h => ?_, rfl, fun _ => rfl⟩
  show Out.ok (Scal.d (F64.mul _ _)) = _
  simp [F64.mul, Scal.toD, h]

example : Trait.divide (.d (inf false)) (.d (fin (-2))) = .ok (.d (inf true)) := by decide +kernel

end ETR
