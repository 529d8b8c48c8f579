import Verif.Props.Interp
import Verif.Props.RoundError

/-! C55 in binary64: the rounding error of the interpolation. -/

namespace ETR
open F64 Spec

/-- `z` is off from `w` by at most `k` times half a unit in the last place of the bound `B`. -/
def Off (z : F64) (w : ℚ) (k : Nat) (B : ℚ) : Prop := ∃ q, z = fin q ∧ |q - w| ≤ k * B / 2 ^ 53 ∧ |w| ≤ B

/-- Between `2^(-n)` and `2^n`. -/
structure Within (n : Nat) (B : ℚ) : Prop where
  ge : 1 / 2 ^ n ≤ B
  le : B ≤ 2 ^ n

namespace Within

theorem pos {n : Nat} {B : ℚ} (h : Within n B) : 0 < B := lt_of_lt_of_le (by positivity) h.ge

theorem mono {m n : Nat} {B : ℚ} (h : Within m B) (hn : m ≤ n) : Within n B :=
  ⟨le_trans (one_div_le_one_div_of_le (by positivity) (pow_le_pow_right₀ (by norm_num) hn)) h.ge,
    h.le.trans (pow_le_pow_right₀ (by norm_num) hn)⟩

theorem mul {m n : Nat} {B C : ℚ} (h : Within m B) (h' : Within n C) : Within (m + n) (B * C) := by
  constructor
  · rw [pow_add, ← one_div_mul_one_div]
    exact mul_le_mul h.ge h'.ge (by positivity) h.pos.le
  · rw [pow_add]
    exact mul_le_mul h.le h'.le h'.pos.le (by positivity)

theorem inv {n : Nat} {B : ℚ} (h : Within n B) : Within n B⁻¹ := by
  have := h.pos
  constructor
  · rw [← one_div B]
    exact one_div_le_one_div_of_le this h.le
  · rw [inv_le_comm₀ this (by positivity), ← one_div]
    exact h.ge

theorem div {m n : Nat} {B C : ℚ} (h : Within m B) (h' : Within n C) : Within (m + n) (B / C) := by
  rw [div_eq_mul_inv]
  exact h.mul h'.inv

end Within

theorem Within.small {B : ℚ} (h : Within 900 B) : 1 / 2 ^ 1075 ≤ B / 4 / 2 ^ 53 := by
  have e1 : ∀ a b n : Nat, n = a + 2 + b → (1 : ℚ) / 2 ^ n = 1 / 2 ^ a / 4 / 2 ^ b := by
    rintro a b _ rfl
    rw [div_div, div_div, pow_add, pow_add, mul_assoc]
    norm_num
  have e2 : (1 : ℚ) / 2 ^ 1075 ≤ 1 / 2 ^ 955 := one_div_le_one_div_of_le (by positivity) (pow_le_pow_right₀ (by norm_num) (by norm_num))
  rw [e1 900 53 955 rfl] at e2
  refine e2.trans ?_
  have := h.ge
  generalize (1 : ℚ) / 2 ^ 900 = c at *
  gcongr

theorem Within.big {B : ℚ} (h : Within 900 B) : B + B / 4 ≤ 2 ^ 1023 := by
  have h1 : B + B / 4 ≤ 2 * B := by have := h.pos; linarith
  refine h1.trans ?_
  have h2 : 2 * B ≤ 2 * 2 ^ 900 := mul_le_mul_of_nonneg_left h.le (by norm_num)
  refine h2.trans ?_
  rw [← pow_succ']
  exact pow_le_pow_right₀ (by norm_num) (by norm_num)

/-- One rounding. -/
theorem off_round {t w B e : ℚ} (hB : Within 900 B) (hw : |w| ≤ B) (he : e ≤ B / 4) (ht : |t - w| ≤ e) :
    rnd t = fin (rndQ t) ∧ |rndQ t - w| ≤ e + 2 * B / 2 ^ 53 := by
  have hB0 := hB.pos
  have h1 : |t| ≤ B + B / 4 := by
    have := abs_sub_abs_le_abs_sub t w
    linarith
  refine ⟨rnd_fin_of_le (h1.trans hB.big), ?_⟩
  have h3 := rndQ_bound t
  have h6 := hB.small
  clear hB
  generalize (1 : ℚ) / 2 ^ 1075 = c at *
  have h4 := abs_sub_le (rndQ t) t w
  have h5 : |t| / 2 ^ 53 ≤ (B + B / 4) / 2 ^ 53 := by gcongr
  have h7 : 2 * B / 2 ^ 53 = (B + B / 4) / 2 ^ 53 + B / 4 / 2 ^ 53 + B / 2 / 2 ^ 53 := by ring
  have h8 : 0 ≤ B / 2 / 2 ^ 53 := by positivity
  linarith

namespace Off

theorem nonneg {z : F64} {w B : ℚ} {k : Nat} (h : Off z w k B) : 0 ≤ B := by
  obtain ⟨_, _, _, h⟩ := h
  exact (abs_nonneg _).trans h

theorem mono {z : F64} {w B C : ℚ} {k l : Nat} (h : Off z w k B) (hk : k ≤ l) (hB : B ≤ C) : Off z w l C := by
  have := h.nonneg
  obtain ⟨q, h1, h2, h3⟩ := h
  refine ⟨q, h1, h2.trans ?_, h3.trans hB⟩
  have : (k : ℚ) ≤ l := by exact_mod_cast hk
  gcongr

/-- Exact data. -/
theorem exact {w B : ℚ} (h : |w| ≤ B) : Off (fin w) w 0 B := ⟨w, rfl, by simp, h⟩

/-- The difference of exact data. -/
theorem diff {v w B : ℚ} (hB : Within 900 B) (h : |v - w| ≤ B) : Off (F64.sub (fin v) (fin w)) (v - w) 2 B := by
  obtain ⟨h1, h2⟩ := off_round (t := v - w) (e := 0) hB h (by have := hB.pos; linarith) (by simp)
  refine ⟨_, ?_, by simpa using h2, h⟩
  have : F64.sub (fin v) (fin w) = rnd (v - w) := by rw [sub_eq_add_neg]; rfl
  rw [this, h1]

theorem add {x y : F64} {v w B C : ℚ} {k l : Nat} (hx : Off x v k B) (hy : Off y w l C) (h : Within 900 (B + C)) (hk : max k l ≤ 2 ^ 20) :
    Off (F64.add x y) (v + w) (max k l + 2) (B + C) := by
  have b0 := hx.nonneg
  have c0 := hy.nonneg
  have hy := hy.mono (le_max_right k l) le_rfl
  have hx := hx.mono (le_max_left k l) le_rfl
  generalize max k l = n at *
  obtain ⟨p, rfl, p1, p2⟩ := hx
  obtain ⟨q, rfl, q1, q2⟩ := hy
  have hw : |v + w| ≤ B + C := (abs_add_le _ _).trans (add_le_add p2 q2)
  have hn : (n : ℚ) ≤ 2 ^ 20 := by exact_mod_cast hk
  have e : |p + q - (v + w)| ≤ n * (B + C) / 2 ^ 53 := by
    rw [show p + q - (v + w) = (p - v) + (q - w) by ring]
    refine (abs_add_le _ _).trans ?_
    rw [mul_add, add_div]
    exact add_le_add p1 q1
  have e4 : n * (B + C) / 2 ^ 53 ≤ (B + C) / 4 := by
    have : n * (B + C) ≤ 2 ^ 20 * (B + C) := by gcongr
    rw [div_le_div_iff₀ (by norm_num) (by norm_num)]
    linarith
  obtain ⟨h1, h2⟩ := off_round h hw e4 e
  refine ⟨rndQ (p + q), ?_, ?_, hw⟩
  · have : F64.add (fin p) (fin q) = rnd (p + q) := rfl
    rw [this, h1]
  · refine h2.trans (le_of_eq ?_)
    push_cast
    ring

theorem neg {x : F64} {v B : ℚ} {k : Nat} (h : Off x v k B) : Off (F64.neg x) (-v) k B := by
  obtain ⟨q, rfl, h1, h2⟩ := h
  refine ⟨-q, rfl, ?_, by rwa [abs_neg]⟩
  rw [← neg_sub', abs_neg]
  exact h1

theorem sub {x y : F64} {v w B C : ℚ} {k l : Nat} (hx : Off x v k B) (hy : Off y w l C) (h : Within 900 (B + C)) (hk : max k l ≤ 2 ^ 20) :
    Off (F64.sub x y) (v - w) (max k l + 2) (B + C) := by
  rw [sub_eq_add_neg]
  exact hx.add hy.neg h hk

theorem mul {x y : F64} {v w B C : ℚ} {k l : Nat} (hx : Off x v k B) (hy : Off y w l C) (h : Within 900 (B * C)) (hk : k ≤ 2 ^ 20)
    (hl : l ≤ 2 ^ 20) : Off (F64.mul x y) (v * w) (k + l + 3) (B * C) := by
  have b0 := hx.nonneg
  have c0 := hy.nonneg
  obtain ⟨p, rfl, p1, p2⟩ := hx
  obtain ⟨q, rfl, q1, q2⟩ := hy
  have hw : |v * w| ≤ B * C := by
    rw [abs_mul]
    exact mul_le_mul p2 q2 (abs_nonneg _) b0
  have hk' : (k : ℚ) ≤ 2 ^ 20 := by exact_mod_cast hk
  have hl' : (l : ℚ) ≤ 2 ^ 20 := by exact_mod_cast hl
  have e : |p * q - v * w| ≤ (k + l + 1) * (B * C) / 2 ^ 53 := by
    rw [show p * q - v * w = v * (q - w) + w * (p - v) + (p - v) * (q - w) by ring]
    refine (abs_add_three _ _ _).trans ?_
    rw [abs_mul, abs_mul, abs_mul]
    have m1 : |v| * |q - w| ≤ B * (l * C / 2 ^ 53) := mul_le_mul p2 q1 (abs_nonneg _) b0
    have m2 : |w| * |p - v| ≤ C * (k * B / 2 ^ 53) := mul_le_mul q2 p1 (abs_nonneg _) c0
    have m3 : |p - v| * |q - w| ≤ (k * B / 2 ^ 53) * (l * C / 2 ^ 53) := mul_le_mul p1 q1 (abs_nonneg _) (by positivity)
    have m4 : (k * B / 2 ^ 53) * (l * C / 2 ^ 53) ≤ (B * C) / 2 ^ 53 := by
      have : (k : ℚ) * l ≤ 2 ^ 20 * 2 ^ 20 := mul_le_mul hk' hl' (by positivity) (by positivity)
      have a : (k * B / 2 ^ 53) * (l * C / 2 ^ 53) = (k * l / 2 ^ 53) * ((B * C) / 2 ^ 53) := by ring
      rw [a]
      refine mul_le_of_le_one_left (by positivity) ?_
      rw [div_le_one (by positivity)]
      refine this.trans (by norm_num)
    have s : (k + l + 1) * (B * C) / 2 ^ 53 = B * (l * C / 2 ^ 53) + C * (k * B / 2 ^ 53) + (B * C) / 2 ^ 53 := by ring
    linarith
  have e4 : (k + l + 1) * (B * C) / 2 ^ 53 ≤ (B * C) / 4 := by
    have : ((k : ℚ) + l + 1) * (B * C) ≤ (2 ^ 20 + 2 ^ 20 + 1) * (B * C) := by gcongr
    rw [div_le_div_iff₀ (by norm_num) (by norm_num)]
    have : 0 ≤ B * C := by positivity
    linarith
  obtain ⟨h1, h2⟩ := off_round h hw e4 e
  refine ⟨rndQ (p * q), ?_, ?_, hw⟩
  · have : F64.mul (fin p) (fin q) = rnd (p * q) := rfl
    rw [this, h1]
  · refine h2.trans (le_of_eq ?_)
    push_cast
    ring

theorem div {x y : F64} {v w B : ℚ} {k l : Nat} (hx : Off x v k B) (hw : 0 < w) (hy : Off y w l w) (h : Within 900 (B / w))
    (hk : k ≤ 2 ^ 20) (hl : l ≤ 2 ^ 20) : Off (F64.div x y) (v / w) (k + l + 3) (B / w) := by
  have b0 := hx.nonneg
  obtain ⟨p, rfl, p1, p2⟩ := hx
  obtain ⟨q, rfl, q1, q2⟩ := hy
  have hk' : (k : ℚ) ≤ 2 ^ 20 := by exact_mod_cast hk
  have hl' : (l : ℚ) ≤ 2 ^ 20 := by exact_mod_cast hl
  have hq : w * (1 - l / 2 ^ 53) ≤ q := by
    have := (abs_le.1 q1).1
    have : w * (1 - l / 2 ^ 53) = w - l * w / 2 ^ 53 := by ring
    linarith
  have f1 : (1 : ℚ) - 1 / 2 ^ 33 ≤ 1 - l / 2 ^ 53 := by
    have : (l : ℚ) / 2 ^ 53 ≤ 2 ^ 20 / 2 ^ 53 := by gcongr
    have : (2 ^ 20 / 2 ^ 53 : ℚ) = 1 / 2 ^ 33 := by norm_num
    linarith
  have hq' : w * (1 - 1 / 2 ^ 33) ≤ q := le_trans (by gcongr) hq
  have q0 : 0 < q := lt_of_lt_of_le (by positivity) hq'
  have hw' : |v / w| ≤ B / w := by
    rw [abs_div, abs_of_pos hw]
    gcongr
  have e : |p / q - v / w| ≤ (k + l + 1) * (B / w) / 2 ^ 53 := by
    have e1 : p / q - v / w = ((p - v) * w - v * (q - w)) / (q * w) := by field_simp; ring
    rw [e1, abs_div, abs_of_pos (mul_pos q0 hw), div_le_iff₀ (mul_pos q0 hw)]
    have n1 : |(p - v) * w - v * (q - w)| ≤ (k + l) * B * w / 2 ^ 53 := by
      refine (abs_sub _ _).trans ?_
      rw [abs_mul, abs_mul, abs_of_pos hw]
      have m1 : |p - v| * w ≤ k * B / 2 ^ 53 * w := by gcongr
      have m2 : |v| * |q - w| ≤ B * (l * w / 2 ^ 53) := mul_le_mul p2 q1 (abs_nonneg _) b0
      have s : (k + l) * B * w / 2 ^ 53 = k * B / 2 ^ 53 * w + B * (l * w / 2 ^ 53) := by ring
      linarith
    refine n1.trans ?_
    have s : (k + l + 1) * (B / w) / 2 ^ 53 * (q * w) = (k + l + 1) * B / 2 ^ 53 * q := by field_simp
    rw [s]
    have s2 : (k + l + 1) * B / 2 ^ 53 * (w * (1 - 1 / 2 ^ 33)) ≤ (k + l + 1) * B / 2 ^ 53 * q := by gcongr
    refine le_trans ?_ s2
    have s3 : ((k : ℚ) + l) ≤ (k + l + 1) * (1 - 1 / 2 ^ 33) := by
      have : (k : ℚ) + l + 1 ≤ 2 ^ 20 + 2 ^ 20 + 1 := by linarith
      linarith
    calc (k + l) * B * w / 2 ^ 53 = (k + l) * (B * w / 2 ^ 53) := by ring
      _ ≤ ((k + l + 1) * (1 - 1 / 2 ^ 33)) * (B * w / 2 ^ 53) := by gcongr
      _ = _ := by ring
  have e4 : (k + l + 1) * (B / w) / 2 ^ 53 ≤ (B / w) / 4 := by
    have : 0 ≤ B / w := by positivity
    have : ((k : ℚ) + l + 1) * (B / w) ≤ (2 ^ 20 + 2 ^ 20 + 1) * (B / w) := by gcongr
    rw [div_le_div_iff₀ (by norm_num) (by norm_num)]
    linarith
  obtain ⟨h1, h2⟩ := off_round h hw' e4 e
  refine ⟨rndQ (p / q), ?_, ?_, hw'⟩
  · have : F64.div (fin p) (fin q) = rnd (p / q) := by simp only [F64.div, if_neg q0.ne']
    rw [this, h1]
  · refine h2.trans (le_of_eq ?_)
    push_cast
    ring

end Off

namespace Spec

/-- `std::pow` of small numbers with exponents 2 and 3 is off by at most one unit in the last place. -/
def PowUlp (pow : F64 → Nat → F64) : Prop :=
  ∀ x : ℚ, |x| ≤ 2 → ∀ n, n = 2 ∨ n = 3 → ∃ z, pow (fin x) n = fin z ∧ |z - x ^ n| ≤ |x| ^ n / 2 ^ 52 + 1 / 2 ^ 1074

end Spec

theorem tiny_bound : (1 : ℚ) / 2 ^ 1074 ≤ 1 / 2 / 2 ^ 53 := by
  rw [div_div]
  refine one_div_le_one_div_of_le (by positivity) ?_
  rw [← pow_succ']
  exact pow_le_pow_right₀ (by norm_num) (by norm_num)

theorem Off.pow {pow : F64 → Nat → F64} (hp : PowUlp pow) {z : F64} {x : ℚ} {k : Nat} (h : Off z x k 1) (hk : k ≤ 2 ^ 10) :
    Off (pow z 2) (x ^ 2) (2 * k + 4) 1 ∧ Off (pow z 3) (x ^ 3) (3 * k + 5) 1 := by
  obtain ⟨q, rfl, h1, h2⟩ := h
  rw [mul_one] at h1
  have hk' : (k : ℚ) ≤ 2 ^ 10 := by exact_mod_cast hk
  set d : ℚ := k / 2 ^ 53 with hd
  have hd0 : 0 ≤ d := by positivity
  have hd1 : d ≤ 1 / 2 ^ 43 := by
    rw [hd]
    have : (k : ℚ) / 2 ^ 53 ≤ 2 ^ 10 / 2 ^ 53 := by gcongr
    refine this.trans (by norm_num)
  have hq : |q| ≤ 1 + d := by
    have := abs_sub_abs_le_abs_sub q x
    linarith
  have hd2 : d * d ≤ 1 / 2 ^ 33 / 2 ^ 53 := by
    have : d * d = (k * k) / 2 ^ 53 / 2 ^ 53 := by rw [hd]; ring
    rw [this]
    have : (k : ℚ) * k ≤ 2 ^ 10 * 2 ^ 10 := mul_le_mul hk' hk' (by positivity) (by positivity)
    have e : (k * k : ℚ) / 2 ^ 53 / 2 ^ 53 ≤ (2 ^ 10 * 2 ^ 10) / 2 ^ 53 / 2 ^ 53 := by gcongr
    refine e.trans (by norm_num)
  have t := tiny_bound
  have hx2 : |x ^ 2| ≤ 1 := by rw [abs_pow]; exact pow_le_one₀ (abs_nonneg _) h2
  have hx3 : |x ^ 3| ≤ 1 := by rw [abs_pow]; exact pow_le_one₀ (abs_nonneg _) h2
  have q2 : |q| ^ 2 ≤ 1 + 3 * d := by
    have : |q| ^ 2 ≤ (1 + d) ^ 2 := by gcongr
    have : d * d ≤ d * 1 := by gcongr; exact hd1.trans (by norm_num)
    nlinarith
  have q3 : |q| ^ 3 ≤ 1 + 7 * d := by
    have h3 : |q| ^ 3 ≤ (1 + d) ^ 3 := by gcongr
    have h4 : d * d ≤ d * 1 := by gcongr; exact hd1.trans (by norm_num)
    have h5 : d * d * d ≤ d * 1 * 1 := mul_le_mul h4 (hd1.trans (by norm_num)) hd0 (by linarith)
    nlinarith
  have d2 : |q ^ 2 - x ^ 2| ≤ 2 * d + d * d := by
    rw [show q ^ 2 - x ^ 2 = (q - x) * (q + x) by ring, abs_mul]
    have : |q + x| ≤ 2 + d := (abs_add_le _ _).trans (by linarith)
    calc |q - x| * |q + x| ≤ d * (2 + d) := mul_le_mul h1 this (abs_nonneg _) hd0
      _ = _ := by ring
  have d3 : |q ^ 3 - x ^ 3| ≤ 3 * d + 4 * (d * d) := by
    rw [show q ^ 3 - x ^ 3 = (q - x) * (q ^ 2 + q * x + x ^ 2) by ring, abs_mul]
    have : |q ^ 2 + q * x + x ^ 2| ≤ 3 + 4 * d := by
      refine (abs_add_three _ _ _).trans ?_
      rw [abs_pow q, abs_mul]
      have : |q| * |x| ≤ (1 + d) * 1 := mul_le_mul hq h2 (abs_nonneg _) (by linarith)
      linarith
    calc |q - x| * |q ^ 2 + q * x + x ^ 2| ≤ d * (3 + 4 * d) := mul_le_mul h1 this (abs_nonneg _) hd0
      _ = _ := by ring
  have hq' : |q| ≤ 2 := hq.trans (by have := hd1.trans (show (1 : ℚ) / 2 ^ 43 ≤ 1 by norm_num); linarith)
  have u0 : (0 : ℚ) ≤ 1 / 2 ^ 53 := by positivity
  constructor
  · obtain ⟨z, z1, z2⟩ := hp q hq' 2 (.inl rfl)
    refine ⟨z, z1, ?_, hx2⟩
    have a := abs_sub_le z (q ^ 2) (x ^ 2)
    have b : |q| ^ 2 / 2 ^ 52 ≤ (1 + 3 * d) / 2 ^ 52 := by gcongr
    have c : ((2 * k + 4 : Nat) : ℚ) * 1 / 2 ^ 53 = 2 * d + 4 * (1 / 2 ^ 53) := by rw [hd]; push_cast; ring
    rw [c]
    have e : (1 + 3 * d) / 2 ^ 52 ≤ (1 + 3 * (1 / 2 ^ 43)) / 2 ^ 52 := by gcongr
    have f : (1 + 3 * (1 / 2 ^ 43)) / 2 ^ 52 + 1 / 2 / 2 ^ 53 + 1 / 2 ^ 33 / 2 ^ 53 ≤ 4 * (1 / 2 ^ 53 : ℚ) := by norm_num
    linarith
  · obtain ⟨z, z1, z2⟩ := hp q hq' 3 (.inr rfl)
    refine ⟨z, z1, ?_, hx3⟩
    have a := abs_sub_le z (q ^ 3) (x ^ 3)
    have b : |q| ^ 3 / 2 ^ 52 ≤ (1 + 7 * d) / 2 ^ 52 := by gcongr
    have c : ((3 * k + 5 : Nat) : ℚ) * 1 / 2 ^ 53 = 3 * d + 5 * (1 / 2 ^ 53) := by rw [hd]; push_cast; ring
    rw [c]
    have e : (1 + 7 * d) / 2 ^ 52 ≤ (1 + 7 * (1 / 2 ^ 43)) / 2 ^ 52 := by gcongr
    have f : (1 + 7 * (1 / 2 ^ 43)) / 2 ^ 52 + 1 / 2 / 2 ^ 53 + 4 * (1 / 2 ^ 33 / 2 ^ 53) ≤ 5 * (1 / 2 ^ 53 : ℚ) := by norm_num
    linarith

theorem lit_off (pow : F64 → Nat → F64) (n : Int) (h : |n| ≤ 3) : Off ((Arith.f64 pow).lit n) n 0 |n| := by
  have e : (Arith.f64 pow).lit = F64.ofInt := rfl
  have h' : |n| ≤ 2 ^ 53 := by omega
  rw [e, show F64.ofInt n = fin n from rnd_int h']
  exact Off.exact le_rfl

/-- The formula in binary64. -/
theorem formula_off {pow : F64 → Nat → F64} (hp : PowUlp pow) {t t0 t1 t2 t3 y0 y1 y2 y3 Y : ℚ} (hY : Within 200 Y)
    (hh : Within 200 (t2 - t1)) (h1 : Within 200 (t2 - t0)) (h2 : Within 200 (t3 - t1)) (ht0 : t0 ≤ t1) (ht1 : t1 ≤ t) (ht2 : t ≤ t2)
    (ht3 : t2 ≤ t3) (b0 : |y0| ≤ Y) (b1 : |y1| ≤ Y) (b2 : |y2| ≤ Y) (b3 : |y3| ≤ Y) :
    Off (cmrFormula (Arith.f64 pow) (fin t) ⟨fin t0, fin t1, fin t2, fin t3, fin y0, fin y1, fin y2, fin y3⟩)
      (cmrFormula (Arith.field ℚ) t ⟨t0, t1, t2, t3, y0, y1, y2, y3⟩) 51 (23 * Y) := by
  have Y0 := hY.pos
  have H0 := hh.pos
  have num : ∀ c : ℚ, 1 / 2 ^ 5 ≤ c → c ≤ 2 ^ 5 → Within 5 c := fun c a b => ⟨a, b⟩
  have numY : ∀ c : ℚ, 1 / 2 ^ 5 ≤ c → c ≤ 2 ^ 5 → Within 900 (c * Y) := fun c a b => ((num c a b).mul hY).mono (by norm_num)
  have numW : ∀ c : ℚ, 1 / 2 ^ 5 ≤ c → c ≤ 2 ^ 5 → Within 900 c := fun c a b => (num c a b).mono (by norm_num)
  have numh : ∀ c : ℚ, 1 / 2 ^ 5 ≤ c → c ≤ 2 ^ 5 → Within 900 (c * (t2 - t1)) := fun c a b => ((num c a b).mul hh).mono (by norm_num)
  -- differences of the data
  have at' : Off (F64.sub (fin t) (fin t1)) (t - t1) 2 (t2 - t1) := Off.diff (hh.mono (by norm_num)) (by rw [abs_of_nonneg] <;> linarith)
  have ah : Off (F64.sub (fin t2) (fin t1)) (t2 - t1) 2 (t2 - t1) := Off.diff (hh.mono (by norm_num)) (by rw [abs_of_pos H0])
  have aD1 : Off (F64.sub (fin t2) (fin t0)) (t2 - t0) 2 (t2 - t0) := Off.diff (h1.mono (by norm_num)) (by rw [abs_of_pos h1.pos])
  have aD2 : Off (F64.sub (fin t3) (fin t1)) (t3 - t1) 2 (t3 - t1) := Off.diff (h2.mono (by norm_num)) (by rw [abs_of_pos h2.pos])
  have an1 : Off (F64.sub (fin y2) (fin y0)) (y2 - y0) 2 (2 * Y) :=
    Off.diff (numY 2 (by norm_num) (by norm_num)) ((abs_sub _ _).trans (by linarith))
  have an2 : Off (F64.sub (fin y3) (fin y1)) (y3 - y1) 2 (2 * Y) :=
    Off.diff (numY 2 (by norm_num) (by norm_num)) ((abs_sub _ _).trans (by linarith))
  -- the quotients
  have ax : Off (F64.div (F64.sub (fin t) (fin t1)) (F64.sub (fin t2) (fin t1))) ((t - t1) / (t2 - t1)) 7 1 := by
    have := at'.div H0 ah (by rw [div_self H0.ne']; exact numW 1 (by norm_num) (by norm_num)) (by norm_num) (by norm_num)
    rwa [div_self H0.ne'] at this
  have hY2 : Within 300 (2 * Y) := ((num 2 (by norm_num) (by norm_num)).mul hY).mono (by norm_num)
  have am1 := an1.div h1.pos aD1 ((hY2.div h1).mono (by norm_num)) (by norm_num) (by norm_num)
  have am2 := an2.div h2.pos aD2 ((hY2.div h2).mono (by norm_num)) (by norm_num) (by norm_num)
  obtain ⟨ap2, ap3⟩ := ax.pow hp (by norm_num)
  have l1 := lit_off pow 1 (by norm_num)
  have l2 := lit_off pow 2 (by norm_num)
  have l3 := lit_off pow 3 (by norm_num)
  have l2' := lit_off pow (-2) (by norm_num)
  norm_num at l1 l2 l3 l2'
  generalize hx : (t - t1) / (t2 - t1) = x at *
  generalize hX : F64.div (F64.sub (fin t) (fin t1)) (F64.sub (fin t2) (fin t1)) = X at *
  generalize hm1 : (y2 - y0) / (t2 - t0) = m1 at *
  generalize hM1 : F64.div (F64.sub (fin y2) (fin y0)) (F64.sub (fin t2) (fin t0)) = M1 at *
  generalize hm2 : (y3 - y1) / (t3 - t1) = m2 at *
  generalize hM2 : F64.div (F64.sub (fin y3) (fin y1)) (F64.sub (fin t3) (fin t1)) = M2 at *
  -- the coefficients
  have c1 : Off (F64.add (F64.sub (F64.mul ((Arith.f64 pow).lit 2) (pow X 3)) (F64.mul ((Arith.f64 pow).lit 3) (pow X 2)))
      ((Arith.f64 pow).lit 1)) (2 * x ^ 3 - 3 * x ^ 2 + 1) 33 6 := by
    have a := (l2.mul ap3 (numW _ (by norm_num) (by norm_num)) (by norm_num) (by norm_num)).sub
      (l3.mul ap2 (numW _ (by norm_num) (by norm_num)) (by norm_num) (by norm_num)) (numW _ (by norm_num) (by norm_num)) (by norm_num)
    exact (a.add l1 (numW _ (by norm_num) (by norm_num)) (by norm_num)).mono (by norm_num) (by norm_num)
  have c2 : Off (F64.add (F64.sub (pow X 3) (F64.mul ((Arith.f64 pow).lit 2) (pow X 2))) X) (x ^ 3 - 2 * x ^ 2 + x) 30 4 := by
    have a := ap3.sub (l2.mul ap2 (numW _ (by norm_num) (by norm_num)) (by norm_num) (by norm_num)) (numW _ (by norm_num) (by norm_num))
      (by norm_num)
    exact (a.add ax (numW _ (by norm_num) (by norm_num)) (by norm_num)).mono (by norm_num) (by norm_num)
  have c3 : Off (F64.add (F64.mul ((Arith.f64 pow).lit (-2)) (pow X 3)) (F64.mul ((Arith.f64 pow).lit 3) (pow X 2)))
      (-2 * x ^ 3 + 3 * x ^ 2) 31 5 := by
    have a := (l2'.mul ap3 (numW _ (by norm_num) (by norm_num)) (by norm_num) (by norm_num)).add
      (l3.mul ap2 (numW _ (by norm_num) (by norm_num)) (by norm_num) (by norm_num)) (numW _ (by norm_num) (by norm_num)) (by norm_num)
    exact a.mono (by norm_num) (by norm_num)
  have c4 : Off (F64.sub (pow X 3) (pow X 2)) (x ^ 3 - x ^ 2) 28 2 :=
    (ap3.sub ap2 (numW _ (by norm_num) (by norm_num)) (by norm_num)).mono (by norm_num) (by norm_num)
  -- the terms
  have T1 := c1.mul (Off.exact b1) (numY 6 (by norm_num) (by norm_num)) (by norm_num) (by norm_num)
  have T3 := c3.mul (Off.exact b2) (numY 5 (by norm_num) (by norm_num)) (by norm_num) (by norm_num)
  have frac : ∀ D, Within 200 D → t2 - t1 ≤ D → ∀ c : ℚ, 1 / 2 ^ 5 ≤ c → c ≤ 2 ^ 5 →
      Within 900 (c * (t2 - t1) * (2 * Y / D)) ∧ c * (t2 - t1) * (2 * Y / D) ≤ 2 * c * Y := by
    intro D hD hle c a b
    refine ⟨(((num c a b).mul hh).mul (hY2.div hD)).mono (by norm_num), ?_⟩
    have c0 : 0 < c := lt_of_lt_of_le (by norm_num) a
    have e : c * (t2 - t1) * (2 * Y / D) = 2 * c * Y * ((t2 - t1) / D) := by ring
    rw [e]
    exact mul_le_of_le_one_right (by positivity) ((div_le_one hD.pos).2 hle)
  obtain ⟨f1, g1⟩ := frac _ h1 (by linarith) 4 (by norm_num) (by norm_num)
  obtain ⟨f2, g2⟩ := frac _ h2 (by linarith) 2 (by norm_num) (by norm_num)
  have T2 := ((c2.mul ah (numh 4 (by norm_num) (by norm_num)) (by norm_num) (by norm_num)).mul am1 f1 (by norm_num) (by norm_num)).mono
    (l := 45) (C := 8 * Y) (by norm_num) (g1.trans (le_of_eq (by ring)))
  have T4 := ((c4.mul ah (numh 2 (by norm_num) (by norm_num)) (by norm_num) (by norm_num)).mul am2 f2 (by norm_num) (by norm_num)).mono
    (l := 43) (C := 4 * Y) (by norm_num) (g2.trans (le_of_eq (by ring)))
  have s1 := T1.add T2 (by rw [← add_mul]; exact numY _ (by norm_num) (by norm_num)) (by norm_num)
  have s2 := s1.add T3 (by rw [← add_mul, ← add_mul]; exact numY _ (by norm_num) (by norm_num)) (by norm_num)
  have s3 := s2.add T4 (by rw [← add_mul, ← add_mul, ← add_mul]; exact numY _ (by norm_num) (by norm_num)) (by norm_num)
  have s4 := s3.mono (l := 51) (C := 23 * Y) (by norm_num) (le_of_eq (by ring))
  simp only [cmrFormula, Arith.field, hx, hm1, hm2]
  subst hX hM1 hM2
  push_cast
  exact s4

/-- Correct rounding is accurate enough. -/
theorem powRounded_ulp : PowUlp powRounded := by
  intro x hx n hn
  have h8 : |x ^ n| ≤ 8 := by
    rw [abs_pow]
    rcases hn with rfl | rfl
    · exact (pow_le_pow_left₀ (abs_nonneg _) hx 2).trans (by norm_num)
    · exact (pow_le_pow_left₀ (abs_nonneg _) hx 3).trans (by norm_num)
  have hb : |x ^ n| ≤ 2 ^ 1023 := h8.trans (by
    have e3 : (2 : ℚ) ^ 3 = 8 := by norm_num
    rw [← e3]
    exact pow_le_pow_right₀ (by norm_num) (by norm_num))
  refine ⟨rndQ (x ^ n), rnd_fin_of_le hb, (rndQ_bound _).trans ?_⟩
  rw [abs_pow]
  have e1 : |x| ^ n / 2 ^ 53 ≤ |x| ^ n / 2 ^ 52 := by
    exact div_le_div_of_nonneg_left (by positivity) (by positivity) (by norm_num)
  exact add_le_add e1 (one_div_le_one_div_of_le (by positivity) (pow_le_pow_right₀ (by norm_num) (by norm_num)))

/-- C55 in binary64 (partial: interior intervals; lengths of the intervals and size of the values between `2^(-200)` and `2^200`; `pow` is
off by at most one unit in the last place).  The result differs from the Hermite interpolation of the four neighbouring points by at most
`2^(-42)` times the largest of their values. -/
theorem C55_binary64_partial {pow : F64 → Nat → F64} (hp : PowUlp pow) {time par : View F64} {ts ys : List ℚ} (ht : time.Is (ts.map fin))
    (hy : par.Is (ys.map fin)) (hl : ts.length = ys.length) (hlim : ts.length < 2147483648) (hi : Increasing ts) {i : Nat} (h1 : 1 ≤ i)
    (h2 : i + 2 < ts.length) {t Y : ℚ} (ht1 : ts[i] ≤ t) (ht2 : t < ts[i + 1]) (hY : 1 / 2 ^ 200 ≤ Y ∧ Y ≤ 2 ^ 200)
    (b0 : |ys[i - 1]| ≤ Y) (b1 : |ys[i]| ≤ Y) (b2 : |ys[i + 1]| ≤ Y) (b3 : |ys[i + 2]| ≤ Y) (hh : 1 / 2 ^ 200 ≤ ts[i + 1] - ts[i])
    (hD : ts[i + 1] - ts[i - 1] ≤ 2 ^ 200) (hD' : ts[i + 2] - ts[i] ≤ 2 ^ 200) :
    ∃ z, cmrInternal (Arith.f64 pow) (fin t) time par = .ok (fin z) ∧
      |z - hermite t ts[i - 1] ts[i] ts[i + 1] ts[i + 2] ys[i - 1] ys[i] ys[i + 1] ys[i + 2]| ≤ Y / 2 ^ 42 := by
  have hv : (ts.map fin).map F64.val = ts := by
    rw [List.map_map]
    exact List.map_id ts
  have hfin : ∀ x ∈ ts.map fin, ∃ q, x = fin q := by
    intro x hx
    obtain ⟨q, _, rfl⟩ := List.mem_map.1 hx
    exact ⟨q, rfl⟩
  have w := cmr_window (Arith.ord_f64 pow) (t := fin t) ⟨t, rfl⟩ ht hy (by simpa using hl) (by simpa using hlim) hfin
    (by rw [hv]; exact hi) h1 (by simpa using h2) (by simpa [F64.val] using ht1) (by simpa [F64.val] using ht2)
  simp only [List.getElem_map] at w
  have o0 := (hi (i - 1) i (by omega) (by omega) (by omega)).le
  have o2 := (hi (i + 1) (i + 2) (by omega) (by omega) (by omega)).le
  obtain ⟨z, z1, z2, _⟩ := formula_off hp ⟨hY.1, hY.2⟩ (t := t) ⟨hh, le_trans (by linarith) hD⟩ ⟨hh.trans (by linarith), hD⟩
    ⟨hh.trans (by linarith), hD'⟩ o0 ht1 ht2.le o2 b0 b1 b2 b3
  rw [formula_hermite] at z2
  refine ⟨z, by rw [w, z1], z2.trans ?_⟩
  have : 0 ≤ Y := (abs_nonneg _).trans b0
  have e : ((51 : Nat) : ℚ) * (23 * Y) / 2 ^ 53 = (1173 / 2 ^ 53) * Y := by push_cast; ring
  rw [e, show Y / 2 ^ 42 = 1 / 2 ^ 42 * Y by ring]
  exact mul_le_mul_of_nonneg_right (by norm_num) this

/-- Points that are not on a straight line. -/
example : ∃ z, cmrInternal (Arith.f64 powRounded) (fin (5 / 4)) (listView [fin 0, fin 1, fin 2, fin 5]) (listView [fin 0, fin 1, fin 4, fin 25])
    = .ok (fin z) ∧ |z - hermite (5 / 4) 0 1 2 5 0 1 4 25| ≤ 25 / 2 ^ 42 :=
  C55_binary64_partial (ts := [0, 1, 2, 5]) (ys := [0, 1, 4, 25]) (i := 1) (t := 5 / 4) (Y := 25) powRounded_ulp
    (listView_is [fin 0, fin 1, fin 2, fin 5]) (listView_is [fin 0, fin 1, fin 4, fin 25]) rfl (by decide)
    (increasing_iff.mpr (by decide +kernel)) (by decide) (by decide) (by decide +kernel) (by decide +kernel)
    (by decide +kernel) (by decide +kernel) (by decide +kernel) (by decide +kernel) (by decide +kernel) (by decide +kernel)
    (by decide +kernel) (by decide +kernel)

/-- C55 in binary64 for points on a straight line (partial as before): the result is off from the line by at most `2^(-42)` times the
largest of the four values. -/
theorem C55_line_binary64_partial {pow : F64 → Nat → F64} (hp : PowUlp pow) {time par : View F64} {ts ys : List ℚ}
    (ht : time.Is (ts.map fin)) (hy : par.Is (ys.map fin)) (hl : ts.length = ys.length) (hlim : ts.length < 2147483648)
    (hi : Increasing ts) {a b : ℚ} (hab : ∀ j (hj : j < ts.length), ys[j] = a + b * ts[j]) {i : Nat} (h1 : 1 ≤ i)
    (h2 : i + 2 < ts.length) {t Y : ℚ} (ht1 : ts[i] ≤ t) (ht2 : t < ts[i + 1]) (hY : 1 / 2 ^ 200 ≤ Y ∧ Y ≤ 2 ^ 200)
    (b0 : |ys[i - 1]| ≤ Y) (b1 : |ys[i]| ≤ Y) (b2 : |ys[i + 1]| ≤ Y) (b3 : |ys[i + 2]| ≤ Y) (hh : 1 / 2 ^ 200 ≤ ts[i + 1] - ts[i])
    (hD : ts[i + 1] - ts[i - 1] ≤ 2 ^ 200) (hD' : ts[i + 2] - ts[i] ≤ 2 ^ 200) :
    ∃ z, cmrInternal (Arith.f64 pow) (fin t) time par = .ok (fin z) ∧ |z - (a + b * t)| ≤ Y / 2 ^ 42 := by
  obtain ⟨z, z1, z2⟩ := C55_binary64_partial hp ht hy hl hlim hi h1 h2 ht1 ht2 hY b0 b1 b2 b3 hh hD hD'
  have e := (C55_local_partial (listView_is ts) (listView_is ys) hl hlim hi h1 h2 ht1 ht2).symm.trans
    (C55_affine_partial (listView_is ts) (listView_is ys) hl hlim hi hab h1 h2 ht1 ht2)
  refine ⟨z, z1, ?_⟩
  rw [← Out.ok.inj e]
  exact z2

/-- The points of `C55_false_rounding`: the value at `65/64` is not exact, but close to `65/64`. -/
example : ∃ z, cmrInternal (Arith.f64 powRounded) (fin (65 / 64)) (listView [fin 0, fin 1, fin 4, fin 5]) (listView [fin 0, fin 1, fin 4, fin 5])
    = .ok (fin z) ∧ |z - (0 + 1 * (65 / 64))| ≤ 5 / 2 ^ 42 :=
  C55_line_binary64_partial (ts := [0, 1, 4, 5]) (ys := [0, 1, 4, 5]) (i := 1) (t := 65 / 64) (Y := 5) powRounded_ulp
    (listView_is [fin 0, fin 1, fin 4, fin 5]) (listView_is [fin 0, fin 1, fin 4, fin 5]) rfl (by decide)
    (increasing_iff.mpr (by decide +kernel)) (fun j _ => by ring) (by decide) (by decide) (by decide +kernel) (by decide +kernel)
    (by decide +kernel) (by decide +kernel) (by decide +kernel) (by decide +kernel) (by decide +kernel) (by decide +kernel)
    (by decide +kernel) (by decide +kernel)

end ETR
