import Verif.Props.Alloc

/-! Functions that create vectors, continued: `colon`, `coca` and the warnings, C48 to C51. -/

namespace ETR
open Spec Store
variable {V : Type}

/-! ## C48 `colon` of integers -/

theorem ckI32_ub {n : Int} (h : ¬ InI32 n) : ckI32 n = .ub .intOverflow := if_neg h

/-- A loop whose last step is undefined. -/
theorem seqLoop_ub {T : Type} {go : T → Bool} {step : T → Out T} {f : Nat → T} {k : Nat} {u : UB}
    (hgo : ∀ i, i ≤ k → go (f i) = true) (hstep : ∀ i, i < k → step (f i) = .ok (f (i + 1)))
    (hend : step (f k) = .ub u) {h : Heap T} {mp : MP} {r : Heap T × Store} {l : List T} (R : Ret h r l mp)
    (hl : l.length = k + 1) : ∃ r', seqLoop go step (k + 1 + 1) (f 0) 0 r = (.ub u, r') := by
  suffices H : ∀ (m j : Nat) {r : Heap T × Store} {l : List T}, Ret h r l mp → l.length = k + 1 → j + m = k →
      ∃ r', seqLoop go step (m + 1 + 1) (f j) j r = (.ub u, r') by
    exact H k 0 R hl (by omega)
  intro m
  induction m with
  | zero =>
    intro j r l R hl hj
    have : j = k := by omega
    subst this
    obtain ⟨r1, e1, R1⟩ := R.set (i := j) (f j) (by omega)
    refine ⟨r1, ?_⟩
    rw [seqLoop]
    simp only [hgo j (le_refl _), if_true]
    rw [M.bind_ok e1, M.bind_ub (m := M.lift (step (f j))) (k := u) (s' := r1) (by rw [hend]; rfl)]
  | succ m ih =>
    intro j r l R hl hj
    obtain ⟨r1, e1, R1⟩ := R.set (i := j) (f j) (by omega)
    obtain ⟨r2, e2⟩ := ih (j + 1) R1 (by simpa using hl) (by omega)
    refine ⟨r2, ?_⟩
    rw [seqLoop]
    simp only [hgo j (by omega), if_true]
    rw [M.bind_ok e1, M.bind_ok (m := M.lift (step (f j))) (a := f (j + 1)) (by rw [hstep j (by omega)]; rfl), e2]

/-- The integers at which the computation of `colon(a, b)` does not overflow. -/
def ColonFits (a b : Int) : Prop :=
  |b - a| + 1 < 2147483648 ∧ (a < b → b ≠ 2147483647) ∧ (b ≤ a → b ≠ -2147483648)

theorem sizeI {d : Int} (h1 : 1 ≤ d) (h2 : d < 2147483648) (ws : List String) :
    convertSize (.s (.i d)) ws = (.ok d.toNat, ws) := by
  simp only [convertSize]
  rw [M.bind_ok (M.ass_pos h1 _)]
  show (Out.ok (wrap64 d), ws) = _
  obtain ⟨k, rfl⟩ := Int.eq_ofNat_of_zero_le (show 0 ≤ d by omega)
  rw [wrap64_small (by omega)]
  rfl

/-- C48 where nothing overflows. -/
theorem C48_partial {a b : Int} (ha : InI32 a) (hb : InI32 b) (hf : ColonFits a b) {h : Heap Int}
    (hs : h.sched = []) (ws : List String) : Returns (colonI a b) h ws ws (intSeq a b) {} := by
  obtain ⟨h1, h2, h3⟩ := hf
  unfold InI32 at ha hb
  by_cases hab : a < b
  · have h2 := h2 hab
    rw [abs_of_nonneg (by omega)] at h1
    obtain ⟨r, er, R⟩ := ctorSize_spec (zero := (0 : Int)) hs (n := (b - a + 1).toNat) (by omega) (by omega)
    obtain ⟨r', el, R'⟩ := seqLoop_ok (go := fun x => decide (x ≤ b)) (step := fun x => ckI32 (x + 1))
      (f := fun (i : Nat) => a + (i : Int)) (k := (b - a + 1).toNat)
      (fun i hi => by simp only [decide_eq_true_eq]; omega)
      (fun i hi => by rw [ckI32_ok (by unfold InI32; omega)]; congr 1; push_cast; omega)
      (by simp only [decide_eq_false_iff_not]; omega) R (by simp)
    have : intSeq a b = (List.range (b - a + 1).toNat).map (fun (i : Nat) => a + (i : Int)) := by
      unfold intSeq; rw [if_pos (by omega)]
    rw [this]
    refine R'.returns ?_
    simp only [colonI, if_pos hab]
    rw [M.bind_ok (m := M.lift _) (a := b - a) (by rw [ckI32_ok (by unfold InI32; omega)]; rfl),
      M.bind_ok (m := M.lift _) (a := b - a + 1) (by rw [ckI32_ok (by unfold InI32; omega)]; rfl),
      M.bind_ok (sayM_ok (sizeI (by omega) (by omega) ws)), M.bind_ok (retM_ok er)]
    refine retM_ok ?_
    simpa using el
  · have h3 := h3 (by omega)
    rw [abs_of_nonpos (by omega)] at h1
    obtain ⟨r, er, R⟩ := ctorSize_spec (zero := (0 : Int)) hs (n := (a - b + 1).toNat) (by omega) (by omega)
    obtain ⟨r', el, R'⟩ := seqLoop_ok (go := fun x => decide (b ≤ x)) (step := fun x => ckI32 (x - 1))
      (f := fun (i : Nat) => a - (i : Int)) (k := (a - b + 1).toNat)
      (fun i hi => by simp only [decide_eq_true_eq]; omega)
      (fun i hi => by rw [ckI32_ok (by unfold InI32; omega)]; congr 1; push_cast; omega)
      (by simp only [decide_eq_false_iff_not]; omega) R (by simp)
    have : intSeq a b = (List.range (a - b + 1).toNat).map (fun (i : Nat) => a - (i : Int)) := by
      unfold intSeq
      split
      · have : a = b := by omega
        subst this
        simp
      · rfl
    rw [this]
    refine R'.returns ?_
    simp only [colonI, if_neg hab]
    rw [M.bind_ok (m := M.lift _) (a := a - b) (by rw [ckI32_ok (by unfold InI32; omega)]; rfl),
      M.bind_ok (m := M.lift _) (a := a - b + 1) (by rw [ckI32_ok (by unfold InI32; omega)]; rfl),
      M.bind_ok (sayM_ok (sizeI (by omega) (by omega) ws)), M.bind_ok (retM_ok er)]
    refine retM_ok ?_
    simpa using el

example : Returns (colonI 3 (-2)) Heap.empty [] [] [3, 2, 1, 0, -1, -2] {} :=
  C48_partial (by decide) (by decide) ⟨by decide, by decide, by decide⟩ rfl []

/-- Everywhere else the call overflows, which is undefined. -/
theorem C48_characterised {a b : Int} (ha : InI32 a) (hb : InI32 b) {h : Heap Int} (hs : h.sched = [])
    (ws : List String) :
    (∃ st, colonI a b (ws, (h, {})) = (.ub .intOverflow, st)) ↔ ¬ ColonFits a b := by
  constructor
  · rintro ⟨st, e⟩ hf
    obtain ⟨h', d, e', _⟩ := C48_partial ha hb hf hs ws
    rw [e] at e'
    cases congrArg Prod.fst e'
  · intro hf
    unfold InI32 at ha hb
    by_cases hab : a < b
    · by_cases h1 : b - a < 2147483648
      · by_cases h2 : b - a + 1 < 2147483648
        · have h3 : b = 2147483647 := by
            by_contra h3
            refine hf ⟨?_, fun _ => h3, fun _ => by omega⟩
            rw [abs_of_nonneg (by omega)]; exact h2
          obtain ⟨r, er, R⟩ := ctorSize_spec (zero := (0 : Int)) hs (n := (b - a + 1).toNat) (by omega) (by omega)
          have hk : (b - a + 1).toNat = (b - a).toNat + 1 := by omega
          obtain ⟨r', el⟩ := seqLoop_ub (u := .intOverflow) (go := fun x => decide (x ≤ b))
            (step := fun x => ckI32 (x + 1))
            (f := fun (i : Nat) => a + (i : Int)) (k := (b - a).toNat)
            (fun i hi => by simp only [decide_eq_true_eq]; omega)
            (fun i hi => by rw [ckI32_ok (by unfold InI32; omega)]; congr 1; push_cast; omega)
            (by rw [ckI32_ub (by unfold InI32; omega)]) R (by simp; omega)
          refine ⟨(ws, r'), ?_⟩
          simp only [colonI, if_pos hab]
          rw [M.bind_ok (m := M.lift _) (a := b - a) (by rw [ckI32_ok (by unfold InI32; omega)]; rfl),
            M.bind_ok (m := M.lift _) (a := b - a + 1) (by rw [ckI32_ok (by unfold InI32; omega)]; rfl),
            M.bind_ok (sayM_ok (sizeI (by omega) (by omega) ws)), M.bind_ok (retM_ok er)]
          refine retM_ok ?_
          rw [hk]
          simpa using el
        · refine ⟨(ws, (h, {})), ?_⟩
          simp only [colonI, if_pos hab]
          rw [M.bind_ok (m := M.lift _) (a := b - a) (by rw [ckI32_ok (by unfold InI32; omega)]; rfl),
            M.bind_ub (m := M.lift _) (k := .intOverflow) (by rw [ckI32_ub (by unfold InI32; omega)]; rfl)]
      · refine ⟨(ws, (h, {})), ?_⟩
        simp only [colonI, if_pos hab]
        rw [M.bind_ub (m := M.lift _) (k := .intOverflow) (by rw [ckI32_ub (by unfold InI32; omega)]; rfl)]
    · by_cases h1 : a - b < 2147483648
      · by_cases h2 : a - b + 1 < 2147483648
        · have h3 : b = -2147483648 := by
            by_contra h3
            refine hf ⟨?_, fun _ => by omega, fun _ => h3⟩
            rw [abs_of_nonpos (by omega)]; omega
          obtain ⟨r, er, R⟩ := ctorSize_spec (zero := (0 : Int)) hs (n := (a - b + 1).toNat) (by omega) (by omega)
          have hk : (a - b + 1).toNat = (a - b).toNat + 1 := by omega
          obtain ⟨r', el⟩ := seqLoop_ub (u := .intOverflow) (go := fun x => decide (b ≤ x))
            (step := fun x => ckI32 (x - 1))
            (f := fun (i : Nat) => a - (i : Int)) (k := (a - b).toNat)
            (fun i hi => by simp only [decide_eq_true_eq]; omega)
            (fun i hi => by rw [ckI32_ok (by unfold InI32; omega)]; congr 1; push_cast; omega)
            (by rw [ckI32_ub (by unfold InI32; omega)]) R (by simp; omega)
          refine ⟨(ws, r'), ?_⟩
          simp only [colonI, if_neg hab]
          rw [M.bind_ok (m := M.lift _) (a := a - b) (by rw [ckI32_ok (by unfold InI32; omega)]; rfl),
            M.bind_ok (m := M.lift _) (a := a - b + 1) (by rw [ckI32_ok (by unfold InI32; omega)]; rfl),
            M.bind_ok (sayM_ok (sizeI (by omega) (by omega) ws)), M.bind_ok (retM_ok er)]
          refine retM_ok ?_
          rw [hk]
          simpa using el
        · refine ⟨(ws, (h, {})), ?_⟩
          simp only [colonI, if_neg hab]
          rw [M.bind_ok (m := M.lift _) (a := a - b) (by rw [ckI32_ok (by unfold InI32; omega)]; rfl),
            M.bind_ub (m := M.lift _) (k := .intOverflow) (by rw [ckI32_ub (by unfold InI32; omega)]; rfl)]
      · refine ⟨(ws, (h, {})), ?_⟩
        simp only [colonI, if_neg hab]
        rw [M.bind_ub (m := M.lift _) (k := .intOverflow) (by rw [ckI32_ub (by unfold InI32; omega)]; rfl)]

example : (∃ st, colonI 2147483646 2147483647 ([], (Heap.empty, {})) = (.ub .intOverflow, st)) ∧
    ¬ ∃ st, colonI 2 5 ([], (Heap.empty, {})) = (.ub .intOverflow, st) :=
  ⟨(C48_characterised (by decide) (by decide) rfl []).mpr (fun h => h.2.1 (by decide) rfl),
   fun h => (C48_characterised (by decide) (by decide) rfl []).mp h ⟨by decide, by decide, by decide⟩⟩

/-- C48 is false: `colon(2147483646, 2147483647)`, `colon(-2147483648, -2147483648)` and
`colon(-2147483648, 0)` overflow. -/
theorem C48_false :
    (colonI 2147483646 2147483647 ([], (Heap.empty, {}))).1 = .ub .intOverflow ∧
    (colonI (-2147483648) (-2147483648) ([], (Heap.empty, {}))).1 = .ub .intOverflow ∧
    (colonI (-2147483648) 0 ([], (Heap.empty, {}))).1 = .ub .intOverflow := by
  decide +kernel

example : ColonFits 3 (-2) ∧ intSeq 3 (-2) = [3, 2, 1, 0, -1, -2] ∧ intSeq 4 6 = [4, 5, 6] := by
  refine ⟨⟨by decide, by decide, by decide⟩, by decide, by decide⟩

/-! ## C49 `colon` of doubles -/

/-- The number `m / 2^p` with `|m| ≤ 2^53` is exact. -/
theorem rnd_grid {m : Int} {p : Nat} (hm : |m| ≤ 2 ^ 53) (hp : p ≤ 53) :
    F64.rnd ((m : ℚ) / 2 ^ p) = .fin ((m : ℚ) / 2 ^ p) := by
  have e : (m : ℚ) / 2 ^ p = (m : ℚ) * F64.pow2 (-(p : Int)) := by
    rw [F64.pow2_eq, zpow_neg, zpow_natCast, div_eq_mul_inv]
  have h1 := F64.rndQ_exact (m := m) (k := -(p : Int)) hm (by omega)
  rw [← e] at h1
  unfold F64.rnd
  simp only [h1]
  rw [if_neg]
  rw [not_le, abs_div]
  have h2 : |(m : ℚ)| ≤ 2 ^ 53 := by exact_mod_cast hm
  have h3 : (1 : ℚ) ≤ |2 ^ p| := by
    rw [abs_of_nonneg (by positivity)]
    exact one_le_pow₀ (by norm_num)
  have h4 : |(m : ℚ)| / |2 ^ p| ≤ |(m : ℚ)| := div_le_self (abs_nonneg _) h3
  have h5 : (2 : ℚ) ^ 53 < F64.pow2 1024 := by
    have : F64.pow2 1024 = (2 : ℚ) ^ 1024 := F64.pow2_natCast 1024
    rw [this]
    exact pow_lt_pow_right₀ (by norm_num) (by norm_num)
  linarith

/-- C49 where no rounding takes place: both numbers are multiples of `2^-p`, and they and their distance
are so small that the multiples of `2^-p` are still exact one step further.  Missing: numbers for which the
steps are rounded, see `C49_false`. -/
theorem C49_partial {m n : Int} {p : Nat} (hp : p ≤ 53) (hm : |m| + 2 ^ p ≤ 2 ^ 53) (hn : |n| + 2 ^ p ≤ 2 ^ 53)
    (hd : |n - m| + 2 ^ p ≤ 2 ^ 53) {a b : ℚ} (ha : a = m / 2 ^ p) (hb : b = n / 2 ^ p)
    (hr : |b - a| + 1 < 2147483648) {h : Heap F64} (hs : h.sched = []) (ws : List String) :
    ∃ ws' l, Returns (colonD (.fin a) (.fin b)) h ws ws' l {} ∧ l.length = ⌊|b - a| + 1⌋.toNat ∧
      (∀ i, i < l.length → l[i]? = some (.fin (if a ≤ b then a + i else a - i))) ∧
      ∀ x ∈ l, ∃ q, x = F64.fin q ∧ min a b ≤ q ∧ q ≤ max a b := by
  have hP : (0 : ℚ) < 2 ^ p := by positivity
  have hPi : (0 : Int) < 2 ^ p := by positivity
  -- exactness of the numbers that occur
  have hex : ∀ (q : ℚ) (k : Int), q = k / 2 ^ p → |k| ≤ 2 ^ 53 → F64.rnd q = .fin q := by
    rintro q k rfl hk
    exact rnd_grid hk hp
  have hsub : ∀ x y : ℚ, ∀ k : Int, x - y = k / 2 ^ p → |k| ≤ 2 ^ 53 →
      F64.sub (.fin x) (.fin y) = .fin (x - y) := by
    intro x y k e hk
    show F64.rnd (x + -y) = _
    rw [← sub_eq_add_neg]
    exact hex _ k e hk
  have hM : ((m : ℚ)) = a * 2 ^ p := by rw [ha]; field_simp
  have hN : ((n : ℚ)) = b * 2 ^ p := by rw [hb]; field_simp
  have hmm := abs_le.mp (show |m| ≤ 2 ^ 53 - 2 ^ p by linarith)
  have hnn := abs_le.mp (show |n| ≤ 2 ^ 53 - 2 ^ p by linarith)
  have hdd := abs_le.mp (show |n - m| ≤ 2 ^ 53 - 2 ^ p by linarith)
  by_cases hab : a < b
  · have habs : |b - a| = b - a := abs_of_pos (by linarith)
    rw [habs] at hr ⊢
    have hq1 : (1 : ℚ) ≤ b - a + 1 := by linarith
    obtain ⟨fw, _, ec⟩ := convertSizeD_eq (q := b - a + 1) (by linarith) hr ws
    rw [if_pos hq1] at ec
    have hfl := floor_toNat hq1
    generalize hk : ⌊b - a + 1⌋.toNat = k at *
    have hk1 : (k : ℚ) ≤ b - a + 1 := by
      have := Int.floor_le (b - a + 1); rw [← hfl] at this; exact_mod_cast this
    have hk2 : b - a + 1 < k + 1 := by
      have := Int.lt_floor_add_one (b - a + 1); rw [← hfl] at this; exact_mod_cast this
    have hkpos : 1 ≤ k := by
      have : 1 ≤ ⌊b - a + 1⌋ := by rw [Int.le_floor]; exact_mod_cast hq1
      omega
    have hklt : k < 2147483648 := by
      have : (k : ℚ) < 2147483648 := by linarith
      exact_mod_cast this
    have e1 : F64.sub (.fin b) (.fin a) = .fin (b - a) :=
      hsub b a (n - m) (by push_cast; rw [ha, hb]; field_simp) (abs_le.mpr ⟨by linarith, by linarith⟩)
    have e2 : F64.add (.fin (b - a)) (.fin 1) = .fin (b - a + 1) :=
      hex _ (n - m + 2 ^ p) (by push_cast; rw [ha, hb]; field_simp) (by
        have hge : m ≤ n := by
          have : (m : ℚ) ≤ n := by rw [hM, hN]; exact mul_le_mul_of_nonneg_right hab.le hP.le
          exact_mod_cast this
        exact abs_le.mpr ⟨by linarith, by linarith⟩)
    obtain ⟨r, er, R⟩ := ctorSize_spec (zero := F64.fin 0) hs hkpos (by omega)
    obtain ⟨r', el, R'⟩ := seqLoop_ok (go := fun x => F64.le x (.fin b))
      (step := fun x => .ok (F64.add x (.fin 1))) (f := fun (i : Nat) => F64.fin (a + (i : ℚ))) (k := k)
      (fun i hi => by
        have : (i : ℚ) + 1 ≤ k := by exact_mod_cast hi
        simp only [F64.le, decide_eq_true_eq]; linarith)
      (fun i hi => by
        have hi' : (i : ℚ) + 1 ≤ k := by exact_mod_cast hi
        have : F64.add (.fin (a + (i : ℚ))) (.fin 1) = .fin (a + (i : ℚ) + 1) :=
          hex _ (m + (i + 1) * 2 ^ p) (by push_cast; rw [ha]; field_simp; ring) (by
            have h1 : m + (i + 1) * 2 ^ p ≤ n + 2 ^ p := by
              have : (m : ℚ) + (i + 1) * 2 ^ p ≤ n + 2 ^ p := by
                rw [hM, hN]
                have := mul_le_mul_of_nonneg_right (show a + (i + 1) ≤ b + 1 by linarith) hP.le
                linarith
              exact_mod_cast this
            have h2 : 0 ≤ ((i : Int) + 1) * 2 ^ p := by positivity
            exact abs_le.mpr ⟨by linarith, by linarith⟩)
        rw [this]
        congr 2
        push_cast; ring)
      (by simp only [F64.le, decide_eq_false_iff_not]; linarith) R (by simp)
    refine ⟨ws ++ fw, _, R'.returns ?_, by simp, ?_, ?_⟩
    · have hlt : F64.lt (.fin a) (.fin b) = true := by simpa [F64.lt] using hab
      unfold colonD
      rw [if_pos hlt, e1, e2, M.bind_ok (sayM_ok ec), M.bind_ok (retM_ok er)]
      refine retM_ok ?_
      simpa using el
    · intro i hi
      simp only [List.length_map, List.length_range] at hi
      rw [if_pos hab.le]
      simp [hi]
    · intro x hx
      simp only [List.mem_map, List.mem_range] at hx
      obtain ⟨i, hi, rfl⟩ := hx
      have hi' : (i : ℚ) + 1 ≤ k := by exact_mod_cast hi
      have hi0 : (0 : ℚ) ≤ i := by positivity
      exact ⟨_, rfl, by rw [min_eq_left hab.le]; linarith, by rw [max_eq_right hab.le]; linarith⟩
  · have hba : b ≤ a := not_lt.mp hab
    have habs : |b - a| = a - b := by rw [abs_sub_comm]; exact abs_of_nonneg (by linarith)
    rw [habs] at hr ⊢
    have hq1 : (1 : ℚ) ≤ a - b + 1 := by linarith
    obtain ⟨fw, _, ec⟩ := convertSizeD_eq (q := a - b + 1) (by linarith) hr ws
    rw [if_pos hq1] at ec
    have hfl := floor_toNat hq1
    generalize hk : ⌊a - b + 1⌋.toNat = k at *
    have hk1 : (k : ℚ) ≤ a - b + 1 := by
      have := Int.floor_le (a - b + 1); rw [← hfl] at this; exact_mod_cast this
    have hk2 : a - b + 1 < k + 1 := by
      have := Int.lt_floor_add_one (a - b + 1); rw [← hfl] at this; exact_mod_cast this
    have hkpos : 1 ≤ k := by
      have : 1 ≤ ⌊a - b + 1⌋ := by rw [Int.le_floor]; exact_mod_cast hq1
      omega
    have hklt : k < 2147483648 := by
      have : (k : ℚ) < 2147483648 := by linarith
      exact_mod_cast this
    have e1 : F64.sub (.fin a) (.fin b) = .fin (a - b) :=
      hsub a b (m - n) (by push_cast; rw [ha, hb]; field_simp) (abs_le.mpr ⟨by linarith, by linarith⟩)
    have e2 : F64.add (.fin (a - b)) (.fin 1) = .fin (a - b + 1) :=
      hex _ (m - n + 2 ^ p) (by push_cast; rw [ha, hb]; field_simp) (by
        have hge : n ≤ m := by
          have : (n : ℚ) ≤ m := by rw [hM, hN]; exact mul_le_mul_of_nonneg_right hba hP.le
          exact_mod_cast this
        exact abs_le.mpr ⟨by linarith, by linarith⟩)
    obtain ⟨r, er, R⟩ := ctorSize_spec (zero := F64.fin 0) hs hkpos (by omega)
    obtain ⟨r', el, R'⟩ := seqLoop_ok (go := fun x => F64.le (.fin b) x)
      (step := fun x => .ok (F64.sub x (.fin 1))) (f := fun (i : Nat) => F64.fin (a - (i : ℚ))) (k := k)
      (fun i hi => by
        have : (i : ℚ) + 1 ≤ k := by exact_mod_cast hi
        simp only [F64.le, decide_eq_true_eq]; linarith)
      (fun i hi => by
        have hi' : (i : ℚ) + 1 ≤ k := by exact_mod_cast hi
        have : F64.sub (.fin (a - (i : ℚ))) (.fin 1) = .fin (a - (i : ℚ) - 1) :=
          hsub _ _ (m - (i + 1) * 2 ^ p) (by push_cast; rw [ha]; field_simp; ring) (by
            have h1 : n - 2 ^ p ≤ m - (i + 1) * 2 ^ p := by
              have : (n : ℚ) - 2 ^ p ≤ m - (i + 1) * 2 ^ p := by
                rw [hM, hN]
                have := mul_le_mul_of_nonneg_right (show b - 1 ≤ a - (i + 1) by linarith) hP.le
                linarith
              exact_mod_cast this
            have h2 : 0 ≤ ((i : Int) + 1) * 2 ^ p := by positivity
            exact abs_le.mpr ⟨by linarith, by linarith⟩)
        rw [this]
        congr 2
        push_cast; ring)
      (by simp only [F64.le, decide_eq_false_iff_not]; linarith) R (by simp)
    refine ⟨ws ++ fw, _, R'.returns ?_, by simp, ?_, ?_⟩
    · have hlt : ¬ F64.lt (.fin a) (.fin b) = true := by simpa [F64.lt] using hab
      unfold colonD
      rw [if_neg hlt, e1, e2, M.bind_ok (sayM_ok ec), M.bind_ok (retM_ok er)]
      refine retM_ok ?_
      simpa using el
    · intro i hi
      simp only [List.length_map, List.length_range] at hi
      by_cases h2 : a ≤ b
      · have : a = b := le_antisymm h2 hba
        have hi0 : i = 0 := by
          have : (i : ℚ) + 1 ≤ k := by exact_mod_cast hi
          have : (i : ℚ) < 1 := by linarith
          have : i < 1 := by exact_mod_cast this
          omega
        subst hi0
        have : 0 < k := hkpos
        simp [this]
      · rw [if_neg h2]
        simp [hi]
    · intro x hx
      simp only [List.mem_map, List.mem_range] at hx
      obtain ⟨i, hi, rfl⟩ := hx
      have hi' : (i : ℚ) + 1 ≤ k := by exact_mod_cast hi
      have hi0 : (0 : ℚ) ≤ i := by positivity
      exact ⟨_, rfl, by rw [min_eq_right hba]; linarith, by rw [max_eq_left hba]; linarith⟩

/-- C49 is false: `colon(1.566, 2.566)` throws, because the length is computed as 1 but two numbers are written;
`colon(-2.82, 0.18)` has four elements although only three are written, and the last one is 0, which is not
in the sequence. -/
theorem C49_false :
    (colonD (F64.rnd (1566 / 1000)) (F64.rnd (2566 / 1000)) ([], (Heap.empty, {}))).1
      = .thr "Error: out of boundaries --> value beyond size of vector" ∧
    (let st := (colonD (F64.rnd (-282 / 100)) (F64.rnd (18 / 100)) ([], (Heap.empty, {}))).2.2
     st.2.sz = 4 ∧ st.1.load st.2.p 3 = .ok (.fin 0)) := by
  decide +kernel

example : ∃ ws' l, Returns (colonD (.fin (-1 / 2)) (.fin (9 / 4))) Heap.empty [] ws' l {} ∧ l.length = 3 := by
  obtain ⟨ws', l, r, hl, _⟩ := C49_partial (m := -2) (n := 9) (p := 2) (by norm_num) (by norm_num) (by norm_num)
    (by norm_num) (a := -1 / 2) (b := 9 / 4) (by norm_num) (by norm_num) (by norm_num) (h := Heap.empty) rfl []
  exact ⟨ws', l, r, hl.trans (by norm_num; rfl)⟩

/-! ## C50 `coca` -/

/-- The argument has the elements `l`, which have the element type of the argument. -/
def CoArg.Holds (env : Env Scal) : CoArg → List Scal → Prop
  | .scal v, l => l = [v]
  | .vec t e, l => Denotes env e l ∧ ∀ v ∈ l, v.ty = t

theorem determineType_eq (a : CoArg) (rest : List CoArg) :
    determineType a rest = widest ((a :: rest).map CoArg.ty) := by
  induction rest generalizing a with
  | nil => simp only [determineType, List.map_cons, List.map_nil]; cases a.ty <;> rfl
  | cons b rest ih =>
    rw [determineType, ih b, List.map_cons (a := a)]
    generalize (b :: rest).map CoArg.ty = ts
    generalize a.ty = t
    unfold widest
    cases t <;> by_cases h1 : Ty.double ∈ ts <;> by_cases h2 : Ty.int ∈ ts <;> simp [h1, h2, Ty.common]

theorem to_widen {t : Ty} {v : Scal} (h : rank v.ty ≤ rank t) : v.to t = .ok (widen t v) := by
  cases v <;> cases t <;> simp [Scal.ty, rank] at h <;> rfl

theorem rank_widest {ts : List Ty} {t : Ty} (h : t ∈ ts) : rank t ≤ rank (widest ts) := by
  unfold widest
  cases t
  · simp [rank]
  · split
    · simp [rank]
    · simp
  · rw [if_pos h]

theorem cocaSize_ok {env : Env Scal} {args : List CoArg} {ls : List (List Scal)}
    (h : List.Forall₂ (CoArg.Holds env) args ls) :
    ∀ {n : Nat}, n + ls.flatten.length < 2147483648 →
      cocaSize env args n = .ok ((n + ls.flatten.length : Nat) : Int) := by
  induction h with
  | nil => intro n _; simp [cocaSize]
  | @cons a l args ls ha _ ih =>
    intro n hn
    simp only [List.flatten_cons, List.length_append] at hn ⊢
    cases a with
    | scal v =>
      have : l = [v] := ha
      subst this
      simp only [List.length_singleton] at hn ⊢
      simp only [cocaSize]
      have := ih (n := n + 1) (by omega)
      rw [ckI32_ok (by unfold InI32; omega)]
      show cocaSize env args ((n : Int) + 1) = _
      rw [show (n : Int) + 1 = ((n + 1 : Nat) : Int) by push_cast; rfl, this]
      congr 2; omega
    | vec t e =>
      obtain ⟨hd, _⟩ := ha
      simp only [cocaSize]
      have hw : wrapI32 (wrap64 ((n : Int) + (e.size env : Int))) = ((n + l.length : Nat) : Int) := by
        rw [hd.1, show (n : Int) + (l.length : Int) = ((n + l.length : Nat) : Int) by push_cast; rfl,
          wrap64_small (by omega)]
        unfold wrapI32
        simp only []
        split <;> omega
      rw [hw, ih (n := n + l.length) (by omega)]
      congr 2; omega

theorem cocaFill_ok {env : Env Scal} {t : Ty} {h : Heap Scal} {mp : MP} {args : List CoArg}
    {ls : List (List Scal)} (hh : List.Forall₂ (CoArg.Holds env) args ls)
    (ht : ∀ a ∈ args, rank a.ty ≤ rank t) :
    ∀ {k : Nat} {r : Heap Scal × Store} {l : List Scal}, Ret h r l mp → k + ls.flatten.length = l.length →
      l.length < 2147483648 →
      ∃ r', cocaFill env t args k r = (.ok (), r') ∧ Ret h r' (l.take k ++ ls.flatten.map (widen t)) mp := by
  induction hh with
  | nil =>
    intro k r l R hk _
    refine ⟨r, rfl, ?_⟩
    have : l.take k = l := List.take_of_length_le (by simp at hk; omega)
    simpa [this] using R
  | @cons a x args ls ha _ ih =>
    intro k r l R hk hlim
    have hts : ∀ a ∈ args, rank a.ty ≤ rank t := fun a ha => ht a (List.mem_cons_of_mem _ ha)
    have hat := ht a (by simp)
    simp only [List.flatten_cons, List.length_append] at hk
    suffices H : ∃ r1, Ret h r1 (l.take k ++ x.map (widen t) ++ l.drop (k + x.length)) mp ∧
        cocaFill env t (a :: args) k r = cocaFill env t args (k + x.length) r1 by
      obtain ⟨r1, R1, e1⟩ := H
      obtain ⟨r2, e2, R2⟩ := ih hts (k := k + x.length) R1
        (by simp only [List.length_append, List.length_take, List.length_map, List.length_drop]; omega)
        (by simp only [List.length_append, List.length_take, List.length_map, List.length_drop]; omega)
      refine ⟨r2, e1.trans e2, ?_⟩
      convert R2 using 1
      rw [List.take_left' (by simp; omega)]
      simp
    cases a with
    | scal v =>
      have : x = [v] := ha
      subst this
      obtain ⟨r1, e1, R1⟩ := R.set (i := k) (widen t v) (by simp at hk; omega)
      refine ⟨r1, ?_, ?_⟩
      · convert R1 using 1
        simp only [List.length_singleton] at hk
        rw [List.set_eq_take_append_cons_drop, if_pos (by omega)]
        simp
      · simp only [cocaFill]
        rw [M.bind_ok (m := M.lift (v.to t)) (a := widen t v) (by rw [to_widen hat]; rfl), M.bind_ok e1]
        rfl
    | vec t' e =>
      obtain ⟨hd, hty⟩ := ha
      obtain ⟨r1, e1, R1⟩ := Ret.loop (h := h) (mp := mp) x.length (k := k) (x := x.map (widen t)) (by simp)
        (body := fun i => do
          let v ← M.lift (e.el env i)
          let w ← M.lift (v.to t)
          Store.set (k + i) w)
        (fun i hi r => by
          have hi' : i < x.length := by simpa using hi
          rw [M.bind_ok (m := M.lift (e.el env i)) (a := x[i]) (by rw [hd.2 i hi']; rfl),
            M.bind_ok (m := M.lift _) (a := widen t x[i]) (by
              rw [to_widen (by rw [hty _ (List.getElem_mem hi')]; exact hat)]; rfl)]
          simp) R (by omega)
      refine ⟨r1, R1, ?_⟩
      simp only [cocaFill]
      rw [hd.1, if_pos (show x.length < 2147483648 by omega), M.bind_ok e1]

/-- C50: the elements of the arguments in their order, converted to the widest element type.  The total length is
at least 1 and fits into an `int`. -/
theorem C50_partial {env : Env Scal} {a : CoArg} {rest : List CoArg} {ls : List (List Scal)}
    (hh : List.Forall₂ (CoArg.Holds env) (a :: rest) ls) (h1 : 1 ≤ ls.flatten.length)
    (h2 : ls.flatten.length < 2147483648) {h : Heap Scal} (hs : h.sched = []) (ws : List String) :
    Returns (coca env a rest) h ws ws (ls.flatten.map (widen (widest ((a :: rest).map CoArg.ty)))) {} := by
  have e1 := cocaSize_ok hh (n := 0) (by omega)
  rw [Nat.zero_add] at e1
  have ht := determineType_eq a rest
  obtain ⟨r, er, R⟩ := ctorSize_spec (zero := (determineType a rest).zero) hs h1 (by omega)
  obtain ⟨r', el, R'⟩ := cocaFill_ok (t := determineType a rest) hh
    (fun b hb => by rw [ht]; exact rank_widest (List.mem_map_of_mem hb)) (k := 0) R (by simp) (by simpa using h2)
  rw [← ht]
  simp only [List.take_zero, List.nil_append] at R'
  refine R'.returns ?_
  simp only [coca]
  rw [M.bind_ok (m := M.lift _) (a := (ls.flatten.length : Int)) (by
      rw [show (0 : Int) = ((0 : Nat) : Int) from rfl, e1]; rfl),
    wrap64_small (by omega), M.bind_ok (retM_ok er)]
  exact retM_ok el

example : Returns (coca (listEnv [[.i 4, .i 5]]) (.scal (.b true)) [.vec .int (.leaf 0)]) Heap.empty [] [] [.i 1, .i 4, .i 5] {} :=
  C50_partial (env := listEnv [[.i 4, .i 5]]) (a := .scal (.b true)) (rest := [.vec .int (.leaf 0)]) (ls := [[.b true], [.i 4, .i 5]]) (.cons rfl (.cons ⟨⟨by decide, by decide⟩, by decide⟩ .nil)) (by decide) (by decide) rfl []

/-- C50 is false for the empty concatenation: it is rejected. -/
theorem C50_false_empty :
    let env : Env Scal := listEnv [[]]
    CoArg.Holds env (.vec .int (.leaf 0)) [] ∧
      (coca env (.vec .int (.leaf 0)) [] ([], (Heap.empty, {}))).1 = .thr "Size has to be larger than 0" := by
  refine ⟨⟨⟨rfl, by decide⟩, by decide⟩, by decide +kernel⟩

example : let env : Env Scal := listEnv [[.i 4, .i 5]]
    List.Forall₂ (CoArg.Holds env) [.scal (.b true), .vec .int (.leaf 0)] [[.b true], [.i 4, .i 5]] ∧
    ([[.b true], [.i 4, .i 5]] : List (List Scal)).flatten.map (widen (widest [.bool, .int]))
      = [.i 1, .i 4, .i 5] := by
  refine ⟨.cons rfl (.cons ⟨⟨by decide, by decide⟩, by decide⟩ .nil), by decide⟩

/-! ## C51 warnings -/

/-- C51 for `rep`: the warning is printed exactly if `times` is a vector with more than one element. -/
theorem C51_rep_partial {zero : V} (env : Env V) {times : SizeArg} {a : Num} (ha : times.First a) (fa : a.Fits)
    {k : Nat} (hk : asSize a = some k) (hlim : k < 2 ^ 59) {h : Heap V} (hs : h.sched = []) (v : V) :
    ∃ ws', Returns (rep zero env (.scal v) times) h [] ws' (List.replicate k v) {} ∧
      (timesMsg ∈ ws' ↔ ∃ n f, times = .vec n f ∧ 1 < n) := by
  obtain ⟨fw, hw, e1⟩ := firstSize_ok ha fa hk (repSays times)
  obtain ⟨st, es, R⟩ := ctorSize_spec (zero := zero) hs (asSize_pos hk) hlim
  obtain ⟨r', er, R'⟩ := R.fill v
  rw [List.length_replicate] at R'
  refine ⟨repSays times ++ fw, R'.returns ?_, ?_⟩
  · simp only [rep]
    rw [M.bind_ok (sayM_ok (repWarn_eq times [])), List.nil_append, M.bind_ok (sayM_ok e1), M.bind_ok (retM_ok es)]
    exact retM_ok er
  · have hne : timesMsg ∉ fw := by
      rcases hw with rfl | rfl
      · simp
      · decide +kernel
    rw [List.mem_append, or_iff_left hne]
    cases times with
    | one x => simp [repSays]
    | vec n f => by_cases h : n > 1 <;> simp [repSays, h]

/-- C51 for `rep` with a vector of values: the warning again depends on `times` alone. -/
theorem C51_rep_vector_partial {zero : V} (env : Env V) {times : SizeArg} {a : Num} (ha : times.First a) (fa : a.Fits)
    {k : Nat} (hk : asSize a = some k) {e : Expr V} {x : List V} (hd : Denotes env e x) (hx : x ≠ [])
    (hlim : k * x.length < 2 ^ 59) {h : Heap V} (hs : h.sched = []) :
    ∃ ws' l, Returns (rep zero env (.vec e) times) h [] ws' l {} ∧ l.length = x.length * k ∧
      (timesMsg ∈ ws' ↔ ∃ n f, times = .vec n f ∧ 1 < n) := by
  obtain ⟨fw, hw, e1⟩ := firstSize_ok ha fa hk (repSays times)
  have hxl : 0 < x.length := List.length_pos_iff.mpr hx
  have hpos : 1 ≤ k * x.length := Nat.mul_pos (asSize_pos hk) hxl
  obtain ⟨st, es, R⟩ := ctorSize_spec (zero := zero) hs hpos hlim
  obtain ⟨r', l', er, R', hl', _, _⟩ := repLoop_ok hd (k * x.length) 0 0 R (by simp) (fun _ => hxl)
  refine ⟨repSays times ++ fw, l', R'.returns ?_, by rw [hl', List.length_replicate, Nat.mul_comm], ?_⟩
  · simp only [rep]
    rw [M.bind_ok (sayM_ok (repWarn_eq times [])), List.nil_append, M.bind_ok (sayM_ok e1), hd.1,
      Nat.mod_eq_of_lt (show k * x.length < two64 by unfold two64; omega), M.bind_ok (retM_ok es)]
    exact retM_ok er
  · have hne : timesMsg ∉ fw := by
      rcases hw with rfl | rfl
      · simp
      · decide +kernel
    rw [List.mem_append, or_iff_left hne]
    cases times with
    | one x => simp [repSays]
    | vec n f => by_cases h : n > 1 <;> simp [repSays, h]

example : ∃ ws' l, Returns (rep 0 (listEnv [[1, 2, (3 : Int)]]) (.vec (.leaf 0)) (.vec 2 (.ok (.s (.i 2))))) Heap.empty []
    ws' l {} ∧ l.length = 6 ∧ timesMsg ∈ ws' := by
  obtain ⟨ws', l, r, hl, h⟩ := C51_rep_vector_partial (zero := 0) (listEnv [[1, 2, (3 : Int)]])
    (times := .vec 2 (.ok (.s (.i 2)))) (a := .s (.i 2)) (.inr ⟨2, rfl⟩) (by show InI32 2; decide) (k := 2)
    (by decide) (e := .leaf 0) (x := [1, 2, 3]) ⟨by decide, by decide⟩ (by simp) (by norm_num) (h := Heap.empty) rfl
  exact ⟨ws', l, r, hl, h.mpr ⟨2, _, rfl, by norm_num⟩⟩

/-- The warnings of `colon`. -/
def colonSays {T : Type} : CArg T → List String
  | .one _ => []
  | .vec n _ => if n = 1 then [] else [colonMsg]

theorem colonWarn_eq {T : Type} (a : CArg T) (ws : List String) : colonWarn a ws = (.ok (), ws ++ colonSays a) := by
  cases a with
  | one x => simp [colonWarn, colonSays]
  | vec n x => simp only [colonWarn, colonSays, warn_eq]; by_cases h : n = 1 <;> simp [h]

theorem kept_bind {σ α β : Type} {P : σ → Prop} {m : M σ α} {f : α → M σ β} (hm : ∀ s, P s → P (m s).2)
    (hf : ∀ a s, P s → P (f a s).2) : ∀ s, P s → P ((m >>= f) s).2 := by
  intro s hs
  rw [M.bind_apply]
  have := hm s hs
  rcases h : m s with ⟨o, s'⟩
  rw [h] at this
  cases o with
  | ok a => exact hf a s' this
  | thr e => exact this
  | ub k => exact this

/-- The sequence of doubles is built without the warning of `colon`. -/
theorem colonD_says {a b : F64} {ws ws' : List String} {r r' : Heap F64 × Store} {o : Out Unit}
    (h : colonD a b (ws, r) = (o, (ws', r'))) : colonMsg ∈ ws' ↔ colonMsg ∈ ws := by
  have hne : colonMsg ≠ fracMsg := by decide +kernel
  have conv : ∀ (x : F64) (s : List String), (colonMsg ∈ s ↔ colonMsg ∈ ws) → (colonMsg ∈ (convertSizeD x s).2 ↔ colonMsg ∈ ws) := by
    intro x
    refine kept_bind (fun s hs => by rw [M.lift_apply]; exact hs) (fun c => ?_)
    refine kept_bind (fun s hs => by rw [warn_eq]; cases c <;> simp [hne, hs]) (fun _ => ?_)
    refine kept_bind (fun s hs => ?_) (fun _ s hs => by rw [M.lift_apply]; exact hs)
    by_cases hx : F64.le (.fin 1) x = true
    · rw [M.ass_pos hx]; exact hs
    · rw [M.ass_neg hx]; exact hs
  have say : ∀ (x : F64) (s : List String × (Heap F64 × Store)), (colonMsg ∈ s.1 ↔ colonMsg ∈ ws) →
      (colonMsg ∈ (sayM (V := F64) (convertSizeD x) s).2.1 ↔ colonMsg ∈ ws) := by
    intro x s hs
    unfold sayM
    rw [M.zoom_apply]
    exact conv x s.1 hs
  have ret : ∀ {α : Type} (m : SM F64 α) (s : List String × (Heap F64 × Store)), (colonMsg ∈ s.1 ↔ colonMsg ∈ ws) →
      (colonMsg ∈ (retM m s).2.1 ↔ colonMsg ∈ ws) := by
    intro α m s hs
    unfold retM
    rw [M.zoom_apply]
    exact hs
  have key : ∀ s : List String × (Heap F64 × Store), (colonMsg ∈ s.1 ↔ colonMsg ∈ ws) →
      (colonMsg ∈ (colonD a b s).2.1 ↔ colonMsg ∈ ws) := by
    unfold colonD
    split <;> exact kept_bind (P := fun s : List String × (Heap F64 × Store) => colonMsg ∈ s.1 ↔ colonMsg ∈ ws) (say _) (fun _ => kept_bind (P := fun s : List String × (Heap F64 × Store) => colonMsg ∈ s.1 ↔ colonMsg ∈ ws) (ret _) (fun _ => ret _))
  have := key (ws, r) Iff.rfl
  rwa [h] at this

/-- When `colon` prints its warning. -/
theorem colonSays_iff {T : Type} {s e : CArg T} (h0 : ∀ x n f, x ∈ [s, e] → x = .vec n f → 1 ≤ n) :
    colonMsg ∈ colonSays e ++ colonSays s ↔ ∃ x n f, x ∈ [s, e] ∧ x = .vec n f ∧ 1 < n := by
  have key : ∀ x, x ∈ [s, e] → (colonMsg ∈ colonSays x ↔ ∃ n f, x = CArg.vec n f ∧ 1 < n) := by
    intro x hx
    cases x with
    | one y => simp [colonSays]
    | vec n f =>
      have := h0 _ n f hx rfl
      by_cases h : n = 1
      · subst h; simp [colonSays]
      · simp only [colonSays, if_neg h, List.mem_singleton, true_iff]
        exact ⟨n, f, rfl, by omega⟩
  rw [List.mem_append, key e (by simp), key s (by simp)]
  constructor
  · rintro (⟨n, f, h1, h2⟩ | ⟨n, f, h1, h2⟩)
    · exact ⟨e, n, f, by simp, h1, h2⟩
    · exact ⟨s, n, f, by simp, h1, h2⟩
  · rintro ⟨x, n, f, hx, h1, h2⟩
    simp only [List.mem_cons, List.not_mem_nil, or_false] at hx
    rcases hx with rfl | rfl
    · exact .inr ⟨n, f, h1, h2⟩
    · exact .inl ⟨n, f, h1, h2⟩

/-- The argument of `colon` is the number `a`, or a vector with at least one element whose first element is `a`. -/
def FirstIs {T : Type} (s : CArg T) (a : T) : Prop := s = .one a ∨ ∃ n, 1 ≤ n ∧ s = .vec n (.ok a)

theorem FirstIs.value {T : Type} {s : CArg T} {a : T} (h : FirstIs s a) : s.value = .ok a := by
  rcases h with rfl | ⟨n, _, rfl⟩ <;> rfl

theorem FirstIs.size {T : Type} {s e : CArg T} {a b : T} (hs : FirstIs s a) (he : FirstIs e b) :
    ∀ x n f, x ∈ [s, e] → x = .vec n f → 1 ≤ n := by
  intro x n f hx ex
  simp only [List.mem_cons, List.not_mem_nil, or_false] at hx
  rcases hx with rfl | rfl
  · rcases hs with h | ⟨k, hk, h⟩ <;> rw [ex] at h <;> cases h; exact hk
  · rcases he with h | ⟨k, hk, h⟩ <;> rw [ex] at h <;> cases h; exact hk

/-- C51 for `colon` of integers: the sequence runs from the first element of the first argument to that of the second; the warning is printed exactly if one of the arguments is a vector with more
than one element.  Vectors without elements have no first element and are rejected. -/
theorem C51_colon_partial {s e : CArg Int} {a b : Int} (h1 : FirstIs s a) (h2 : FirstIs e b) (ha : InI32 a) (hb : InI32 b) (hf : ColonFits a b)
    {h : Heap Int} (hs : h.sched = []) :
    ∃ ws', Returns (colonInt s e) h [] ws' (intSeq a b) {} ∧
      (colonMsg ∈ ws' ↔ ∃ x n f, x ∈ [s, e] ∧ x = .vec n f ∧ 1 < n) := by
  have hsv := h1.value
  have hev := h2.value
  have h0 := h1.size h2
  obtain ⟨h', d, er, hr⟩ := C48_partial ha hb hf hs (colonSays e ++ colonSays s)
  refine ⟨colonSays e ++ colonSays s, ⟨h', d, ?_, hr⟩, ?_⟩
  · simp only [colonInt]
    rw [M.bind_ok (sayM_ok (colonWarn_eq e [])), List.nil_append, M.bind_ok (sayM_ok (colonWarn_eq s _)),
      M.bind_ok (m := M.lift _) (a := a) (by rw [hsv]; rfl), M.bind_ok (m := M.lift _) (a := b) (by rw [hev]; rfl)]
    exact er
  · exact colonSays_iff h0

example : ∃ ws', Returns (colonInt (.one 4) (.vec 2 (.ok 6))) Heap.empty [] ws' [4, 5, 6] {} ∧ colonMsg ∈ ws' := by
  obtain ⟨ws', r, h⟩ := C51_colon_partial (s := .one 4) (e := .vec 2 (.ok 6)) (.inl rfl) (.inr ⟨2, by decide, rfl⟩) (by decide) (by decide)
    ⟨by decide, by decide, by decide⟩ (h := Heap.empty) rfl
  exact ⟨ws', r, h.mpr ⟨_, 2, _, List.mem_cons_of_mem _ (List.mem_singleton.mpr rfl), rfl, by norm_num⟩⟩

/-- C51 for `colon` of doubles. -/
theorem C51_colon_double_partial {s e : CArg F64} {x y : F64} (h1 : FirstIs s x) (h2 : FirstIs e y) {m n : Int} {p : Nat} (hp : p ≤ 53) (hm : |m| + 2 ^ p ≤ 2 ^ 53)
    (hn : |n| + 2 ^ p ≤ 2 ^ 53) (hd : |n - m| + 2 ^ p ≤ 2 ^ 53) {a b : ℚ} (ha : a = m / 2 ^ p) (hb : b = n / 2 ^ p)
    (hx : x = .fin a) (hy : y = .fin b) (hr : |b - a| + 1 < 2147483648) {h : Heap F64} (hs : h.sched = []) :
    ∃ ws' l, Returns (colonDbl s e) h [] ws' l {} ∧ l.length = ⌊|b - a| + 1⌋.toNat ∧
      (∀ i, i < l.length → l[i]? = some (.fin (if a ≤ b then a + i else a - i))) ∧
      (colonMsg ∈ ws' ↔ ∃ x n f, x ∈ [s, e] ∧ x = .vec n f ∧ 1 < n) := by
  subst hx hy
  have hsv := h1.value
  have hev := h2.value
  have h0 := h1.size h2
  obtain ⟨ws', l, ⟨h', d, er, hr'⟩, hl, hel, _⟩ := C49_partial hp hm hn hd ha hb hr hs (colonSays e ++ colonSays s)
  refine ⟨ws', l, ⟨h', d, ?_, hr'⟩, hl, hel, ?_⟩
  · simp only [colonDbl]
    rw [M.bind_ok (sayM_ok (colonWarn_eq e [])), List.nil_append, M.bind_ok (sayM_ok (colonWarn_eq s _)),
      M.bind_ok (m := M.lift _) (a := F64.fin a) (by rw [hsv]; rfl), M.bind_ok (m := M.lift _) (a := F64.fin b) (by rw [hev]; rfl)]
    exact er
  · have := colonD_says (ws := colonSays e ++ colonSays s) er
    rw [this]
    exact colonSays_iff h0

example : ∃ ws' l, Returns (colonDbl (.vec 1 (.ok (.fin (-1 / 2)))) (.one (.fin (9 / 4)))) Heap.empty [] ws' l {} ∧ l.length = 3 ∧
    colonMsg ∉ ws' := by
  obtain ⟨ws', l, r, hl, _, h⟩ := C51_colon_double_partial (s := .vec 1 (.ok (.fin (-1 / 2)))) (e := .one (.fin (9 / 4)))
    (.inr ⟨1, by decide, rfl⟩) (.inl rfl) (m := -2) (n := 9) (p := 2)
    (by norm_num) (by norm_num) (by norm_num) (by norm_num) (a := -1 / 2) (b := 9 / 4) (by norm_num) (by norm_num) rfl rfl
    (by norm_num) (h := Heap.empty) rfl
  refine ⟨ws', l, r, hl.trans (by norm_num; rfl), fun hm => ?_⟩
  obtain ⟨x, n, f, hx, e, hn⟩ := h.mp hm
  subst e
  rcases List.mem_cons.mp hx with h | h <;> simp at h
  omega

/-- C51 for `matrix` is false: what is printed on account of the number of rows or columns is the opposite of what
is wanted.  The warning about the rows appears exactly if the number of rows is a vector with at most one element;
the warning about the columns exactly if the number of columns is a vector with at most one element, or with at
most two if the number of rows is a vector, too. -/
theorem C51_matrix_characterised {zero : V} (env : Env V) {nrows ncols : SizeArg} {a b : Num} (ha : nrows.First a)
    (hb : ncols.First b) (fa : a.Fits) (fb : b.Fits) {r c : Nat} (hr : asSize a = some r) (hc : asSize b = some c)
    (hlim : r * c < 2 ^ 59) {h : Heap V} (hs : h.sched = []) (v : V) :
    ∃ ws', Returns (matrix zero env (.scal v) nrows ncols) h [] ws' (List.replicate (r * c) v) ⟨true, r, c⟩ ∧
      (rowsMsg ∈ ws' ↔ ∃ n f, nrows = .vec n f ∧ ¬ 1 < n) ∧
      (colsMsg ∈ ws' ↔ ∃ k f, ncols = .vec k f ∧
        (((∃ x, nrows = .one x) ∧ ¬ 1 < k) ∨ ((∃ n g, nrows = .vec n g) ∧ ¬ 2 < k))) := by
  obtain ⟨fw, st, hw, R, e⟩ := matrix_ok (zero := zero) (env := env) ha hb fa fb hr hc hlim hs (.scal v) []
  obtain ⟨r', er, R'⟩ := R.fill v
  rw [List.length_replicate] at R'
  have hcr : colsMsg ≠ rowsMsg := by decide +kernel
  have h1 : rowsMsg ∉ fw := fun hm => absurd (hw _ hm) (by decide +kernel)
  have h2 : colsMsg ∉ fw := fun hm => absurd (hw _ hm) (by decide +kernel)
  refine ⟨_, R'.returns (e.trans (retM_ok er)), ?_, ?_⟩
  · rw [List.nil_append, List.mem_append, or_iff_left h1]
    cases nrows with
    | one x => cases ncols with
      | one y => simp [matrixSays]
      | vec k g => by_cases h : k > 1 <;> simp [matrixSays, h, hcr.symm]
    | vec n f => cases ncols with
      | one y => by_cases h : n > 1 <;> simp [matrixSays, h] <;> omega
      | vec k g => by_cases h : k > 2 <;> by_cases h' : n > 1 <;> simp [matrixSays, h, h', hcr.symm] <;> omega
  · rw [List.nil_append, List.mem_append, or_iff_left h2]
    cases nrows with
    | one x => cases ncols with
      | one y => simp [matrixSays]
      | vec k g => by_cases h : k > 1 <;> simp [matrixSays, h] <;> omega
    | vec n f => cases ncols with
      | one y => by_cases h : n > 1 <;> simp [matrixSays, h, hcr]
      | vec k g => by_cases h : k > 2 <;> by_cases h' : n > 1 <;> simp [matrixSays, h, h', hcr] <;> omega

example : ∃ ws', Returns (matrix 0 (listEnv ([] : List (List Int))) (.scal 7) (.vec 2 (.ok (.s (.i 3)))) (.vec 2 (.ok (.s (.i 2)))))
    Heap.empty [] ws' [7, 7, 7, 7, 7, 7] ⟨true, 3, 2⟩ ∧ rowsMsg ∉ ws' ∧ colsMsg ∈ ws' := by
  obtain ⟨ws', r, h1, h2⟩ := C51_matrix_characterised (zero := 0) (listEnv ([] : List (List Int)))
    (nrows := .vec 2 (.ok (.s (.i 3)))) (ncols := .vec 2 (.ok (.s (.i 2)))) (a := .s (.i 3)) (b := .s (.i 2))
    (.inr ⟨2, rfl⟩) (.inr ⟨2, rfl⟩) (by show InI32 3; decide) (by show InI32 2; decide) (r := 3) (c := 2)
    (by decide) (by decide) (by norm_num) (h := Heap.empty) rfl 7
  refine ⟨ws', r, fun hm => ?_, h2.mpr ⟨2, _, rfl, .inr ⟨⟨2, _, rfl⟩, by norm_num⟩⟩⟩
  obtain ⟨n, f, e, hn⟩ := h1.mp hm
  injection e with e1 _
  omega

/-- C51 for `matrix` is false: with two numbers of rows no warning is printed, with a vector of length one there is
a warning. -/
theorem C51_false_matrix :
    (matrix 0 (listEnv ([] : List (List Int))) (.scal 7) (.vec 2 (.ok (.s (.i 3)))) (.one (.s (.i 2)))
      ([], (Heap.empty, {}))).2.1 = [] ∧
    (matrix 0 (listEnv ([] : List (List Int))) (.scal 7) (.vec 1 (.ok (.s (.i 3)))) (.one (.s (.i 2)))
      ([], (Heap.empty, {}))).2.1 = [rowsMsg] := by
  decide +kernel

example : ∃ ws', Returns (rep 0 (listEnv ([] : List (List Int))) (.scal 7) (.vec 2 (.ok (.s (.i 3))))) Heap.empty [] ws'
    [7, 7, 7] {} ∧ timesMsg ∈ ws' := by
  obtain ⟨ws', r, h⟩ := C51_rep_partial (zero := 0) (listEnv ([] : List (List Int)))
    (times := .vec 2 (.ok (.s (.i 3)))) (a := .s (.i 3)) (.inr ⟨2, rfl⟩) (by show InI32 3; decide) (k := 3)
    (by decide) (by norm_num) (h := Heap.empty) rfl 7
  exact ⟨ws', r, h.mpr ⟨2, _, rfl, by norm_num⟩⟩

end ETR
