import Verif.Props.AllocSeq

/-! # C86: fractional sizes and indices are announced -/

namespace ETR
open F64 Spec Store
variable {V : Type}

/-- The distance of a double from the integer below it is 0 or at least the smallest positive double. -/
theorem frac_ge {q : ℚ} (hr : Rep q) (hn : (⌊q⌋ : ℚ) ≠ q) : pow2 (-1074) ≤ q - ⌊q⌋ := by
  have h0 : q ≠ 0 := by rintro rfl; simp at hn
  have hq : rndQ q = q := by
    unfold Rep rnd at hr
    simp only [] at hr
    split at hr
    · cases hr
    · exact F64.fin.inj hr
  rw [rndQ_ne h0] at hq
  set m := rhe (q / pow2 (ulpExp q)) with hm
  have he := ulpExp_ge q
  set e := ulpExp q with hee
  by_cases hpos : 0 ≤ e
  · obtain ⟨n, hn'⟩ := Int.eq_ofNat_of_zero_le hpos
    refine absurd ?_ hn
    rw [← hq, hn', show pow2 ((n : Nat) : Int) = (2 : ℚ) ^ n from pow2_natCast n]
    have : (m : ℚ) * 2 ^ n = ((m * 2 ^ n : Int) : ℚ) := by push_cast; rfl
    rw [this, Int.floor_intCast]
  · obtain ⟨n, hn'⟩ := Int.eq_ofNat_of_zero_le (show 0 ≤ -e by omega)
    have hp : pow2 e * 2 ^ n = 1 := by
      rw [← pow2_natCast n, ← pow2_add, ← hn']
      rw [add_neg_cancel]
      rw [pow2_eq]; simp
    have hx : q - ⌊q⌋ = ((m - ⌊q⌋ * 2 ^ n : Int) : ℚ) * pow2 e := by
      push_cast
      rw [sub_mul, mul_assoc, mul_comm ((2 : ℚ) ^ n), hp, hq, mul_one]
    have hlt : 0 < q - ⌊q⌋ := by
      have := Int.floor_le q
      rcases lt_or_eq_of_le this with h | h
      · linarith
      · exact absurd h hn
    have h1 : 1 ≤ m - ⌊q⌋ * 2 ^ n := by
      by_contra hc
      have : ((m - ⌊q⌋ * 2 ^ n : Int) : ℚ) ≤ 0 := by exact_mod_cast (by omega : m - ⌊q⌋ * 2 ^ n ≤ 0)
      have := mul_nonpos_of_nonpos_of_nonneg this (pow2_pos e).le
      linarith
    have h1' : (1 : ℚ) ≤ ((m - ⌊q⌋ * 2 ^ n : Int) : ℚ) := by exact_mod_cast h1
    rw [hx]
    calc pow2 (-1074) ≤ pow2 e := pow2_mono he
      _ ≤ _ := by nlinarith [pow2_pos e]

/-- `isDoubleInt` of a double that is not negative: it is an integer. -/
theorem isDoubleInt_eq {q : ℚ} (hr : Rep q) (h0 : 0 ≤ q) (h2 : q < 2147483648) :
    isDoubleInt (.fin q) = .ok (decide ((⌊q⌋ : ℚ) = q)) := by
  have hf : ⌊q⌋ < 2147483648 := by rw [Int.floor_lt]; exact_mod_cast h2
  have hf0 : 0 ≤ ⌊q⌋ := Int.floor_nonneg.mpr h0
  unfold isDoubleInt
  rw [toI32_of_floor rfl hf0 hf, Out.ok_bind, ofInt_eq (by rw [abs_of_nonneg hf0]; omega)]
  simp only [F64.sub, F64.neg, F64.add, Out.pure_eq]
  congr 1
  rw [← sub_eq_add_neg]
  by_cases h : (⌊q⌋ : ℚ) = q
  · rw [decide_eq_true h, h, sub_self]
    decide +kernel
  · rw [decide_eq_false h]
    have h1 := frac_ge hr h
    have hb : q - ⌊q⌋ ≤ 1 := by have := Int.lt_floor_add_one q; linarith
    have e1 : rndQ (pow2 (-1074)) = pow2 (-1074) := by
      have := rndQ_exact (m := 1) (k := -1074) (by decide) (by decide)
      simpa using this
    have e2 : rndQ 1 = 1 := by simpa using rndQ_int (n := 1) (by decide)
    have m1 := rndQ_mono h1
    have m2 := rndQ_mono hb
    rw [e1] at m1
    rw [e2] at m2
    have hp := pow2_pos (-1074)
    rw [rnd_of_lt (by
      rw [abs_of_nonneg (by linarith)]
      have := pow2_1024_gt
      linarith [show (1 : ℚ) < 2 ^ 100 by norm_num])]
    simp only [F64.lt, Bool.not_eq_false', decide_eq_true_eq]
    linarith

/-- C86 for sizes: a double from 1 on is rounded down, with the warning exactly if it is not an integer. -/
theorem C86_size {q : ℚ} (hr : Rep q) (h1 : 1 ≤ q) (h2 : q < 2147483648) (ws : List String) :
    convertSize (.s (.d (.fin q))) ws = (.ok ⌊q⌋.toNat, if (⌊q⌋ : ℚ) = q then ws else ws ++ [fracMsg]) := by
  have e : convertSize (.s (.d (.fin q))) ws = convertSizeD (.fin q) ws := rfl
  have hf : ⌊q⌋ < 2147483648 := by rw [Int.floor_lt]; exact_mod_cast h2
  have := floor_toNat h1
  rw [e]
  unfold convertSizeD
  rw [isDoubleInt_eq hr (by linarith) h2, M.bind_ok (m := M.lift (.ok _)) rfl, M.bind_ok (warn_eq _ fracMsg ws),
    M.bind_ok (M.ass_pos (by simp [F64.le, h1]) _), toSizeT_of_floor (k := ⌊q⌋.toNat) (by omega) (by omega)]
  by_cases h : (⌊q⌋ : ℚ) = q
  · simp [h]
  · simp [h]

/-- C86 for indices. -/
theorem C86_index {q : ℚ} (hr : Rep q) (h1 : 1 ≤ q) (h2 : q < 2147483648) (n : Nat) (ws : List String) :
    calcIndVector n (.dbl (.fin q)) ws = (.ok [⌊q⌋.toNat - 1], if (⌊q⌋ : ℚ) = q then ws else ws ++ [fracMsg]) := by
  have hf : ⌊q⌋ < 2147483648 := by rw [Int.floor_lt]; exact_mod_cast h2
  have hf1 : 1 ≤ ⌊q⌋ := by rw [Int.le_floor]; exact_mod_cast h1
  have := floor_toNat h1
  rw [calcIndVector, M.bind_ok (resizeInd_ok (le_refl _) ws)]
  have e : convertSizeSubsettingD (.fin q) ws = (.ok ⌊q⌋.toNat, if (⌊q⌋ : ℚ) = q then ws else ws ++ [fracMsg]) := by
    unfold convertSizeSubsettingD
    rw [isDoubleInt_eq hr (by linarith) h2, M.bind_ok (m := M.lift (.ok _)) rfl, M.bind_ok (warn_eq _ fracMsg ws),
      M.bind_ok (M.ass_pos (by simp [F64.le, h1]) _), toSizeT_of_floor (k := ⌊q⌋.toNat) (by omega) (by omega)]
    by_cases h : (⌊q⌋ : ℚ) = q
    · simp [h]
    · simp [h]
  rw [M.bind_ok e]
  have : pred64 ⌊q⌋.toNat = ⌊q⌋.toNat - 1 := by unfold pred64 wrap64 two64; omega
  rw [this]
  rfl

/-- C86 for `vector_numeric(q)`. -/
theorem C86_numeric {zero : V} {q : ℚ} (hr : Rep q) (h1 : 1 ≤ q) (h2 : q < 2147483648) {h : Heap V} (hs : h.sched = []) (ws : List String) :
    Returns (vectorNumeric zero (.one (.s (.d (.fin q))))) h ws (if (⌊q⌋ : ℚ) = q then ws else ws ++ [fracMsg])
      (List.replicate ⌊q⌋.toNat zero) {} := by
  have hf : ⌊q⌋ < 2147483648 := by rw [Int.floor_lt]; exact_mod_cast h2
  have hf1 : 1 ≤ ⌊q⌋ := by rw [Int.le_floor]; exact_mod_cast h1
  obtain ⟨r, er, R⟩ := ctorSize_spec (zero := zero) hs (show 1 ≤ ⌊q⌋.toNat by omega) (by omega)
  refine R.returns ?_
  unfold vectorNumeric vectorOf createRVec
  simp only []
  rw [show Num.to STy.double (Num.s (.d (.fin q))) = .ok (.s (.d (.fin q))) from rfl,
    M.bind_ok (m := M.lift (.ok _)) rfl, M.bind_ok (sayM_ok (C86_size hr h1 h2 ws)),
    M.bind_ok (M.ass_pos (show ⌊q⌋.toNat > 0 by omega) _)]
  exact retM_ok er

/-- `vector_integer(q)` converts the size to `int` first, so that nothing is printed. -/
theorem C86_integer_characterised {zero : V} {q : ℚ} (h1 : 1 ≤ q) (h2 : q < 2147483648) {h : Heap V} (hs : h.sched = []) (ws : List String) :
    Returns (vectorInteger zero (.one (.s (.d (.fin q))))) h ws ws (List.replicate ⌊q⌋.toNat zero) {} := by
  have hf : ⌊q⌋ < 2147483648 := by rw [Int.floor_lt]; exact_mod_cast h2
  have hf1 : 1 ≤ ⌊q⌋ := by rw [Int.le_floor]; exact_mod_cast h1
  obtain ⟨r, er, R⟩ := ctorSize_spec (zero := zero) hs (show 1 ≤ ⌊q⌋.toNat by omega) (by omega)
  refine R.returns ?_
  unfold vectorInteger vectorOf createRVec
  simp only []
  have et : Num.to STy.int (Num.s (.d (.fin q))) = .ok (.s (.i ⌊q⌋)) := by
    have e : (Num.s (.d (.fin q))).toI = F64.toI32 (.fin q) := rfl
    simp only [Num.to]
    rw [e, toI32_of_floor rfl (by omega) hf]; rfl
  rw [et, M.bind_ok (m := M.lift (.ok _)) rfl, M.bind_ok (sayM_ok (sizeI (by omega) (by omega) ws)),
    M.bind_ok (M.ass_pos (show ⌊q⌋.toNat > 0 by omega) _)]
  exact retM_ok er

/-- `vector_logical(q)` prints nothing either: for a variable that is not `const` the size is converted to `bool`, so that there is one
element whatever the number is (0 apart); otherwise it is converted to `int`. -/
theorem C86_logical_characterised {zero : V} {q : ℚ} {h : Heap V} (hs : h.sched = []) (ws : List String) :
    (q ≠ 0 → Returns (vectorLogical zero true (.one (.s (.d (.fin q))))) h ws ws [zero] {}) ∧
    (1 ≤ q → q < 2147483648 → Returns (vectorLogical zero false (.one (.s (.d (.fin q))))) h ws ws (List.replicate ⌊q⌋.toNat zero) {}) := by
  refine ⟨fun h0 => ?_, fun h1 h2 => C86_integer_characterised h1 h2 hs ws⟩
  obtain ⟨r, er, R⟩ := ctorSize_spec (zero := zero) hs (le_refl 1) (by omega)
  refine R.returns ?_
  unfold vectorLogical vectorOf createRVec
  simp only []
  have et : Num.to (if True then STy.bool else STy.int) (Num.s (.d (.fin q))) = .ok (.s (.b true)) := by
    simp [Num.to, Num.toB, F64.toBool, h0]
  have ec : convertSize (.s (.b true)) ws = (.ok 1, ws) := rfl
  rw [et, M.bind_ok (m := M.lift (.ok _)) rfl, M.bind_ok (sayM_ok ec), M.bind_ok (M.ass_pos (show 1 > 0 by omega) _)]
  exact retM_ok er

example : Returns (vectorLogical (0 : Int) true (.one (.s (.d (.fin (7 / 2)))))) Heap.empty [] [] [0] {} :=
  (C86_logical_characterised rfl []).1 (by norm_num)

/-- C86 is false for `vector_integer`: `vector_integer(3.5)` has three elements and nothing is printed. -/
theorem C86_false : Rep (7 / 2) ∧ (vectorInteger (0 : Int) (.one (.s (.d (.fin (7 / 2))))) ([], (Heap.empty, {}))).1 = .ok () ∧
    (vectorInteger (0 : Int) (.one (.s (.d (.fin (7 / 2))))) ([], (Heap.empty, {}))).2.1 = [] ∧
    (vectorInteger (0 : Int) (.one (.s (.d (.fin (7 / 2))))) ([], (Heap.empty, {}))).2.2.2.sz = 3 := by decide +kernel

example : (vectorNumeric (0 : Int) (.one (.s (.d (.fin (7 / 2))))) ([], (Heap.empty, {}))).2.1 = [fracMsg] ∧
    (vectorNumeric (0 : Int) (.one (.s (.d (.fin 3)))) ([], (Heap.empty, {}))).2.1 = [] ∧
    calcIndVector 4 (.dbl (.fin (7 / 2))) [] = (.ok [2], [fracMsg]) := by decide +kernel

/-- The theorems applied to 7/2, which is a binary64 number. -/
example : convertSize (.s (.d (.fin (7 / 2)))) [] = (.ok 3, [fracMsg]) := by
  have h := C86_size (q := 7 / 2) (by decide +kernel) (by norm_num) (by norm_num) []
  rwa [show ⌊(7 / 2 : ℚ)⌋ = 3 by norm_num, if_neg (by norm_num)] at h

example : calcIndVector 4 (.dbl (.fin (7 / 2))) [] = (.ok [2], [fracMsg]) := by
  have h := C86_index (q := 7 / 2) (by decide +kernel) (by norm_num) (by norm_num) 4 []
  rwa [show ⌊(7 / 2 : ℚ)⌋ = 3 by norm_num, if_neg (by norm_num)] at h

example : Returns (vectorNumeric (0 : Int) (.one (.s (.d (.fin (7 / 2)))))) Heap.empty [] [fracMsg] [0, 0, 0] {} := by
  have h := C86_numeric (zero := (0 : Int)) (q := 7 / 2) (by decide +kernel) (by norm_num) (by norm_num) (h := Heap.empty) rfl []
  rwa [show ⌊(7 / 2 : ℚ)⌋ = 3 by norm_num, if_neg (by norm_num)] at h

example : Returns (vectorInteger (0 : Int) (.one (.s (.d (.fin (7 / 2)))))) Heap.empty [] [] [0, 0, 0] {} := by
  have h := C86_integer_characterised (zero := (0 : Int)) (q := 7 / 2) (by norm_num) (by norm_num) (h := Heap.empty) rfl []
  rwa [show ⌊(7 / 2 : ℚ)⌋ = 3 by norm_num] at h

end ETR
