import Verif.Lemmas.Alloc
import Verif.Props.Expr

/-! Functions that create vectors: C45 to C52. -/

namespace ETR
open Spec Store
variable {V : Type}

/-! ## C52 size conversion -/

/-- C52 for doubles in the range of `int`: the integer part if it is at least 1, otherwise rejected. -/
theorem C52_partial {q : ℚ} (h1 : -2147483649 < q) (h2 : q < 2147483648) (ws : List String) :
    (1 ≤ q → ∃ ws', convertSize (.s (.d (.fin q))) ws = (.ok ⌊q⌋.toNat, ws')) ∧
    (q < 1 → ∃ e ws', convertSize (.s (.d (.fin q))) ws = (.thr e, ws')) := by
  obtain ⟨fw, _, e⟩ := convertSizeD_eq h1 h2 ws
  constructor
  · intro h
    rw [if_pos h] at e
    exact ⟨_, e⟩
  · intro h
    rw [if_neg (by linarith)] at e
    exact ⟨_, _, e⟩

example : ∃ ws', convertSize (.s (.d (.fin (7 / 2)))) [] = (.ok 3, ws') := by
  obtain ⟨ws', h⟩ := (C52_partial (q := 7 / 2) (by norm_num) (by norm_num) []).1 (by norm_num)
  exact ⟨ws', h.trans (by norm_num; rfl)⟩
example : ∃ e ws', convertSize (.s (.d (.fin (1 / 2)))) [] = (.thr e, ws') :=
  (C52_partial (by norm_num) (by norm_num) []).2 (by norm_num)

/-- When the conversion of a double is undefined: exactly if it is not a number, infinite or outside the range
of `int` (the range of `std::size_t` is larger). -/
theorem C52_undefined_characterised (x : F64) (ws : List String) :
    (∃ k s, convertSize (.s (.d x)) ws = (.ub k, s)) ↔
      ∀ q, x = .fin q → ¬ (-2147483649 < q ∧ q < 2147483648) := by
  constructor
  · rintro ⟨k, s, h⟩ q rfl ⟨h1, h2⟩
    obtain ⟨fw, _, e⟩ := convertSizeD_eq h1 h2 ws
    have h' : convertSizeD (.fin q) ws = _ := h
    rw [e] at h'
    have := congrArg Prod.fst h'
    simp only [] at this
    split at this <;> cases this
  · intro h
    refine ⟨.badConv, ws, ?_⟩
    show convertSizeD x ws = _
    unfold convertSizeD
    rw [isDoubleInt_ub h]
    rfl

example : ∃ k s, convertSize (.s (.d (.inf true))) [] = (.ub k, s) :=
  (C52_undefined_characterised _ []).mpr (fun q h => by cases h)
example : ¬ ∃ k s, convertSize (.s (.d (.fin (-5)))) [] = (.ub k, s) :=
  fun h => (C52_undefined_characterised _ []).mp h (-5) rfl (by norm_num)

/-- C52 is false: not a number is not rejected, and 3e9, which is a possible size, is not converted. -/
theorem C52_false :
    convertSize (.s (.d .nan)) [] = (.ub .badConv, []) ∧
    convertSize (.s (.d (.fin 3000000000))) [] = (.ub .badConv, []) ∧ F64.Rep 3000000000 := by
  refine ⟨by decide +kernel, by decide +kernel, by decide +kernel⟩

example : convertSize (.s (.d (.fin (7 / 2)))) [] = (.ok 3, [fracMsg]) := by decide +kernel

/-- C52 for a vector that is used as a size: it has to have exactly one element, which has to be at least 1; the integer part counts. -/
theorem C52_vector_partial (n : Nat) (ws : List String) :
    (n ≠ 1 → ∀ f, ∃ e, convertSizeVec n f ws = (.thr e, ws)) ∧
    (∀ q : ℚ, 1 ≤ q → q < 2 ^ 64 → convertSizeVec 1 (.ok (.d (.fin q))) ws = (.ok ⌊q⌋.toNat, ws)) ∧
    (∀ x : F64, (∀ q, x = .fin q → q < 1) → x ≠ .inf false → ∃ e, convertSizeVec 1 (.ok (.d x)) ws = (.thr e, ws)) ∧
    (∀ k : Int, InI32 k → 1 ≤ k → convertSizeVec 1 (.ok (.i k)) ws = (.ok k.toNat, ws)) ∧
    ∀ k : Int, k < 1 → ∃ e, convertSizeVec 1 (.ok (.i k)) ws = (.thr e, ws) := by
  refine ⟨fun hn f => ⟨"invalid times argument", ?_⟩, fun q h1 h2 => ?_, fun x hx hi => ⟨"invalid times argument", ?_⟩, fun k hk h1 => ?_, fun k hk => ⟨"invalid times argument", ?_⟩⟩
  · unfold convertSizeVec
    exact M.bind_thr (M.ass_neg (by simpa using hn) _)
  · unfold convertSizeVec
    rw [M.bind_ok (M.ass_pos rfl _), M.bind_ok (m := M.lift (.ok (Scal.d (.fin q)))) (a := Scal.d (.fin q)) (s' := ws) rfl]
    simp only
    rw [M.bind_ok (M.ass_pos (by simpa [F64.le] using h1) _), M.lift_apply]
    have ht : F64.truncQ q = ⌊q⌋ := truncQ_of_nonneg (by linarith)
    have f1 : 1 ≤ ⌊q⌋ := Int.le_floor.mpr (by exact_mod_cast h1)
    have f2 : ⌊q⌋ < 2 ^ 64 := by rw [Int.floor_lt]; exact_mod_cast h2
    simp only [F64.toSizeT, ht]
    rw [if_pos (by unfold two64; push_cast; omega)]
  · unfold convertSizeVec
    rw [M.bind_ok (M.ass_pos rfl _), M.bind_ok (m := M.lift (.ok (Scal.d x))) (a := Scal.d x) (s' := ws) rfl]
    simp only
    refine M.bind_thr (M.ass_neg ?_ _)
    cases x with
    | fin q => simpa [F64.le] using hx q rfl
    | nan => simp [F64.le]
    | inf s => cases s <;> simp [F64.le] at hi ⊢
  · unfold convertSizeVec
    rw [M.bind_ok (M.ass_pos rfl _), M.bind_ok (m := M.lift (.ok (Scal.i k))) (a := Scal.i k) (s' := ws) rfl]
    simp only
    rw [M.bind_ok (M.ass_pos h1 _)]
    unfold InI32 at hk
    have : wrap64 k = k.toNat := by unfold wrap64 two64; omega
    rw [this]
    rfl
  · unfold convertSizeVec
    rw [M.bind_ok (M.ass_pos rfl _), M.bind_ok (m := M.lift (.ok (Scal.i k))) (a := Scal.i k) (s' := ws) rfl]
    simp only
    exact M.bind_thr (M.ass_neg (by omega) _)

example : convertSizeVec 1 (.ok (.d (.fin (7 / 2)))) [] = (.ok 3, []) := by decide +kernel

/-- C52 for an `int` that is used as an index size. -/
theorem C52_index_partial {k : Int} (hk : InI32 k) (ws : List String) :
    (1 ≤ k → convertSizeSubsettingI k ws = (.ok k.toNat, ws)) ∧ (k < 1 → ∃ e, convertSizeSubsettingI k ws = (.thr e, ws)) := by
  refine ⟨fun h1 => ?_, fun h1 => ⟨_, M.bind_thr (M.ass_neg (by omega) _)⟩⟩
  unfold convertSizeSubsettingI
  rw [M.bind_ok (M.ass_pos h1 _)]
  unfold InI32 at hk
  have : wrap64 k = k.toNat := by unfold wrap64 two64; omega
  rw [this]
  rfl

example : convertSizeSubsettingI 4 [] = (.ok 4, []) := (C52_index_partial (by decide) []).1 (by decide)

/-! ## C45 `vector_*` -/

/-- Numbers in the range of `int`. -/
def Num.Small : Num → Prop
  | .n k => k < 2147483648
  | a => a.Fits

/-- The argument is the number `a` or a vector with the only element `a`. -/
def SizeArg.Is (arg : SizeArg) (a : Num) : Prop := arg = .one a ∨ arg = .vec 1 (.ok a)

theorem trunc_range {q : ℚ} (h1 : -2147483649 < q) (h2 : q < 2147483648) : InI32 (F64.truncQ q) := by
  unfold InI32
  by_cases hq : 0 ≤ q
  · rw [truncQ_of_nonneg hq]
    have : ⌊q⌋ < 2147483648 := by rw [Int.floor_lt]; exact_mod_cast h2
    have : 0 ≤ ⌊q⌋ := Int.floor_nonneg.mpr hq
    omega
  · rw [truncQ_of_neg (by linarith)]
    have : ⌊-q⌋ < 2147483649 := by rw [Int.floor_lt]; push_cast; linarith
    have : 0 ≤ ⌊-q⌋ := Int.floor_nonneg.mpr (by linarith)
    omega

theorem to_int {a : Num} (h : a.Small) : ∃ a', a.to .int = .ok a' ∧ a'.Fits ∧ asSize a' = asSize a := by
  cases a with
  | n k =>
    have h : k < 2147483648 := h
    have hw : wrapI32 k = k := by unfold wrapI32; simp only []; split <;> omega
    refine ⟨.s (.i k), by simp only [Num.to, Num.toI, hw]; rfl, by show InI32 _; unfold InI32; omega, ?_⟩
    simp only [asSize]
    by_cases h1 : 1 ≤ k
    · rw [if_pos h1, if_pos (by omega)]; simp
    · rw [if_neg h1, if_neg (by omega)]
  | s v =>
    cases v with
    | b v =>
      exact ⟨_, rfl, by show InI32 _; unfold InI32; cases v <;> decide, by cases v <;> decide⟩
    | i k => exact ⟨_, rfl, h, rfl⟩
    | d x =>
      obtain ⟨q, rfl, h1, h2⟩ := h
      have hr := trunc_range h1 h2
      refine ⟨.s (.i (F64.truncQ q)), by simp only [Num.to, Num.toI, F64.toI32, if_pos hr]; rfl, hr, ?_⟩
      simp only [asSize]
      by_cases hq : 1 ≤ q
      · rw [if_pos hq, truncQ_of_nonneg (by linarith), if_pos (by rw [Int.le_floor]; exact_mod_cast hq)]
      · rw [if_neg hq, if_neg]
        by_cases h0 : 0 ≤ q
        · rw [truncQ_of_nonneg h0, Int.le_floor]; push_cast; exact hq
        · rw [truncQ_of_neg (by linarith)]
          have : 0 ≤ ⌊-q⌋ := Int.floor_nonneg.mpr (by linarith)
          omega

theorem asSize_int (k : Int) : asSize (.s (.d (.fin k))) = asSize (.s (.i k)) := by
  simp only [asSize, Int.floor_intCast]
  by_cases h : 1 ≤ k
  · rw [if_pos h, if_pos (by exact_mod_cast h)]
  · rw [if_neg h, if_neg (by exact_mod_cast h)]

theorem to_double {a : Num} (h : a.Small) :
    ∃ a', a.to .double = .ok a' ∧ a'.Fits ∧ asSize a' = asSize a := by
  cases a with
  | n k =>
    have h : k < 2147483648 := h
    refine ⟨_, rfl, ?_, ?_⟩
    · refine ⟨k, F64.ofNat_eq (by omega), ?_, ?_⟩
      · have : (0 : ℚ) ≤ k := by positivity
        linarith
      · exact_mod_cast h
    · simp only [Num.toD]
      rw [F64.ofNat_eq (by omega)]
      have := asSize_int k
      push_cast at this
      rw [this]
      simp only [asSize]
      by_cases h1 : 1 ≤ k
      · rw [if_pos h1, if_pos (by omega)]; simp
      · rw [if_neg h1, if_neg (by omega)]
  | s v =>
    cases v with
    | b v =>
      cases v
      · exact ⟨_, rfl, ⟨0, by decide +kernel, by norm_num, by norm_num⟩, by decide +kernel⟩
      · exact ⟨_, rfl, ⟨1, by decide +kernel, by norm_num, by norm_num⟩, by decide +kernel⟩
    | i k =>
      have h : InI32 k := h
      unfold InI32 at h
      have e : F64.ofInt k = .fin k := F64.ofInt_eq (abs_le.mpr ⟨by omega, by omega⟩)
      refine ⟨_, rfl, ?_, ?_⟩
      · refine ⟨k, e, ?_, ?_⟩
        · have : (-2147483648 : ℚ) ≤ k := by exact_mod_cast h.1
          linarith
        · exact_mod_cast h.2
      · simp only [Num.toD, Scal.toD, e, asSize_int]
    | d x => exact ⟨_, rfl, h, rfl⟩

theorem asSize_pos {a : Num} {k : Nat} (h : asSize a = some k) : 1 ≤ k := by
  cases a with
  | n m => simp only [asSize] at h; split at h <;> simp at h; omega
  | s v =>
    cases v with
    | b v => cases v <;> simp [asSize] at h; omega
    | i m => simp only [asSize] at h; split at h <;> simp at h; omega
    | d x =>
      cases x with
      | fin q =>
        simp only [asSize] at h
        split at h
        · rename_i hq
          have h1 := floor_toNat hq
          have : 1 ≤ ⌊q⌋ := by rw [Int.le_floor]; exact_mod_cast hq
          cases h
          omega
        · cases h
      | nan => cases h
      | inf b => cases h

theorem asSize_lt {a : Num} {k : Nat} (hf : a.Small) (h : asSize a = some k) : k < 2147483648 := by
  cases a with
  | n m => have hf : m < 2147483648 := hf; simp only [asSize] at h; split at h <;> simp at h; omega
  | s v =>
    cases v with
    | b v => cases v <;> simp [asSize] at h; omega
    | i m =>
      have hf : InI32 m := hf
      unfold InI32 at hf
      simp only [asSize] at h; split at h <;> simp at h; omega
    | d x =>
      obtain ⟨q, rfl, h1, h2⟩ := hf
      simp only [asSize] at h
      split at h
      · cases h
        have : ⌊q⌋ < 2147483648 := by rw [Int.floor_lt]; exact_mod_cast h2
        omega
      · cases h

theorem createRVec_ok {zero : V} {t : STy} {a a' : Num} (e : a.to t = .ok a') (hf : a'.Fits) {k : Nat}
    (hk : asSize a' = some k) (hlim : k < 2 ^ 59) {h : Heap V} (hs : h.sched = []) (ws : List String) :
    ∃ fw, FracW fw ∧ Returns (createRVec zero t a) h ws (ws ++ fw) (List.replicate k zero) {} := by
  obtain ⟨fw, hw, ec⟩ := convertSize_ok hf hk ws
  obtain ⟨r, er, R⟩ := ctorSize_spec (zero := zero) hs (asSize_pos hk) hlim
  refine ⟨fw, hw, R.returns ?_⟩
  unfold createRVec
  rw [M.bind_ok (m := M.lift (a.to t)) (a := a') (by rw [e]; rfl), M.bind_ok (sayM_ok ec),
    M.bind_ok (M.ass_pos (show k > 0 from asSize_pos hk) _)]
  exact retM_ok er

theorem createRVec_thr {zero : V} {t : STy} {a a' : Num} (e : a.to t = .ok a') (hf : a'.Fits)
    (hk : asSize a' = none) (h : Heap V) (ws : List String) : Rejects (createRVec zero t a) h ws := by
  obtain ⟨m, ws', ec⟩ := convertSize_thr hf hk ws
  unfold createRVec
  refine ⟨m, (ws', (h, {})), ?_⟩
  rw [M.bind_ok (m := M.lift (a.to t)) (a := a') (by rw [e]; rfl), M.bind_thr (sayM_thr ec)]

theorem vectorOf_eq {zero : V} {t : STy} {arg : SizeArg} {a : Num} (h : arg.Is a) (st) :
    vectorOf zero t arg st = createRVec zero t a st := by
  rcases h with rfl | rfl
  · rfl
  · simp only [vectorOf]
    rw [M.bind_ok (M.ass_pos (show 1 = 1 from rfl) _),
      M.bind_ok (m := M.lift (.ok a)) (a := a) rfl]

theorem Returns.congr {m m' : AM V Unit} {h : Heap V} {ws ws' : List String} {l : List V} {mp : MP}
    (e : m (ws, (h, {})) = m' (ws, (h, {}))) (r : Returns m' h ws ws' l mp) : Returns m h ws ws' l mp := by
  obtain ⟨h', d, a, b⟩ := r
  exact ⟨h', d, e.trans a, b⟩

theorem Rejects.congr {m m' : AM V Unit} {h : Heap V} {ws : List String}
    (e : m (ws, (h, {})) = m' (ws, (h, {}))) (r : Rejects m' h ws) : Rejects m h ws := by
  obtain ⟨x, st, a⟩ := r
  exact ⟨x, st, e.trans a⟩

/-- C45: an argument of value `k` gives `k` zeros.  Missing: `vector_logical` of a variable, see
`C45_false_logical`, and numbers outside the range of `int`. -/
theorem C45_partial {zero : V} {arg : SizeArg} {a : Num} (ha : arg.Is a) (hf : a.Small) {k : Nat}
    (hk : asSize a = some k) {h : Heap V} (hs : h.sched = []) (ws : List String) :
    (∃ ws', Returns (vectorInteger zero arg) h ws ws' (List.replicate k zero) {}) ∧
    (∃ ws', Returns (vectorNumeric zero arg) h ws ws' (List.replicate k zero) {}) ∧
    (∃ ws', Returns (vectorLogical zero false arg) h ws ws' (List.replicate k zero) {}) := by
  have hl := asSize_lt hf hk
  obtain ⟨a1, e1, f1, s1⟩ := to_int hf
  obtain ⟨a2, e2, f2, s2⟩ := to_double hf
  obtain ⟨w1, _, r1⟩ := createRVec_ok (zero := zero) e1 f1 (s1.trans hk) (by omega) hs ws
  obtain ⟨w2, _, r2⟩ := createRVec_ok (zero := zero) e2 f2 (s2.trans hk) (by omega) hs ws
  exact ⟨⟨_, r1.congr (vectorOf_eq ha _)⟩, ⟨_, r2.congr (vectorOf_eq ha _)⟩,
    ⟨_, r1.congr (vectorOf_eq ha _)⟩⟩

example : ∃ ws', Returns (vectorNumeric (0 : Int) (.vec 1 (.ok (.s (.d (.fin (7 / 2))))))) Heap.empty [] ws' [0, 0, 0] {} :=
  (C45_partial (a := .s (.d (.fin (7 / 2)))) (.inr rfl) ⟨_, rfl, by norm_num, by norm_num⟩ (k := 3) (by decide +kernel) rfl []).2.1

/-- C45: numbers below 1 are rejected, and vectors that do not have exactly one element. -/
theorem C45_reject_partial {zero : V} (h : Heap V) (ws : List String) :
    (∀ arg a, SizeArg.Is arg a → a.Small → asSize a = none →
      Rejects (vectorInteger zero arg) h ws ∧ Rejects (vectorNumeric zero arg) h ws ∧
      Rejects (vectorLogical zero false arg) h ws) ∧
    (∀ n f lv, n ≠ 1 → Rejects (vectorInteger zero (.vec n f)) h ws ∧
      Rejects (vectorNumeric zero (.vec n f)) h ws ∧ Rejects (vectorLogical zero lv (.vec n f)) h ws) := by
  constructor
  · intro arg a ha hf hk
    obtain ⟨a1, e1, f1, s1⟩ := to_int hf
    obtain ⟨a2, e2, f2, s2⟩ := to_double hf
    have r1 := createRVec_thr (zero := zero) e1 f1 (s1.trans hk) h ws
    have r2 := createRVec_thr (zero := zero) e2 f2 (s2.trans hk) h ws
    exact ⟨r1.congr (vectorOf_eq ha _), r2.congr (vectorOf_eq ha _), r1.congr (vectorOf_eq ha _)⟩
  · intro n f lv hn
    have : ∀ t, Rejects (vectorOf zero t (.vec n f)) h ws := by
      intro t
      refine ⟨"invalid length argument", (ws, (h, {})), ?_⟩
      simp only [vectorOf]
      rw [M.bind_thr (M.ass_neg hn _)]
    exact ⟨this _, this _, this _⟩

example : Rejects (vectorInteger (0 : Int) (.one (.s (.i (-4))))) Heap.empty [] ∧
    Rejects (vectorNumeric (0 : Int) (.vec 2 (.ok (.s (.i 4))))) Heap.empty [] :=
  ⟨((C45_reject_partial _ _).1 _ _ (.inl rfl) (by show InI32 (-4); decide) (by decide)).1,
   ((C45_reject_partial _ _).2 2 _ true (by decide)).2.1⟩

/-- The numbers that compare equal to zero; not a number and the infinities do not. -/
def zeros : List Num := [.n 0, .s (.i 0), .s (.b false), .s (.d (.fin 0))]

theorem toB_iff (a : Num) : a.toB = false ↔ a ∈ zeros := by
  rcases a with k | ⟨v | k | x⟩
  · simp [zeros, Num.toB]
  · simp [zeros, Num.toB]
  · simp [zeros, Num.toB]
  · cases x <;> simp [zeros, Num.toB, F64.toBool]

/-- What `vector_logical` of a variable does: one element if the number is not zero, whatever its value. -/
theorem C45_logical_variable_characterised {zero : V} {arg : SizeArg} {a : Num} (ha : arg.Is a) {h : Heap V}
    (hs : h.sched = []) (ws : List String) :
    (a ∉ zeros → Returns (vectorLogical zero true arg) h ws ws [zero] {}) ∧
    (a ∈ zeros → Rejects (vectorLogical zero true arg) h ws) := by
  rw [← toB_iff, Bool.not_eq_false]
  constructor
  · intro hb
    obtain ⟨r, er, R⟩ := ctorSize_spec (zero := zero) hs (le_refl 1) (by norm_num)
    refine Returns.congr (m' := createRVec zero .bool a) (vectorOf_eq ha _) (R.returns ?_)
    unfold createRVec
    rw [M.bind_ok (m := M.lift (a.to .bool)) (a := .s (.b true)) (by simp only [Num.to, hb]; rfl),
      M.bind_ok (sayM_ok (m := convertSize (.s (.b true))) (a := 1) (ws' := ws) rfl), M.bind_ok (M.ass_pos (show 1 > 0 by omega) _)]
    exact retM_ok er
  · intro hb
    exact (createRVec_thr (zero := zero) (t := .bool) (a := a) (a' := .s (.b false))
      (by simp only [Num.to, hb]) trivial rfl h ws).congr (vectorOf_eq ha _)

example : Returns (vectorLogical (0 : Int) true (.vec 1 (.ok (.s (.d (.fin (9 / 2))))))) Heap.empty [] [] [0] {} ∧
    Rejects (vectorLogical (0 : Int) true (.one (.n 0))) Heap.empty [] :=
  ⟨(C45_logical_variable_characterised (.inr rfl) rfl []).1 (by decide +kernel),
   (C45_logical_variable_characterised (.inl rfl) rfl []).2 (by decide)⟩

/-- C45 is false: `int n = 3; vector_logical(n)` has one element, not a number and `n = -3` are not rejected. -/
theorem C45_false_logical :
    Returns (vectorLogical (0 : Int) true (.one (.s (.i 3)))) Heap.empty [] [] [0] {} ∧
    Returns (vectorLogical (0 : Int) true (.one (.s (.d .nan)))) Heap.empty [] [] [0] {} ∧
    Returns (vectorLogical (0 : Int) true (.one (.s (.i (-3))))) Heap.empty [] [] [0] {} :=
  ⟨(C45_logical_variable_characterised (.inl rfl) rfl []).1 (by decide),
   (C45_logical_variable_characterised (.inl rfl) rfl []).1 (by decide),
   (C45_logical_variable_characterised (.inl rfl) rfl []).1 (by decide)⟩

example : (SizeArg.vec 1 (.ok (.s (.d (.fin (7 / 2)))))).Is (.s (.d (.fin (7 / 2)))) ∧
    asSize (.s (.d (.fin (7 / 2)))) = some 3 ∧ Num.Small (.s (.d (.fin (7 / 2)))) ∧
    (Heap.empty : Heap Int).sched = [] := by
  refine ⟨.inr rfl, by decide +kernel, ⟨_, rfl, by norm_num, by norm_num⟩, rfl⟩

/-! ## C46 `matrix` -/

/-- The argument is the number `a` or a vector that begins with `a`. -/
def SizeArg.First (arg : SizeArg) (a : Num) : Prop := arg = .one a ∨ ∃ n, arg = .vec n (.ok a)

theorem firstSize_ok {arg : SizeArg} {a : Num} (ha : arg.First a) {k : Nat} (hf : a.Fits) (h : asSize a = some k)
    (ws : List String) : ∃ fw, FracW fw ∧ firstSize arg ws = (.ok k, ws ++ fw) := by
  obtain ⟨fw, hw, e⟩ := convertSize_ok hf h ws
  refine ⟨fw, hw, ?_⟩
  rcases ha with rfl | ⟨n, rfl⟩
  · exact e
  · simp only [firstSize]
    rw [M.bind_ok (m := M.lift (.ok a)) (a := a) rfl]
    exact e

theorem firstSize_thr {arg : SizeArg} {a : Num} (ha : arg.First a) (hf : a.Fits) (h : asSize a = none)
    (ws : List String) : ∃ e ws', firstSize arg ws = (.thr e, ws') := by
  obtain ⟨x, w, e⟩ := convertSize_thr hf h ws
  refine ⟨x, w, ?_⟩
  rcases ha with rfl | ⟨n, rfl⟩
  · exact e
  · simp only [firstSize]
    rw [M.bind_ok (m := M.lift (.ok a)) (a := a) rfl]
    exact e

/-- The warnings printed by `matrix` on account of the lengths of its arguments. -/
def matrixSays : SizeArg → SizeArg → List String
  | .one _, .one _ => []
  | .vec n _, .one _ => if n > 1 then [] else [rowsMsg]
  | .one _, .vec k _ => if k > 1 then [] else [colsMsg]
  | .vec n _, .vec k _ => (if k > 2 then [] else [colsMsg]) ++ (if n > 1 then [] else [rowsMsg])

theorem matrixWarn_eq (a b : SizeArg) (ws : List String) :
    matrixWarn a b ws = (.ok (), ws ++ matrixSays a b) := by
  cases a with
  | one x =>
    cases b with
    | one y => simp [matrixWarn, matrixSays]
    | vec k y => simp only [matrixWarn, matrixSays, warn_eq]; by_cases h : k > 1 <;> simp [h]
  | vec n x =>
    cases b with
    | one y => simp only [matrixWarn, matrixSays, warn_eq]; by_cases h : n > 1 <;> simp [h]
    | vec k y =>
      simp only [matrixWarn, matrixSays]
      rw [M.bind_ok (warn_eq _ _ _), warn_eq]
      by_cases h : k > 2 <;> by_cases h' : n > 1 <;> simp [h, h']

/-- `fill` of a fresh vector from an expression. -/
theorem Ret.fillLoop {env : Env V} {e : Expr V} {x : List V} (hd : Denotes env e x) {h : Heap V}
    {r : Heap V × Store} {l : List V} {mp : MP} (R : Ret h r l mp) (hl : x.length = l.length) :
    ∃ r', Store.fillLoop (e.size env) (fun _ i => e.el env i) r = (.ok (), r') ∧ Ret h r' x mp := by
  obtain ⟨h0, s0⟩ := r
  have hz : s0.sz = l.length := R.sh.1
  cases hp : s0.p with
  | none =>
    have h0' := (R.wf.null hp).1
    have h0' : s0.sz = 0 := h0'
    have hx : x = [] := List.length_eq_zero_iff.mp (by omega)
    have hl' : l = [] := List.length_eq_zero_iff.mp (by omega)
    subst hx hl'
    refine ⟨(h0, s0), ?_, R⟩
    unfold Store.fillLoop
    rw [M.bind_ok (self_apply _), M.bind_ok (M.ass_pos (show e.size env = s0.sz by rw [hd.1]; simp [h0']) _)]
    simp [h0']
  | some b =>
    obtain ⟨h', e', w, sh, st⟩ := loop_shows (l := x) (g := fun _ i => e.el env i) R.wf hp
      (by show s0.sz = _; omega) (fun i hi _ => hd.2 i hi)
    refine ⟨(h', s0), ?_, w, sh, R.mp, fun b hb => ?_, R.ge, R.next.trans st.next_le⟩
    · unfold Store.fillLoop
      rw [M.bind_ok (self_apply _), M.bind_ok (M.ass_pos (show e.size env = s0.sz by rw [hd.1]; omega) _)]
      exact e'
    · have := R.next
      rw [st.frame b (by omega) (fun hp => by have := R.ge b hp; omega)]
      exact R.frame b hb

/-- The tail of `matrix` after the sizes are known. -/
theorem matrix_ok {zero : V} {env : Env V} {nrows ncols : SizeArg} {a b : Num} (ha : nrows.First a)
    (hb : ncols.First b) (fa : a.Fits) (fb : b.Fits) {r c : Nat} (hr : asSize a = some r) (hc : asSize b = some c)
    (hlim : r * c < 2 ^ 59) {h : Heap V} (hs : h.sched = []) (x : Arg V) (ws : List String) :
    ∃ (fw : List String) (st : Heap V × Store), (∀ m ∈ fw, m = fracMsg) ∧ Ret h st (List.replicate (r * c) zero) ⟨true, r, c⟩ ∧
      matrix zero env x nrows ncols (ws, (h, {})) =
        (match x with
          | .scal v => retM (Store.fillScalar v)
          | .vec e => retM (Store.fillLoop (e.size env) (fun _ i => e.el env i)))
        (ws ++ matrixSays nrows ncols ++ fw, st) := by
  obtain ⟨f1, w1, e1⟩ := firstSize_ok ha fa hr (ws ++ matrixSays nrows ncols)
  obtain ⟨f2, w2, e2⟩ := firstSize_ok hb fb hc (ws ++ matrixSays nrows ncols ++ f1)
  have hpos : 1 ≤ r * c := Nat.mul_pos (asSize_pos hr) (asSize_pos hc)
  have hmod : r * c % two64 = r * c := Nat.mod_eq_of_lt (by unfold two64; omega)
  obtain ⟨st, es, R⟩ := ctorSize_spec (zero := zero) hs hpos hlim
  refine ⟨f1 ++ f2, (st.1, { st.2 with mp := ⟨true, r, c⟩ }), ?_, ?_, ?_⟩
  · intro m hm
    rcases List.mem_append.mp hm with hm | hm
    · rcases w1 with rfl | rfl <;> simp at hm; exact hm
    · rcases w2 with rfl | rfl <;> simp at hm; exact hm
  · exact ⟨⟨R.wf.1, R.wf.2⟩, R.sh, rfl, R.frame, R.ge, R.next⟩
  · simp only [matrix]
    rw [M.bind_ok (sayM_ok (matrixWarn_eq nrows ncols ws)), M.bind_ok (sayM_ok e1), M.bind_ok (sayM_ok e2),
      hmod, M.bind_ok (retM_ok es), M.bind_ok (retM_ok (upd_apply _ _)), ← List.append_assoc _ f1 f2]
    cases x <;> rfl

/-- C46: `matrix(s, r, c)` is an `r` by `c` matrix of `s`.  Missing: sizes given by doubles outside the range of
`int`, and products from `2^59` on. -/
theorem C46_scalar_partial {zero : V} (env : Env V) {nrows ncols : SizeArg} {a b : Num} (ha : nrows.First a)
    (hb : ncols.First b) (fa : a.Fits) (fb : b.Fits) {r c : Nat} (hr : asSize a = some r) (hc : asSize b = some c)
    (hlim : r * c < 2 ^ 59) {h : Heap V} (hs : h.sched = []) (v : V) (ws : List String) :
    ∃ ws', Returns (matrix zero env (.scal v) nrows ncols) h ws ws' (List.replicate (r * c) v) ⟨true, r, c⟩ := by
  obtain ⟨fw, st, _, R, e⟩ := matrix_ok (zero := zero) (env := env) ha hb fa fb hr hc hlim hs (.scal v) ws
  obtain ⟨r', er, R'⟩ := R.fill v
  rw [List.length_replicate] at R'
  exact ⟨_, R'.returns (e.trans (retM_ok er))⟩

example : ∃ ws', Returns (matrix 0 (listEnv ([] : List (List Int))) (.scal 7) (.one (.n 2)) (.vec 3 (.ok (.s (.i 3)))))
    Heap.empty [] ws' [7, 7, 7, 7, 7, 7] ⟨true, 2, 3⟩ :=
  C46_scalar_partial (a := .n 2) (b := .s (.i 3)) _ (.inl rfl) (.inr ⟨3, rfl⟩) trivial (by show InI32 3; decide)
    (r := 2) (c := 3) (by decide) (by decide) (by norm_num) rfl 7 []

/-- C46: `matrix(v, r, c)` has the elements of `v` in the order of the columns. -/
theorem C46_vector_partial {zero : V} (env : Env V) {nrows ncols : SizeArg} {a b : Num} (ha : nrows.First a)
    (hb : ncols.First b) (fa : a.Fits) (fb : b.Fits) {r c : Nat} (hr : asSize a = some r) (hc : asSize b = some c)
    (hlim : r * c < 2 ^ 59) {h : Heap V} (hs : h.sched = []) {e : Expr V} {x : List V} (hd : Denotes env e x)
    (ws : List String) :
    (x.length = r * c →
      ∃ ws' l, Returns (matrix zero env (.vec e) nrows ncols) h ws ws' l ⟨true, r, c⟩ ∧ l.length = r * c ∧
        ∀ i j, i < r → j < c → l[j * r + i]? = x[j * r + i]?) ∧
    (x.length ≠ r * c → Rejects (matrix zero env (.vec e) nrows ncols) h ws) := by
  obtain ⟨fw, st, _, R, em⟩ := matrix_ok (zero := zero) (env := env) ha hb fa fb hr hc hlim hs (.vec e) ws
  constructor
  · intro hx
    obtain ⟨r', er, R'⟩ := R.fillLoop hd (by simpa using hx)
    exact ⟨_, x, R'.returns (em.trans (retM_ok er)), hx, fun _ _ _ _ => rfl⟩
  · intro hx
    obtain ⟨h0, s0⟩ := st
    refine ⟨"cannot use fill with vectors of different lengths", _, em.trans (retM_ok (r' := (h0, s0)) ?_)⟩
    unfold Store.fillLoop
    have hz : s0.sz = r * c := by have := R.sh.1; simpa using this
    rw [M.bind_ok (self_apply _), M.bind_thr (M.ass_neg (show ¬ e.size env = s0.sz by rw [hd.1]; omega) _)]

example : Denotes (listEnv [[1, 2, 3, (4 : Int)]]) (.leaf 0) [1, 2, 3, 4] ∧
    Rejects (matrix 0 (listEnv [[1, 2, 3, (4 : Int)]]) (.vec (.leaf 0)) (.one (.n 2)) (.one (.n 3))) Heap.empty [] ∧
    ∃ ws' l, Returns (matrix 0 (listEnv [[1, 2, 3, (4 : Int)]]) (.vec (.leaf 0)) (.one (.n 2)) (.one (.n 2))) Heap.empty [] ws' l
      ⟨true, 2, 2⟩ ∧ l[2]? = some 3 := by
  have hd : Denotes (listEnv [[1, 2, 3, (4 : Int)]]) (.leaf 0) [1, 2, 3, 4] := ⟨by decide, by decide⟩
  refine ⟨hd, (C46_vector_partial (a := .n 2) (b := .n 3) _ (.inl rfl) (.inl rfl) trivial trivial
    (r := 2) (c := 3) (by decide) (by decide) (by norm_num) rfl hd []).2 (by decide), ?_⟩
  obtain ⟨ws', l, r, _, h⟩ := (C46_vector_partial (a := .n 2) (b := .n 2) _ (.inl rfl) (.inl rfl) trivial
    trivial (r := 2) (c := 2) (by decide) (by decide) (by norm_num) (h := Heap.empty) rfl hd []).1 (by decide)
  exact ⟨ws', l, r, h 0 1 (by decide) (by decide)⟩

/-- C46: dimensions below 1 are rejected. -/
theorem C46_reject_partial {zero : V} (env : Env V) {nrows ncols : SizeArg} {a b : Num} (ha : nrows.First a)
    (hb : ncols.First b) (fa : a.Fits) (fb : b.Fits) (hrc : asSize a = none ∨ asSize b = none) (h : Heap V)
    (x : Arg V) (ws : List String) : Rejects (matrix zero env x nrows ncols) h ws := by
  cases hr : asSize a with
  | none =>
    obtain ⟨m, w, e⟩ := firstSize_thr ha fa hr (ws ++ matrixSays nrows ncols)
    refine ⟨m, (w, (h, {})), ?_⟩
    simp only [matrix]
    rw [M.bind_ok (sayM_ok (matrixWarn_eq nrows ncols ws)), M.bind_thr (sayM_thr e)]
  | some r =>
    have hc : asSize b = none := hrc.resolve_left (by rw [hr]; simp)
    obtain ⟨f1, _, e1⟩ := firstSize_ok ha fa hr (ws ++ matrixSays nrows ncols)
    obtain ⟨m, w, e⟩ := firstSize_thr hb fb hc (ws ++ matrixSays nrows ncols ++ f1)
    refine ⟨m, (w, (h, {})), ?_⟩
    simp only [matrix]
    rw [M.bind_ok (sayM_ok (matrixWarn_eq nrows ncols ws)), M.bind_ok (sayM_ok e1), M.bind_thr (sayM_thr e)]

example : Rejects (matrix 0 (listEnv ([] : List (List Int))) (.scal 7) (.one (.n 2)) (.one (.s (.d (.fin (1 / 2)))))) Heap.empty [] :=
  C46_reject_partial (a := .n 2) (b := .s (.d (.fin (1 / 2)))) _ (.inl rfl) (.inl rfl) trivial
    ⟨_, rfl, by norm_num, by norm_num⟩ (.inr (by decide +kernel)) _ _ _

/-- C46 is false: with `2^63 + 1` rows and 2 columns the product wraps around and the matrix has 2 elements. -/
theorem C46_false_overflow :
    let r := (matrix 0 (listEnv ([] : List (List Int))) (.scal 7) (.one (.n (2 ^ 63 + 1))) (.one (.n 2))) ([], (Heap.empty, {}))
    r.1 = .ok () ∧ r.2.2.2.sz = 2 ∧ r.2.2.2.mp = ⟨true, 2 ^ 63 + 1, 2⟩ := by
  decide +kernel

example : (matrix 0 (listEnv ([] : List (List Int))) (.scal 7) (.one (.n 2)) (.vec 3 (.ok (.s (.d (.fin 3)))))
    ([], (Heap.empty, {}))).2.2.2.sz = 6 := by decide +kernel

/-! ## C47 `rep` -/

/-- The warnings printed by `rep` on account of the length of `times`. -/
def repSays : SizeArg → List String
  | .one _ => []
  | .vec n _ => if n > 1 then [timesMsg] else []

theorem repWarn_eq (a : SizeArg) (ws : List String) : repWarn a ws = (.ok (), ws ++ repSays a) := by
  cases a with
  | one x => simp [repWarn, repSays]
  | vec n x => simp only [repWarn, repSays, warn_eq]; by_cases h : n > 1 <;> simp [h]

/-- C47 for numbers. -/
theorem C47_scalar_partial {zero : V} (env : Env V) {times : SizeArg} {a : Num} (ha : times.First a) (fa : a.Fits)
    {k : Nat} (hk : asSize a = some k) (hlim : k < 2 ^ 59) {h : Heap V} (hs : h.sched = []) (v : V)
    (ws : List String) :
    ∃ ws', Returns (rep zero env (.scal v) times) h ws ws' (List.replicate k v) {} := by
  obtain ⟨fw, _, e1⟩ := firstSize_ok ha fa hk (ws ++ repSays times)
  obtain ⟨st, es, R⟩ := ctorSize_spec (zero := zero) hs (asSize_pos hk) hlim
  obtain ⟨r', er, R'⟩ := R.fill v
  rw [List.length_replicate] at R'
  refine ⟨ws ++ repSays times ++ fw, R'.returns ?_⟩
  · simp only [rep]
    rw [M.bind_ok (sayM_ok (repWarn_eq times ws)), M.bind_ok (sayM_ok e1), M.bind_ok (retM_ok es)]
    exact retM_ok er

example : ∃ ws', Returns (rep 0 (listEnv ([] : List (List Int))) (.scal 7) (.one (.s (.i 3)))) Heap.empty [] ws' [7, 7, 7] {} :=
  C47_scalar_partial (a := .s (.i 3)) _ (.inl rfl) (by show InI32 3; decide) (k := 3) (by decide) (by norm_num) rfl 7 []

/-- C47 for vectors with at least one element; the empty vector is rejected, see `C47_false_empty`. -/
theorem C47_vector_partial {zero : V} (env : Env V) {times : SizeArg} {a : Num} (ha : times.First a) (fa : a.Fits)
    {k : Nat} (hk : asSize a = some k) {e : Expr V} {x : List V} (hd : Denotes env e x) (hx : x ≠ [])
    (hlim : k * x.length < 2 ^ 59) {h : Heap V} (hs : h.sched = []) (ws : List String) :
    ∃ ws' l, Returns (rep zero env (.vec e) times) h ws ws' l {} ∧ l.length = x.length * k ∧
      ∀ i, i < x.length * k → l[i]? = x[i % x.length]? := by
  obtain ⟨fw, _, e1⟩ := firstSize_ok ha fa hk (ws ++ repSays times)
  have hxl : 0 < x.length := List.length_pos_iff.mpr hx
  have hpos : 1 ≤ k * x.length := Nat.mul_pos (asSize_pos hk) hxl
  obtain ⟨st, es, R⟩ := ctorSize_spec (zero := zero) hs hpos hlim
  obtain ⟨r', l', er, R', hl', _, hg⟩ := repLoop_ok hd (k * x.length) 0 0 R (by simp) (fun _ => hxl)
  refine ⟨ws ++ repSays times ++ fw, l', R'.returns ?_, by rw [hl', List.length_replicate, Nat.mul_comm], ?_⟩
  · simp only [rep]
    rw [M.bind_ok (sayM_ok (repWarn_eq times ws)), M.bind_ok (sayM_ok e1), hd.1,
      Nat.mod_eq_of_lt (show k * x.length < two64 by unfold two64; omega), M.bind_ok (retM_ok es)]
    exact retM_ok er
  · intro i hi
    have := hg i (by rw [Nat.mul_comm]; exact hi)
    simpa using this

/-- C47: `times` below 1 is rejected. -/
theorem C47_reject_partial {zero : V} (env : Env V) {times : SizeArg} {a : Num} (ha : times.First a) (fa : a.Fits)
    (hk : asSize a = none) (h : Heap V) (x : Arg V) (ws : List String) :
    Rejects (rep zero env x times) h ws := by
  obtain ⟨m, w, e⟩ := firstSize_thr ha fa hk (ws ++ repSays times)
  refine ⟨m, (w, (h, {})), ?_⟩
  simp only [rep]
  rw [M.bind_ok (sayM_ok (repWarn_eq times ws)), M.bind_thr (sayM_thr e)]

example : Rejects (rep 0 (listEnv [[1, 2, (3 : Int)]]) (.vec (.leaf 0)) (.one (.s (.i (-1))))) Heap.empty [] :=
  C47_reject_partial (a := .s (.i (-1))) _ (.inl rfl) (by show InI32 (-1); decide) (by decide) _ _ _

/-- C47 is false: repeating the empty vector throws instead of giving the empty vector. -/
theorem C47_false_empty :
    Denotes (listEnv [([] : List Int)]) (.leaf 0) [] ∧
    ((rep 0 (listEnv [([] : List Int)]) (.vec (.leaf 0)) (.one (.n 2))) ([], (Heap.empty, {}))).1
      = .thr "Size has to be larger than 0" := by
  refine ⟨⟨rfl, fun i hi => absurd hi (by simp)⟩, by decide +kernel⟩

example : ∃ ws' l, Returns (rep 0 (listEnv [[1, 2, (3 : Int)]]) (.vec (.leaf 0)) (.vec 2 (.ok (.s (.d (.fin (5 / 2)))))))
    Heap.empty [] ws' l {} ∧ l.length = 6 ∧ ∀ i, i < 6 → l[i]? = [1, 2, (3 : Int)][i % 3]? :=
  C47_vector_partial (k := 2) (a := .s (.d (.fin (5 / 2)))) _ (.inr ⟨2, rfl⟩) ⟨_, rfl, by norm_num, by norm_num⟩ (by decide +kernel)
    (x := [1, 2, 3]) ⟨by decide, by decide⟩ (by simp) (by norm_num) rfl []

end ETR
