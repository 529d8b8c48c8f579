import Verif.Props.AllocSeq
import Verif.Props.Traits
import Verif.Lemmas.Deriv
import Verif.Model.DerivAlloc

/-! # C85: `vector_*` and `colon` in derivative programs -/

namespace ETR
open F64 Spec

theorem sayC_ok {α : Type} {m : L α} {a : α} {ws ws' : List String} {b : Buf F64} (h : m ws = (.ok a, ws')) :
    sayC m (ws, b) = (.ok a, (ws', b)) := by
  unfold sayC; rw [M.zoom_apply]; simp [h]

theorem bufC_ok {α : Type} {m : M (Buf F64) α} {o : Out α} {ws : List String} {b b' : Buf F64} (h : m b = (o, b')) :
    bufC m (ws, b) = (o, (ws, b')) := by
  unfold bufC; rw [M.zoom_apply]; simp [h]

theorem resizeN_ok {n : Nat} {ws : List String} {b b' : Buf F64} (hn : 1 ≤ n) (h : Buf.resize (.fin 0) n b = (.ok (), b')) :
    resizeCon (.n n) (ws, b) = (.ok (), (ws, b')) := by
  unfold resizeCon
  rw [M.bind_ok (sayC_ok (m := convertSize (.n n)) (a := n) (ws' := ws) (by
    simp only [convertSize, convertSizeN]
    rw [M.bind_ok (M.ass_pos hn _)]
    rfl))]
  exact bufC_ok h

/-- The loop writes the whole sequence if the number of rounds is the size. -/
theorem seqLoopC_ok {T : Type} {conv : T → F64} {go : T → Bool} {step : T → Out T} {f : Nat → T} {k : Nat}
    (hgo : ∀ i, i < k → go (f i) = true) (hstep : ∀ i, i < k → step (f i) = .ok (f (i + 1)))
    (hend : go (f k) = false) {b : Buf F64} (R : b.Room k) :
    ∃ b', seqLoopC conv go step (k + 1) (f 0) 0 b = (.ok (), b') ∧ b'.Is ((List.range k).map (fun i => conv (f i))) ∧ b'.mp = b.mp := by
  suffices H : ∀ (m j : Nat) (b : Buf F64), b.Room k → (∀ i, i < j → b.cells[i]? = some (some (conv (f i)))) → j + m = k →
      ∃ b', seqLoopC conv go step (m + 1) (f j) j b = (.ok (), b') ∧ b'.Room k ∧
        (∀ i, i < k → b'.cells[i]? = some (some (conv (f i)))) ∧ b'.mp = b.mp by
    obtain ⟨b', e, R', c, m⟩ := H k 0 b R (fun i hi => absurd hi (by omega)) (by omega)
    refine ⟨b', e, Buf.is_of_cells (by simpa using R') (fun i hi => ?_), m⟩
    simp only [List.length_map, List.length_range] at hi
    simpa using c i hi
  intro m
  induction m with
  | zero =>
    intro j b R c hj
    have : j = k := by omega
    subst this
    exact ⟨b, by simp only [seqLoopC, hend]; rfl, R, c, rfl⟩
  | succ m ih =>
    intro j b R c hj
    obtain ⟨b2, e2, R2, c2, m2⟩ := ih (j + 1) { b with cells := b.cells.set j (some (conv (f j))) } R.set (fun i hi => by
      have hcap := R.cap
      rw [List.getElem?_set]
      by_cases h : j = i
      · subst h; rw [if_pos rfl, if_pos (by omega)]
      · rw [if_neg h]; exact c i (by omega)) (by omega)
    refine ⟨b2, ?_, R2, c2, m2⟩
    rw [seqLoopC]
    simp only [hgo j (by omega), if_true]
    rw [M.bind_ok (Buf.set_ok _ R (by omega)), M.bind_ok (m := M.lift (step (f j))) (a := f (j + 1)) (by rw [hstep j (by omega)]; rfl), e2]

/-- C85 for `colon<Idx>` of integers: whatever the constant was used for before, it is the sequence afterwards. -/
theorem C85_colon_partial {a b : Int} (ha : InI32 a) (hb : InI32 b) (hf : ColonFits a b) (buf : Buf F64) (ws : List String) :
    ∃ buf', colonConI a b (ws, buf) = (.ok (), (ws, buf')) ∧ buf'.Is ((intSeq a b).map (fun (i : Int) => F64.fin i)) ∧ buf'.mp = buf.mp := by
  obtain ⟨h1, h2, h3⟩ := hf
  unfold InI32 at ha hb
  by_cases hab : a < b
  · have h2 := h2 hab
    rw [abs_of_nonneg (by omega)] at h1
    obtain ⟨b1, eb1, r1, m1, _⟩ := Buf.resize_ok (F64.fin 0) buf (n := (b - a + 1).toNat) (by omega) (by omega)
    obtain ⟨b2, el, R', m2⟩ := seqLoopC_ok (conv := F64.ofInt) (go := fun x => decide (x ≤ b)) (step := fun x => ckI32 (x + 1))
      (f := fun (i : Nat) => a + (i : Int)) (k := (b - a + 1).toNat)
      (fun i hi => by simp only [decide_eq_true_eq]; omega)
      (fun i hi => by rw [ckI32_ok (by unfold InI32; omega)]; congr 1; push_cast; omega)
      (by simp only [decide_eq_false_iff_not]; omega) r1
    have : (intSeq a b).map (fun (i : Int) => F64.fin i) =
        (List.range (b - a + 1).toNat).map (fun (i : Nat) => F64.ofInt (a + (i : Int))) := by
      unfold intSeq; rw [if_pos (by omega), List.map_map]
      refine List.map_congr_left (fun i hi => ?_)
      rw [List.mem_range] at hi
      rw [Trait.ofInt_I32 (by unfold InI32; omega)]; rfl
    rw [this]
    refine ⟨b2, ?_, R', m2.trans m1⟩
    simp only [colonConI, if_pos hab]
    rw [M.bind_ok (m := M.lift _) (a := b - a) (by rw [ckI32_ok (by unfold InI32; omega)]; rfl),
      M.bind_ok (m := M.lift _) (a := b - a + 1) (by rw [ckI32_ok (by unfold InI32; omega)]; rfl),
      M.bind_ok (sayC_ok (sizeI (by omega) (by omega) ws)), M.bind_ok (resizeN_ok (by omega) eb1)]
    refine bufC_ok ?_
    simpa using el
  · have h3 := h3 (by omega)
    rw [abs_of_nonpos (by omega)] at h1
    obtain ⟨b1, eb1, r1, m1, _⟩ := Buf.resize_ok (F64.fin 0) buf (n := (a - b + 1).toNat) (by omega) (by omega)
    obtain ⟨b2, el, R', m2⟩ := seqLoopC_ok (conv := F64.ofInt) (go := fun x => decide (b ≤ x)) (step := fun x => ckI32 (x - 1))
      (f := fun (i : Nat) => a - (i : Int)) (k := (a - b + 1).toNat)
      (fun i hi => by simp only [decide_eq_true_eq]; omega)
      (fun i hi => by rw [ckI32_ok (by unfold InI32; omega)]; congr 1; push_cast; omega)
      (by simp only [decide_eq_false_iff_not]; omega) r1
    have : (intSeq a b).map (fun (i : Int) => F64.fin i) =
        (List.range (a - b + 1).toNat).map (fun (i : Nat) => F64.ofInt (a - (i : Int))) := by
      have h0 : intSeq a b = (List.range (a - b + 1).toNat).map (fun (i : Nat) => a - (i : Int)) := by
        unfold intSeq
        split
        · have : a = b := by omega
          subst this
          simp
        · rfl
      rw [h0, List.map_map]
      refine List.map_congr_left (fun i hi => ?_)
      rw [List.mem_range] at hi
      rw [Trait.ofInt_I32 (by unfold InI32; omega)]; rfl
    rw [this]
    refine ⟨b2, ?_, R', m2.trans m1⟩
    simp only [colonConI, if_neg hab]
    rw [M.bind_ok (m := M.lift _) (a := a - b) (by rw [ckI32_ok (by unfold InI32; omega)]; rfl),
      M.bind_ok (m := M.lift _) (a := a - b + 1) (by rw [ckI32_ok (by unfold InI32; omega)]; rfl),
      M.bind_ok (sayC_ok (sizeI (by omega) (by omega) ws)), M.bind_ok (resizeN_ok (by omega) eb1)]
    refine bufC_ok ?_
    simpa using el

/-- C85 for `colon<Idx>` of doubles where no rounding takes place (as in C49). -/
theorem C85_colon_double_partial {m n : Int} {p : Nat} (hp : p ≤ 53) (hm : |m| + 2 ^ p ≤ 2 ^ 53) (hn : |n| + 2 ^ p ≤ 2 ^ 53)
    (hd : |n - m| + 2 ^ p ≤ 2 ^ 53) {a b : ℚ} (ha : a = m / 2 ^ p) (hb : b = n / 2 ^ p)
    (hr : |b - a| + 1 < 2147483648) (buf : Buf F64) (ws : List String) :
    ∃ ws' buf' l, colonConD (.fin a) (.fin b) (ws, buf) = (.ok (), (ws', buf')) ∧ buf'.Is l ∧ buf'.mp = buf.mp ∧
      l.length = ⌊|b - a| + 1⌋.toNat ∧
      (∀ i, i < l.length → l[i]? = some (.fin (if a ≤ b then a + i else a - i))) ∧
      ∀ x ∈ l, ∃ q, x = F64.fin q ∧ min a b ≤ q ∧ q ≤ max a b := by
  have hP : (0 : ℚ) < 2 ^ p := by positivity
  have hPi : (0 : Int) < 2 ^ p := by positivity
  -- exactness of the numbers that occur
  have hex : ∀ (q : ℚ) (k : Int), q = k / 2 ^ p → |k| ≤ 2 ^ 53 → F64.rnd q = .fin q := by
    rintro q k rfl hk
    exact rnd_grid hk hp
  have hsub : ∀ x y : ℚ, ∀ k : Int, x - y = k / 2 ^ p → |k| ≤ 2 ^ 53 →
      F64.sub (.fin x) (.fin y) = .fin (x - y) := by
    intro x y k e hk
    show F64.rnd (x + -y) = _
    rw [← sub_eq_add_neg]
    exact hex _ k e hk
  have hM : ((m : ℚ)) = a * 2 ^ p := by rw [ha]; field_simp
  have hN : ((n : ℚ)) = b * 2 ^ p := by rw [hb]; field_simp
  have hmm := abs_le.mp (show |m| ≤ 2 ^ 53 - 2 ^ p by linarith)
  have hnn := abs_le.mp (show |n| ≤ 2 ^ 53 - 2 ^ p by linarith)
  have hdd := abs_le.mp (show |n - m| ≤ 2 ^ 53 - 2 ^ p by linarith)
  by_cases hab : a < b
  · have habs : |b - a| = b - a := abs_of_pos (by linarith)
    rw [habs] at hr ⊢
    have hq1 : (1 : ℚ) ≤ b - a + 1 := by linarith
    obtain ⟨fw, _, ec⟩ := convertSizeD_eq (q := b - a + 1) (by linarith) hr ws
    rw [if_pos hq1] at ec
    have hfl := floor_toNat hq1
    generalize hk : ⌊b - a + 1⌋.toNat = k at *
    have hk1 : (k : ℚ) ≤ b - a + 1 := by
      have := Int.floor_le (b - a + 1); rw [← hfl] at this; exact_mod_cast this
    have hk2 : b - a + 1 < k + 1 := by
      have := Int.lt_floor_add_one (b - a + 1); rw [← hfl] at this; exact_mod_cast this
    have hkpos : 1 ≤ k := by
      have : 1 ≤ ⌊b - a + 1⌋ := by rw [Int.le_floor]; exact_mod_cast hq1
      omega
    have hklt : k < 2147483648 := by
      have : (k : ℚ) < 2147483648 := by linarith
      exact_mod_cast this
    have e1 : F64.sub (.fin b) (.fin a) = .fin (b - a) :=
      hsub b a (n - m) (by push_cast; rw [ha, hb]; field_simp) (abs_le.mpr ⟨by linarith, by linarith⟩)
    have e2 : F64.add (.fin (b - a)) (.fin 1) = .fin (b - a + 1) :=
      hex _ (n - m + 2 ^ p) (by push_cast; rw [ha, hb]; field_simp) (by
        have hge : m ≤ n := by
          have : (m : ℚ) ≤ n := by rw [hM, hN]; exact mul_le_mul_of_nonneg_right hab.le hP.le
          exact_mod_cast this
        exact abs_le.mpr ⟨by linarith, by linarith⟩)
    obtain ⟨b1, eb1, r1, m1, _⟩ := Buf.resize_ok (F64.fin 0) buf hkpos (by omega)
    obtain ⟨b2, el, R', m2⟩ := seqLoopC_ok (conv := id) (go := fun x => F64.le x (.fin b))
      (step := fun x => .ok (F64.add x (.fin 1))) (f := fun (i : Nat) => F64.fin (a + (i : ℚ))) (k := k)
      (fun i hi => by
        have : (i : ℚ) + 1 ≤ k := by exact_mod_cast hi
        simp only [F64.le, decide_eq_true_eq]; linarith)
      (fun i hi => by
        have hi' : (i : ℚ) + 1 ≤ k := by exact_mod_cast hi
        have : F64.add (.fin (a + (i : ℚ))) (.fin 1) = .fin (a + (i : ℚ) + 1) :=
          hex _ (m + (i + 1) * 2 ^ p) (by push_cast; rw [ha]; field_simp; ring) (by
            have h1 : m + (i + 1) * 2 ^ p ≤ n + 2 ^ p := by
              have : (m : ℚ) + (i + 1) * 2 ^ p ≤ n + 2 ^ p := by
                rw [hM, hN]
                have := mul_le_mul_of_nonneg_right (show a + (i + 1) ≤ b + 1 by linarith) hP.le
                linarith
              exact_mod_cast this
            have h2 : 0 ≤ ((i : Int) + 1) * 2 ^ p := by positivity
            exact abs_le.mpr ⟨by linarith, by linarith⟩)
        rw [this]
        congr 2
        push_cast; ring)
      (by simp only [F64.le, decide_eq_false_iff_not]; linarith) r1
    refine ⟨ws ++ fw, b2, _, ?_, R', m2.trans m1, by simp, ?_, ?_⟩
    · have hlt : F64.lt (.fin a) (.fin b) = true := by simpa [F64.lt] using hab
      unfold colonConD
      rw [if_pos hlt, e1, e2, M.bind_ok (sayC_ok ec), M.bind_ok (resizeN_ok hkpos eb1)]
      refine bufC_ok ?_
      simpa using el
    · intro i hi
      simp only [List.length_map, List.length_range] at hi
      rw [if_pos hab.le]
      simp [hi]
    · intro x hx
      simp only [List.mem_map, List.mem_range] at hx
      obtain ⟨i, hi, rfl⟩ := hx
      have hi' : (i : ℚ) + 1 ≤ k := by exact_mod_cast hi
      have hi0 : (0 : ℚ) ≤ i := by positivity
      exact ⟨_, rfl, by rw [min_eq_left hab.le]; linarith, by rw [max_eq_right hab.le]; linarith⟩
  · have hba : b ≤ a := not_lt.mp hab
    have habs : |b - a| = a - b := by rw [abs_sub_comm]; exact abs_of_nonneg (by linarith)
    rw [habs] at hr ⊢
    have hq1 : (1 : ℚ) ≤ a - b + 1 := by linarith
    obtain ⟨fw, _, ec⟩ := convertSizeD_eq (q := a - b + 1) (by linarith) hr ws
    rw [if_pos hq1] at ec
    have hfl := floor_toNat hq1
    generalize hk : ⌊a - b + 1⌋.toNat = k at *
    have hk1 : (k : ℚ) ≤ a - b + 1 := by
      have := Int.floor_le (a - b + 1); rw [← hfl] at this; exact_mod_cast this
    have hk2 : a - b + 1 < k + 1 := by
      have := Int.lt_floor_add_one (a - b + 1); rw [← hfl] at this; exact_mod_cast this
    have hkpos : 1 ≤ k := by
      have : 1 ≤ ⌊a - b + 1⌋ := by rw [Int.le_floor]; exact_mod_cast hq1
      omega
    have hklt : k < 2147483648 := by
      have : (k : ℚ) < 2147483648 := by linarith
      exact_mod_cast this
    have e1 : F64.sub (.fin a) (.fin b) = .fin (a - b) :=
      hsub a b (m - n) (by push_cast; rw [ha, hb]; field_simp) (abs_le.mpr ⟨by linarith, by linarith⟩)
    have e2 : F64.add (.fin (a - b)) (.fin 1) = .fin (a - b + 1) :=
      hex _ (m - n + 2 ^ p) (by push_cast; rw [ha, hb]; field_simp) (by
        have hge : n ≤ m := by
          have : (n : ℚ) ≤ m := by rw [hM, hN]; exact mul_le_mul_of_nonneg_right hba hP.le
          exact_mod_cast this
        exact abs_le.mpr ⟨by linarith, by linarith⟩)
    obtain ⟨b1, eb1, r1, m1, _⟩ := Buf.resize_ok (F64.fin 0) buf hkpos (by omega)
    obtain ⟨b2, el, R', m2⟩ := seqLoopC_ok (conv := id) (go := fun x => F64.le (.fin b) x)
      (step := fun x => .ok (F64.sub x (.fin 1))) (f := fun (i : Nat) => F64.fin (a - (i : ℚ))) (k := k)
      (fun i hi => by
        have : (i : ℚ) + 1 ≤ k := by exact_mod_cast hi
        simp only [F64.le, decide_eq_true_eq]; linarith)
      (fun i hi => by
        have hi' : (i : ℚ) + 1 ≤ k := by exact_mod_cast hi
        have : F64.sub (.fin (a - (i : ℚ))) (.fin 1) = .fin (a - (i : ℚ) - 1) :=
          hsub _ _ (m - (i + 1) * 2 ^ p) (by push_cast; rw [ha]; field_simp; ring) (by
            have h1 : n - 2 ^ p ≤ m - (i + 1) * 2 ^ p := by
              have : (n : ℚ) - 2 ^ p ≤ m - (i + 1) * 2 ^ p := by
                rw [hM, hN]
                have := mul_le_mul_of_nonneg_right (show b - 1 ≤ a - (i + 1) by linarith) hP.le
                linarith
              exact_mod_cast this
            have h2 : 0 ≤ ((i : Int) + 1) * 2 ^ p := by positivity
            exact abs_le.mpr ⟨by linarith, by linarith⟩)
        rw [this]
        congr 2
        push_cast; ring)
      (by simp only [F64.le, decide_eq_false_iff_not]; linarith) r1
    refine ⟨ws ++ fw, b2, _, ?_, R', m2.trans m1, by simp, ?_, ?_⟩
    · have hlt : ¬ F64.lt (.fin a) (.fin b) = true := by simpa [F64.lt] using hab
      unfold colonConD
      rw [if_neg hlt, e1, e2, M.bind_ok (sayC_ok ec), M.bind_ok (resizeN_ok hkpos eb1)]
      refine bufC_ok ?_
      simpa using el
    · intro i hi
      simp only [List.length_map, List.length_range] at hi
      by_cases h2 : a ≤ b
      · have : a = b := le_antisymm h2 hba
        have hi0 : i = 0 := by
          have : (i : ℚ) + 1 ≤ k := by exact_mod_cast hi
          have : (i : ℚ) < 1 := by linarith
          have : i < 1 := by exact_mod_cast this
          omega
        subst hi0
        have : 0 < k := hkpos
        simp [this]
      · rw [if_neg h2]
        simp [hi]
    · intro x hx
      simp only [List.mem_map, List.mem_range] at hx
      obtain ⟨i, hi, rfl⟩ := hx
      have hi' : (i : ℚ) + 1 ≤ k := by exact_mod_cast hi
      have hi0 : (0 : ℚ) ≤ i := by positivity
      exact ⟨_, rfl, by rw [min_eq_right hba]; linarith, by rw [max_eq_left hba]; linarith⟩


/-- What `resize` makes of a constant: if the memory is sufficient only the size changes, otherwise all elements are zero. -/
theorem resizeCon_spec {a : Num} (hf : a.Fits) {k : Nat} (hk : asSize a = some k) (hk2 : k ≤ 2 ^ 59) (buf : Buf F64) (ws : List String) :
    ∃ ws' buf', resizeCon a (ws, buf) = (.ok (), (ws', buf')) ∧ buf'.mp = buf.mp ∧ buf'.Room k ∧
      (buf.allocated = true ∧ k ≤ buf.cells.length → buf'.cells = buf.cells) ∧
      (¬ (buf.allocated = true ∧ k ≤ buf.cells.length) → buf'.Is (List.replicate k (.fin 0))) := by
  obtain ⟨fw, _, ec⟩ := convertSize_ok hf hk ws
  have h1 : 1 ≤ k := asSize_pos hk
  unfold resizeCon
  rw [M.bind_ok (sayC_ok ec)]
  by_cases hc : buf.allocated = true ∧ k ≤ buf.cells.length
  · refine ⟨_, { buf with sz := k }, bufC_ok (by unfold Buf.resize; rw [if_neg (by omega), if_pos hc]), rfl, ⟨hc.1, rfl, hc.2⟩,
      fun _ => rfl, fun h => absurd hc h⟩
  · obtain ⟨c, e, hlo, hhi⟩ := capOf_spec (n := k) (by omega)
    have R : Buf.Room { buf with cells := List.replicate k (some (F64.fin 0)) ++ List.replicate (c - k) none, sz := k, allocated := true } k :=
      ⟨rfl, rfl, by simp⟩
    refine ⟨_, { buf with cells := List.replicate k (some (F64.fin 0)) ++ List.replicate (c - k) none, sz := k, allocated := true },
      bufC_ok (by
        unfold Buf.resize
        rw [if_neg (by omega), if_neg hc, e]
        simp only []
        rw [if_neg (by omega), if_neg (by omega)]), rfl, R, fun h => absurd h hc, fun _ => ?_⟩
    refine Buf.is_of_cells (by simpa using R) (fun i hi => ?_)
    simp only [List.length_replicate] at hi
    rw [List.getElem?_append_left (by simpa using hi)]
    simp [hi]

/-- The same for `vector_*<Idx>`, with one conversion of the size or two. -/
theorem vectorCon_spec {a : Num} (hf : a.Fits) {k : Nat} (hk : asSize a = some k) (hk2 : k ≤ 2 ^ 59) (buf : Buf F64) (ws : List String) :
    ∃ ws' buf', vectorCon (.one a) (ws, buf) = (.ok (), (ws', buf')) ∧ buf'.mp = buf.mp ∧ buf'.Room k ∧
      (buf.allocated = true ∧ k ≤ buf.cells.length → buf'.cells = buf.cells) ∧
      (¬ (buf.allocated = true ∧ k ≤ buf.cells.length) → buf'.Is (List.replicate k (.fin 0))) := by
  have H := resizeCon_spec hf hk hk2
  obtain ⟨ws1, b1, e1, m1, r1, c1, z1⟩ := H buf ws
  cases a with
  | n m => exact ⟨ws1, b1, e1, m1, r1, c1, z1⟩
  | s v =>
    cases v with
    | i m => exact ⟨ws1, b1, e1, m1, r1, c1, z1⟩
    | b m => exact ⟨ws1, b1, e1, m1, r1, c1, z1⟩
    | d x =>
      obtain ⟨ws2, b2, e2, m2, r2, c2, _⟩ := H b1 ws1
      have c2 := c2 ⟨r1.al, r1.cap⟩
      refine ⟨ws2, b2, ?_, m2.trans m1, r2, fun h => c2.trans (c1 h), fun h => ?_⟩
      · simp only [vectorCon]
        rw [M.bind_ok e1, e2]
      · have hz := z1 h
        refine Buf.is_of_cells (by simpa using r2) (fun i hi => ?_)
        rw [c2]
        exact hz.cell hi

/-- C85 for `vector_*<Idx>(k)`: zeros, if the constant has no memory or not enough for `k` elements. -/
theorem C85_vector_partial {a : Num} (hf : a.Fits) {k : Nat} (hk : asSize a = some k) (hk2 : k ≤ 2 ^ 59) {buf : Buf F64}
    (hn : buf.allocated = true → buf.cells.length < k) (ws : List String) :
    ∃ ws' buf', vectorCon (.one a) (ws, buf) = (.ok (), (ws', buf')) ∧ buf'.Is (List.replicate k (.fin 0)) ∧ buf'.mp = buf.mp := by
  obtain ⟨ws', b', e, m, _, _, z⟩ := vectorCon_spec hf hk hk2 buf ws
  exact ⟨ws', b', e, z (fun h => by have := hn h.1; omega), m⟩

/-- The length argument may be a vector with exactly one element, which is then the length; a vector with any other number
of elements is rejected, and nothing is changed or printed. -/
theorem C85_vector_length {n : Nat} (hn : n ≠ 1) (f : Out Num) (st : List String × Buf F64) :
    vectorCon (.vec n f) st = (.thr "invalid length argument", st) := by
  obtain ⟨ws, buf⟩ := st
  show ((M.ass (n = 1) "invalid length argument" : CM Unit) >>= fun _ => M.lift f >>= resizeCon) (ws, buf) = _
  rw [M.bind_apply]
  simp [M.ass, Out.ass, hn]

/-- C85 for a length argument that is a vector with one element. -/
theorem C85_vector_argument_partial {a : Num} (hf : a.Fits) {k : Nat} (hk : asSize a = some k) (hk2 : k ≤ 2 ^ 59) {buf : Buf F64}
    (hn : buf.allocated = true → buf.cells.length < k) (ws : List String) :
    ∃ ws' buf', vectorCon (.vec 1 (.ok a)) (ws, buf) = (.ok (), (ws', buf')) ∧ buf'.Is (List.replicate k (.fin 0)) ∧
      buf'.mp = buf.mp := by
  obtain ⟨ws', b', e, m, _, _, z⟩ := resizeCon_spec hf hk hk2 buf ws
  exact ⟨ws', b', e, z (fun h => by have := hn h.1; omega), m⟩

/-- What happens otherwise: a constant that shows at least `k` elements keeps the first `k` of them. -/
theorem C85_vector_characterised {a : Num} (hf : a.Fits) {k : Nat} (hk : asSize a = some k) (hk2 : k ≤ 2 ^ 59) {buf : Buf F64} {l : List F64}
    (hl : buf.Is l) (hkl : k ≤ l.length) (ws : List String) :
    ∃ ws' buf', vectorCon (.one a) (ws, buf) = (.ok (), (ws', buf')) ∧ buf'.Is (l.take k) ∧ buf'.mp = buf.mp := by
  have h1 : 1 ≤ k := asSize_pos hk
  have R := hl.room (by omega)
  obtain ⟨ws', b', e, m, r, c, _⟩ := vectorCon_spec hf hk hk2 buf ws
  have hlen : (l.take k).length = k := by simp [hkl]
  refine ⟨ws', b', e, Buf.is_of_cells (by rw [hlen]; exact r) (fun i hi => ?_), m⟩
  rw [hlen] at hi
  rw [c ⟨R.al, hkl.trans R.cap⟩, hl.cell (by omega)]
  simp

/-- C85 for `colon<Idx>` with vectors as arguments: the first elements count, and the warning is printed exactly if one of the arguments
is a vector with more than one element. -/
theorem C85_colon_argument_partial {s e : CArg Int} {a b : Int} (h1 : FirstIs s a) (h2 : FirstIs e b) (ha : InI32 a) (hb : InI32 b)
    (hf : ColonFits a b) (buf : Buf F64) :
    ∃ ws' buf', colonConInt s e ([], buf) = (.ok (), (ws', buf')) ∧ buf'.Is ((intSeq a b).map (fun (i : Int) => F64.fin i)) ∧
      buf'.mp = buf.mp ∧ (colonMsg ∈ ws' ↔ ∃ x n f, x ∈ [s, e] ∧ x = .vec n f ∧ 1 < n) := by
  obtain ⟨buf', er, hi, hm⟩ := C85_colon_partial ha hb hf buf (colonSays e ++ colonSays s)
  refine ⟨_, buf', ?_, hi, hm, colonSays_iff (h1.size h2)⟩
  simp only [colonConInt]
  rw [M.bind_ok (sayC_ok (colonWarn_eq e [])), List.nil_append, M.bind_ok (sayC_ok (colonWarn_eq s _)),
    M.bind_ok (m := M.lift _) (a := a) (by rw [h1.value]; rfl), M.bind_ok (m := M.lift _) (a := b) (by rw [h2.value]; rfl)]
  exact er

/-- C85 for `colon<Idx>` of doubles with vectors as arguments, where no rounding takes place: the first elements count. -/
theorem C85_colon_double_argument_partial {s e : CArg F64} {a b : ℚ} (h1 : FirstIs s (.fin a)) (h2 : FirstIs e (.fin b)) {m n : Int}
    {p : Nat} (hp : p ≤ 53) (hm : |m| + 2 ^ p ≤ 2 ^ 53) (hn : |n| + 2 ^ p ≤ 2 ^ 53) (hd : |n - m| + 2 ^ p ≤ 2 ^ 53)
    (ha : a = m / 2 ^ p) (hb : b = n / 2 ^ p) (hr : |b - a| + 1 < 2147483648) (buf : Buf F64) (ws : List String) :
    ∃ ws' buf' l, colonConDbl s e (ws, buf) = (.ok (), (ws', buf')) ∧ buf'.Is l ∧ buf'.mp = buf.mp ∧
      l.length = ⌊|b - a| + 1⌋.toNat ∧ ∀ i, i < l.length → l[i]? = some (.fin (if a ≤ b then a + i else a - i)) := by
  obtain ⟨ws', buf', l, er, hi, hmp, hl, hel, _⟩ := C85_colon_double_partial hp hm hn hd ha hb hr buf (ws ++ colonSays e ++ colonSays s)
  refine ⟨ws', buf', l, ?_, hi, hmp, hl, hel⟩
  simp only [colonConDbl]
  rw [M.bind_ok (sayC_ok (colonWarn_eq e ws)), M.bind_ok (sayC_ok (colonWarn_eq s _)),
    M.bind_ok (m := M.lift _) (a := F64.fin a) (by rw [h1.value]; rfl), M.bind_ok (m := M.lift _) (a := F64.fin b) (by rw [h2.value]; rfl)]
  exact er

/-- A constant after `colon<0>(7, 9)`. -/
def usedCon : Buf F64 := (colonConI 7 9 ([], {})).2.2

/-- A constant after `colon<0>(1, 7)`. -/
def usedCon7 : Buf F64 := (colonConI 1 7 ([], {})).2.2

/-- C85 is false: `vector_numeric<0>(2)` after `colon<0>(7, 9)` is `[7, 8]`. -/
theorem C85_false : vectorCon (.one (.s (.i 2))) ([], usedCon) = (.ok (), ([], { usedCon with sz := 2 })) ∧
    usedCon.get 0 = .ok (.fin 7) ∧ ({ usedCon with sz := 2 } : Buf F64).get 0 = .ok (.fin 7) ∧
    ({ usedCon with sz := 2 } : Buf F64).get 1 = .ok (.fin 8) := by decide +kernel

/-- After `colon<0>(1, 7)` the last element of `vector_numeric<0>(8)` is uninitialised memory. -/
theorem C85_false_uninit : (vectorCon (.one (.s (.i 8))) ([], usedCon7)).1 = .ok () ∧
    (vectorCon (.one (.s (.i 8))) ([], usedCon7)).2.2.get 6 = .ok (.fin 7) ∧
    (vectorCon (.one (.s (.i 8))) ([], usedCon7)).2.2.get 7 = .ub .uninit := by decide +kernel

/-- `colon<0>(9, 7)` after `colon<0>(1, 7)`, and `vector_numeric<0>(2)` for a constant without memory. -/
example : (colonConI 9 7 ([], usedCon7)).2.2.get 2 = .ok (.fin 7) ∧ (colonConI 9 7 ([], usedCon7)).2.2.sz = 3 ∧
    (vectorCon (.one (.s (.i 2))) ([], {})).2.2.get 1 = .ok (.fin 0) := by decide +kernel

/-- `C85_colon_partial` and `C85_colon_double_partial` applied to a constant that is in use. -/
example : ∃ buf', colonConI 3 1 ([], usedCon7) = (.ok (), ([], buf')) ∧ buf'.Is [.fin 3, .fin 2, .fin 1] := by
  obtain ⟨b, e, h, _⟩ := C85_colon_partial (a := 3) (b := 1) (by decide) (by decide) ⟨by decide, by decide, by decide⟩ usedCon7 []
  exact ⟨b, e, (show (intSeq 3 1).map (fun (i : Int) => F64.fin i) = [.fin 3, .fin 2, .fin 1] by decide +kernel) ▸ h⟩

example : ∃ ws' buf' l, colonConD (.fin (-1 / 2)) (.fin (9 / 4)) ([], usedCon7) = (.ok (), (ws', buf')) ∧ buf'.Is l ∧ l.length = 3 := by
  obtain ⟨ws', b, l, e, h, _, hl, _⟩ := C85_colon_double_partial (m := -2) (n := 9) (p := 2) (by norm_num) (by norm_num) (by norm_num)
    (by norm_num) (a := -1 / 2) (b := 9 / 4) (by norm_num) (by norm_num) (by norm_num) usedCon7 []
  exact ⟨ws', b, l, e, h, hl.trans (by norm_num; rfl)⟩

/-- `C85_colon_argument_partial` and `C85_colon_double_argument_partial` applied to `colon<0>(v, 1)` where `v` begins with 3, and to
`colon<0>(-0.5, w)` where `w` begins with 2.25. -/
example : ∃ ws' buf', colonConInt (.vec 2 (.ok 3)) (.one 1) ([], usedCon7) = (.ok (), (ws', buf')) ∧ buf'.Is [.fin 3, .fin 2, .fin 1] ∧
    colonMsg ∈ ws' := by
  obtain ⟨ws', b, e, h, _, hw⟩ := C85_colon_argument_partial (s := .vec 2 (.ok 3)) (e := .one 1) (.inr ⟨2, by decide, rfl⟩) (.inl rfl)
    (by decide) (by decide) ⟨by decide, by decide, by decide⟩ usedCon7
  exact ⟨ws', b, e, (show (intSeq 3 1).map (fun (i : Int) => F64.fin i) = [.fin 3, .fin 2, .fin 1] by decide +kernel) ▸ h,
    hw.mpr ⟨.vec 2 (.ok 3), 2, .ok 3, by simp, rfl, by norm_num⟩⟩

example : ∃ ws' buf' l, colonConDbl (.one (.fin (-1 / 2))) (.vec 3 (.ok (.fin (9 / 4)))) ([], usedCon7) = (.ok (), (ws', buf')) ∧
    buf'.Is l ∧ l.length = 3 := by
  obtain ⟨ws', b, l, e, h, _, hl, _⟩ := C85_colon_double_argument_partial (s := .one (.fin (-1 / 2))) (e := .vec 3 (.ok (.fin (9 / 4))))
    (.inl rfl) (.inr ⟨3, by decide, rfl⟩) (m := -2) (n := 9) (p := 2) (by norm_num) (by norm_num) (by norm_num)
    (by norm_num) (by norm_num) (by norm_num) (by norm_num) usedCon7 []
  exact ⟨ws', b, l, e, h, hl.trans (by norm_num; rfl)⟩

/-- The theorems on `vector_*` applied. -/
example : ∃ ws' buf', vectorCon (.one (.s (.i 9))) ([], usedCon7) = (.ok (), (ws', buf')) ∧ buf'.Is (List.replicate 9 (.fin 0)) := by
  obtain ⟨ws', b, e, h, _⟩ := C85_vector_partial (a := .s (.i 9)) (by show InI32 9; decide) (k := 9) (by decide) (by decide)
    (buf := usedCon7) (fun _ => by decide +kernel) []
  exact ⟨ws', b, e, h⟩

example : vectorCon (.vec 2 (.ok (.n 3))) ([], usedCon7) = (.thr "invalid length argument", ([], usedCon7)) :=
  C85_vector_length (by decide) _ _

example : ∃ ws' buf', vectorCon (.vec 1 (.ok (.s (.i 9)))) ([], usedCon7) = (.ok (), (ws', buf')) ∧ buf'.Is (List.replicate 9 (.fin 0)) := by
  obtain ⟨ws', b, e, h, _⟩ := C85_vector_argument_partial (a := .s (.i 9)) (by show InI32 9; decide) (k := 9) (by decide) (by decide)
    (buf := usedCon7) (fun _ => by decide +kernel) []
  exact ⟨ws', b, e, h⟩

example : ∃ ws' buf', vectorCon (.one (.s (.i 2))) ([], usedCon) = (.ok (), (ws', buf')) ∧ buf'.Is [.fin 7, .fin 8] := by
  obtain ⟨b, e, h, _⟩ := C85_colon_partial (a := 7) (b := 9) (by decide) (by decide) ⟨by decide, by decide, by decide⟩ {} []
  have hb : usedCon = b := congrArg (fun z => z.2.2) e
  obtain ⟨ws', b', e', h', _⟩ := C85_vector_characterised (a := .s (.i 2)) (by show InI32 2; decide) (k := 2) (by decide) (by decide)
    (hb ▸ h) (by simp [intSeq]) []
  exact ⟨ws', b', e', (show ((intSeq 7 9).map (fun (i : Int) => F64.fin i)).take 2 = [.fin 7, .fin 8] by decide +kernel) ▸ h'⟩

end ETR
