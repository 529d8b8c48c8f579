import Verif.Spec.Interp
import Verif.Lemmas.Alloc
import Mathlib.Tactic.LinearCombination

/-! Lemmas on interpolation. -/

namespace ETR
open Spec Store
variable {T : Type}

theorem ix_small {k : Nat} (h : k < 2147483648) : ix k = k := by
  unfold ix
  have : wrapI32 k = k := by unfold wrapI32; simp only []; split <;> omega
  rw [this, wrap64_small (by omega)]

theorem Shows.view {h : Heap T} {s : Store} {l : List T} (hs : Shows h s l) : (s.view h).Is l :=
  ⟨hs.1, hs.2, fun _ hi => get_of_ge (by rw [hs.1]; exact hi)⟩

/-- The neighbours used at round `i`, counted around the end. -/
theorem cmrSegment_ok (A : Arith T) {time par : View T} {ts ys : List T} (ht : time.Is ts) (hy : par.Is ys)
    (hl : ts.length = ys.length) (h4 : 4 ≤ ts.length) (hlim : ts.length < 2147483648) {i : Nat}
    (hi : i + 2 < ts.length) :
    cmrSegment A time par i = .ok
      ⟨ts[(i + ts.length - 1) % ts.length]'(Nat.mod_lt _ (by omega)), ts[i], ts[i + 1], ts[i + 2],
       ys[(i + ts.length - 1) % ts.length]'(by rw [← hl]; exact Nat.mod_lt _ (by omega)), ys[i], ys[i + 1], ys[i + 2]⟩ := by
  have e0 : (if i = 0 then ix (time.size - 1) else ix (i - 1)) = (i + ts.length - 1) % ts.length := by
    rw [ht.size]
    split
    · rename_i h0
      subst h0
      rw [ix_small (by omega), Nat.zero_add, Nat.mod_eq_of_lt (by omega)]
    · rw [ix_small (by omega), show i + ts.length - 1 = i - 1 + ts.length by omega, Nat.add_mod_right,
        Nat.mod_eq_of_lt (by omega)]
  unfold cmrSegment
  simp only [e0]
  rw [ht.el _ (Nat.mod_lt _ (by omega)), hy.el _ (by rw [← hl]; exact Nat.mod_lt _ (by omega)),
    ix_small (show i < 2147483648 by omega), ix_small (show i + 1 < 2147483648 by omega),
    ix_small (show i + 2 < 2147483648 by omega)]
  rw [ht.el i (by omega), hy.el i (by omega), ht.el (i + 1) (by omega), hy.el (i + 1) (by omega),
    ht.el (i + 2) (by omega), hy.el (i + 2) (by omega)]
  simp only [Out.ok_bind]
  rw [if_neg (by rw [ht.size]; omega)]
  rfl

/-- The values used in the last interval, where `back()` is read. -/
theorem cmrSegment_back (A : Arith T) {time par : View T} {ts ys : List T} (ht : time.Is ts) (hy : par.Is ys)
    (hl : ts.length = ys.length) (h4 : 4 ≤ ts.length) (hlim : ts.length < 2147483648) :
    cmrSegment A time par (ts.length - 2) = (do
      let b ← time.back
      return ⟨ts[ts.length - 3], ts[ts.length - 2], ts[ts.length - 1], A.add ts[0] b,
        ys[ts.length - 3], ys[ts.length - 2], ys[ts.length - 1], ys[0]⟩) := by
  unfold cmrSegment
  simp only []
  rw [if_neg (show ¬ ts.length - 2 = 0 by omega), 
    ix_small (show ts.length - 2 - 1 < 2147483648 by omega), ix_small (show ts.length - 2 < 2147483648 by omega),
    ix_small (show ts.length - 2 + 1 < 2147483648 by omega), ix_small (show 0 < 2147483648 by omega)]
  rw [ht.el _ (show ts.length - 2 - 1 < ts.length by omega), hy.el _ (show ts.length - 2 - 1 < ys.length by omega),
    ht.el _ (show ts.length - 2 < ts.length by omega), hy.el _ (show ts.length - 2 < ys.length by omega),
    ht.el _ (show ts.length - 2 + 1 < ts.length by omega), hy.el _ (show ts.length - 2 + 1 < ys.length by omega),
    ht.el 0 (by omega), hy.el 0 (by omega)]
  have a1 : ts.length - 2 - 1 = ts.length - 3 := by omega
  have a2 : ts.length - 2 + 1 = ts.length - 1 := by omega
  simp only [a1, a2, Out.ok_bind]
  rw [if_pos (by rw [ht.size])]

theorem cmrLast_ok {time par : View T} {ts ys : List T} (ht : time.Is ts) (hy : par.Is ys)
    (hl : ts.length = ys.length) (h4 : 4 ≤ ts.length) (hlim : ts.length < 2147483648) :
    cmrLast time par = .ok ⟨ts[ts.length - 2], ts[ts.length - 1], ts[0], ts[1],
      ys[ts.length - 2], ys[ts.length - 1], ys[0], ys[1]⟩ := by
  unfold cmrLast
  simp only [ht.size]
  rw [ix_small (show ts.length - 2 < 2147483648 by omega), ix_small (show ts.length - 1 < 2147483648 by omega),
    Nat.sub_self, ix_small (show 0 < 2147483648 by omega), show ts.length + 1 - ts.length = 1 by omega,
    ix_small (show 1 < 2147483648 by omega)]
  rw [ht.el _ (show ts.length - 2 < ts.length by omega), hy.el _ (show ts.length - 2 < ys.length by omega),
    ht.el _ (show ts.length - 1 < ts.length by omega), hy.el _ (show ts.length - 1 < ys.length by omega),
    ht.el 0 (by omega), hy.el 0 (by omega), ht.el 1 (by omega), hy.el 1 (by omega)]
  rfl

/-- The time `t` lies in the interval `i`. -/
def Arith.In (A : Arith T) (ts : List T) (t : T) (i : Nat) : Prop :=
  ∃ h : i + 1 < ts.length, A.le ts[i] t = true ∧ A.lt t ts[i + 1] = true

/-- Rounds before the interval is found. -/
theorem cmrLoop_skip (A : Arith T) {t : T} {time par : View T} {ts : List T} (ht : time.Is ts) {k : Nat}
    (hk : k < ts.length) (hno : ∀ j, j < k → ¬ A.In ts t j) :
    ∀ m f, m ≤ k → cmrLoop A t time par (m + f) (k - m) = cmrLoop A t time par f k := by
  intro m
  induction m with
  | zero => intro f _; simp
  | succ m ih =>
    intro f hm
    have e : m + 1 + f = (m + f) + 1 := by omega
    rw [e, cmrLoop, if_neg (by rw [ht.size]; omega), ht.el (k - (m + 1)) (by omega)]
    simp only [Out.ok_bind]
    have hstep : k - (m + 1) + 1 = k - m := by omega
    have := hno (k - (m + 1)) (by omega)
    by_cases h1 : A.le ts[k - (m + 1)] t = true
    · rw [if_pos h1, ht.el (k - (m + 1) + 1) (by omega)]
      simp only [Out.ok_bind]
      rw [if_neg (fun h2 => this ⟨by omega, h1, h2⟩), hstep]
      exact ih f (by omega)
    · rw [if_neg h1, hstep]
      exact ih f (by omega)

theorem cmrLoop_in (A : Arith T) {t : T} {time par : View T} {ts : List T} (ht : time.Is ts) {k : Nat}
    (hin : A.In ts t k) (hno : ∀ j, j < k → ¬ A.In ts t j) :
    cmrLoop A t time par (time.size + 1) 0 = cmrSegment A time par k := by
  obtain ⟨hk, h1, h2⟩ := hin
  have := cmrLoop_skip A (t := t) (par := par) ht (k := k) (by omega) hno k (ts.length + 1 - k) (le_refl _)
  rw [Nat.sub_self, show k + (ts.length + 1 - k) = ts.length + 1 by omega] at this
  rw [ht.size, this, show ts.length + 1 - k = (ts.length - k) + 1 by omega, cmrLoop,
    if_neg (by rw [ht.size]; omega), ht.el k (by omega)]
  simp only [Out.ok_bind]
  rw [if_pos h1, ht.el (k + 1) hk]
  simp only [Out.ok_bind]
  rw [if_pos h2]

theorem cmrLoop_last (A : Arith T) {t : T} {time par : View T} {ts : List T} (ht : time.Is ts) (h1 : 1 ≤ ts.length)
    (hno : ∀ j, ¬ A.In ts t j) : cmrLoop A t time par (time.size + 1) 0 = cmrLast time par := by
  have := cmrLoop_skip A (t := t) (par := par) ht (k := ts.length - 1) (by omega) (fun j _ => hno j)
    (ts.length - 1) 2 (le_refl _)
  rw [Nat.sub_self, show ts.length - 1 + 2 = ts.length + 1 by omega] at this
  rw [ht.size, this, cmrLoop, if_pos (by rw [ht.size])]

/-- Inside the range the result is the formula applied to what the loop found. -/
theorem cmrInternal_mid (A : Arith T) {t : T} {time par : View T} {ts ys : List T} (ht : time.Is ts) (hy : par.Is ys)
    (hl : ts.length = ys.length) (h4 : 4 ≤ ts.length) (h1 : A.lt t ts[0] = false)
    (h2 : A.lt ts[ts.length - 1] t = false) :
    cmrInternal A t time par = (do
      let s ← cmrLoop A t time par (time.size + 1) 0
      return cmrFormula A t s) := by
  unfold cmrInternal
  rw [Out.ass_pos (show time.size = par.size by rw [ht.size, hy.size, hl]),
    Out.ass_pos (show time.size ≥ 4 by rw [ht.size]; exact h4)]
  simp only [Out.ok_bind]
  rw [ht.el 0 (by omega)]
  simp only [Out.ok_bind]
  rw [if_neg (by rw [h1]; simp), show time.el (time.size - 1) = .ok ts[ts.length - 1] by
    rw [ht.size]; exact ht.el _ (by omega)]
  simp only [Out.ok_bind]
  rw [if_neg (by rw [h2]; simp)]

/-- The comparisons of the arithmetic are those of the values `val` for the numbers in `P`. -/
structure Arith.Ord (A : Arith T) {K : Type} [LinearOrder K] (val : T → K) (P : T → Prop) : Prop where
  lt : ∀ x y, P x → P y → (A.lt x y = true ↔ val x < val y)
  le : ∀ x y, P x → P y → (A.le x y = true ↔ val x ≤ val y)

theorem Arith.ord_field (K : Type) [Field K] [LinearOrder K] : (Arith.field K).Ord (K := K) id (fun _ => True) :=
  ⟨fun x y _ _ => by simp [Arith.field], fun x y _ _ => by simp [Arith.field]⟩

/-- The rational number of a finite double. -/
def F64.val : F64 → ℚ
  | .fin q => q
  | _ => 0

theorem Arith.ord_f64 (pow : F64 → Nat → F64) : (Arith.f64 pow).Ord F64.val (fun x => ∃ q, x = .fin q) :=
  ⟨by rintro _ _ ⟨p, rfl⟩ ⟨q, rfl⟩; simp [Arith.f64, F64.lt, F64.val],
   by rintro _ _ ⟨p, rfl⟩ ⟨q, rfl⟩; simp [Arith.f64, F64.le, F64.val]⟩

section
variable {A : Arith T} {K : Type} [LinearOrder K] {val : T → K} {P : T → Prop} {ts : List T}

/-- With increasing times only one interval contains `t`. -/
theorem Arith.Ord.unique (o : A.Ord val P) (hP : ∀ x ∈ ts, P x) (hi : Increasing (ts.map val)) {t : T} (ht : P t)
    {i j : Nat} (h1 : A.In ts t i) (h2 : A.In ts t j) : i = j := by
  obtain ⟨a, a1, a2⟩ := h1
  obtain ⟨b, b1, b2⟩ := h2
  rw [o.le _ _ (hP _ (List.getElem_mem _)) ht] at a1 b1
  rw [o.lt _ _ ht (hP _ (List.getElem_mem _))] at a2 b2
  have mono : ∀ i j (hi' : i < ts.length) (hj' : j < ts.length), i ≤ j → val ts[i] ≤ val ts[j] := by
    intro i j hi' hj' hij
    rcases Nat.lt_or_eq_of_le hij with h | h
    · have := hi i j (by simpa using hi') (by simpa using hj') h
      simp only [List.getElem_map] at this
      exact this.le
    · subst h; exact le_refl _
  by_contra hne
  rcases Nat.lt_or_gt_of_ne hne with h | h
  · exact absurd (lt_of_lt_of_le a2 ((mono (i + 1) j (by omega) (by omega) (by omega)).trans b1)) (lt_irrefl _)
  · exact absurd (lt_of_lt_of_le b2 ((mono (j + 1) i (by omega) (by omega) (by omega)).trans a1)) (lt_irrefl _)

theorem Arith.Ord.mono (hi : Increasing (ts.map val)) {i j : Nat} (hi' : i < ts.length) (hj' : j < ts.length)
    (hij : i ≤ j) : val ts[i] ≤ val ts[j] := by
  rcases Nat.lt_or_eq_of_le hij with h | h
  · have := hi i j (by simpa using hi') (by simpa using hj') h
    simp only [List.getElem_map] at this
    exact this.le
  · subst h; exact le_refl _

/-- `t` in the interval `i`: the result comes from this interval. -/
theorem Arith.Ord.cmr_in (o : A.Ord val P) (hP : ∀ x ∈ ts, P x) (hi : Increasing (ts.map val)) {t : T} (htP : P t)
    {time par : View T} {ys : List T} (ht : time.Is ts) (hy : par.Is ys) (hl : ts.length = ys.length)
    (h4 : 4 ≤ ts.length) {i : Nat} (hin : A.In ts t i) :
    cmrInternal A t time par = (do
      let s ← cmrSegment A time par i
      return cmrFormula A t s) := by
  have h0 := hin
  obtain ⟨h, h1, h2⟩ := h0
  rw [o.le _ _ (hP _ (List.getElem_mem _)) htP] at h1
  rw [o.lt _ _ htP (hP _ (List.getElem_mem _))] at h2
  rw [cmrInternal_mid A ht hy hl h4, cmrLoop_in A ht hin]
  · intro j hj hin'
    have := o.unique hP hi htP hin hin'
    omega
  · rw [← Bool.not_eq_true, o.lt _ _ htP (hP _ (List.getElem_mem _)), not_lt]
    exact (Arith.Ord.mono hi (by omega) (by omega) (Nat.zero_le _)).trans h1
  · rw [← Bool.not_eq_true, o.lt _ _ (hP _ (List.getElem_mem _)) htP, not_lt]
    exact h2.le.trans (Arith.Ord.mono hi (by omega) (by omega) (by omega))

/-- `t` equal to the last time. -/
theorem Arith.Ord.cmr_last (o : A.Ord val P) (hP : ∀ x ∈ ts, P x) (hi : Increasing (ts.map val)) {time par : View T}
    {ys : List T} (ht : time.Is ts) (hy : par.Is ys) (hl : ts.length = ys.length) (h4 : 4 ≤ ts.length) :
    cmrInternal A ts[ts.length - 1] time par = (do
      let s ← cmrLast time par
      return cmrFormula A ts[ts.length - 1] s) := by
  have hPl := hP _ (List.getElem_mem (show ts.length - 1 < ts.length by omega))
  rw [cmrInternal_mid A ht hy hl h4, cmrLoop_last A ht (by omega)]
  · rintro j ⟨h, _, h2⟩
    rw [o.lt _ _ hPl (hP _ (List.getElem_mem _))] at h2
    exact absurd (Arith.Ord.mono hi (show j + 1 < ts.length by omega) (show ts.length - 1 < ts.length by omega)
      (by omega)) (not_le.mpr h2)
  · rw [← Bool.not_eq_true, o.lt _ _ hPl (hP _ (List.getElem_mem _)), not_lt]
    exact Arith.Ord.mono hi (by omega) (by omega) (Nat.zero_le _)
  · rw [← Bool.not_eq_true, o.lt _ _ hPl hPl, not_lt]

end

end ETR
