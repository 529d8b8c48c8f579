import Verif.Spec.MatIndex
import Verif.Lemmas.Subset

/-! # Index computation for matrices meets the specification -/

namespace ETR
open Spec

theorem cell_lt {nr nc c r : Nat} (hc : c < nc) (hr : r < nr) : c * nr + r < nr * nc := by
  have : (c + 1) * nr ≤ nc * nr := Nat.mul_le_mul_right _ hc
  rw [Nat.add_mul, Nat.one_mul] at this
  rw [Nat.mul_comm nr nc]
  omega

theorem dim_lt {nr nc : Nat} (hc : 0 < nc) (h : nr * nc < 2 ^ 31) : nr < 2 ^ 31 :=
  lt_of_le_of_lt (Nat.le_mul_of_pos_right nr hc) h

theorem wrap_cell {nr c r : Nat} (h : c * nr + r < 2 ^ 31) :
    wrap64 ((c : Int) * nr + r) = c * nr + r := by
  have e : ((c : Int) * nr + r) = ((c * nr + r : Nat) : Int) := by push_cast; rfl
  rw [e, wrap64_of_nonneg (by omega) (by omega)]
  rfl

theorem wrap_base {nr c : Nat} (h : c * nr < 2 ^ 31) : wrap64 ((c : Int) * nr) = c * nr := by
  have := wrap_cell (nr := nr) (c := c) (r := 0) (by omega)
  simpa using this

theorem pos1_some {n : Nat} {k : Int} {j : Nat} (h : pos1 n k = some j) : k = (j : Int) + 1 ∧ j < n := by
  unfold pos1 at h
  split at h
  · simp only [Option.some.injEq] at h; omega
  · simp at h

theorem posD_some {n : Nat} {x : F64} {j : Nat} (h : posD n x = some j) :
    ∃ q : ℚ, x = .fin q ∧ ⌊q⌋ = (j : Int) + 1 ∧ j < n := by
  cases x with
  | nan => simp [posD] at h
  | inf s => simp [posD] at h
  | fin q =>
    obtain ⟨h1, h2⟩ := pos1_some h
    exact ⟨q, rfl, h1, h2⟩

theorem posI_some {n : Nat} {x : Scal} (hp : x.Pass) {j : Nat} (h : posI n x = some j) :
    j < n ∧ (x = .i (j + 1) ∨ x = .d (.fin (j + 1))) := by
  cases x with
  | b v => exact absurd hp (by simp [Scal.Pass])
  | i k =>
    obtain ⟨h1, h2⟩ := pos1_some h
    exact ⟨h2, .inl (by rw [h1])⟩
  | d x =>
    cases x with
    | nan => exact absurd hp (by simp [Scal.Pass])
    | inf s => exact absurd hp (by simp [Scal.Pass])
    | fin q =>
      obtain ⟨k, rfl, _⟩ : ∃ k : Int, q = k ∧ InI32 k := hp
      obtain ⟨q', hq, h1, h2⟩ := posD_some (x := .fin (k : ℚ)) h
      cases hq
      rw [Int.floor_intCast] at h1
      subst h1
      exact ⟨h2, .inr (by push_cast; rfl)⟩

theorem toI32_of_floor {q : ℚ} {k : Int} (h : ⌊q⌋ = k) (h1 : 0 ≤ k) (h2 : k < 2147483648) :
    F64.toI32 (.fin q) = .ok k := by
  have hq : 0 ≤ q := by
    have := Int.floor_le q
    rw [h] at this
    have h0 : (0 : ℚ) ≤ k := by exact_mod_cast h1
    linarith
  unfold F64.toI32
  simp only [truncQ_of_nonneg hq, h]
  rw [if_pos (by unfold InI32; omega)]

theorem toSizeT_of_floor {q : ℚ} {k : Nat} (h : ⌊q⌋ = (k : Int)) (h2 : k < 2 ^ 63) :
    F64.toSizeT (.fin q) = .ok k := by
  have h1 : (k : ℚ) ≤ q := by
    have := Int.floor_le q
    rw [h] at this
    exact_mod_cast this
  have h3 : q < k + 1 := by
    have := Int.lt_floor_add_one q
    rw [h] at this
    exact_mod_cast this
  have h0 : (0 : ℚ) ≤ k := by positivity
  have h4 : (k : ℚ) + 1 < 2 ^ 64 := by exact_mod_cast (by omega : k + 1 < 2 ^ 64)
  rw [toSizeT_of_nonneg (by linarith) (by linarith), h]
  rfl

section
variable {nr nc c r : Nat}

theorem colI_ok (h : c * nr + r < 2 ^ 31) (hc : c < 2 ^ 31) {k : Int}
    (e : k = (c : Int) + 1) : colI nr k r = .ok (c * nr + r) := by
  subst e
  unfold colI
  rw [show ((c : Int) + 1 - 1) = c by ring, ckI32_ok (by unfold InI32; omega)]
  show Out.ok _ = _
  rw [wrap_cell h]

theorem colD_ok (h : c * nr + r < 2 ^ 31) (hc : c + 1 < 2 ^ 31) {x : F64} {n : Nat}
    (e : posD n x = some c) : colD nr x r = .ok (c * nr + r) := by
  obtain ⟨q, rfl, hq, _⟩ := posD_some e
  unfold colD
  rw [toI32_of_floor hq (by omega) (by omega)]
  exact colI_ok h (by omega) rfl

theorem F64.add_int {a b : Int} (h : |a + b| ≤ 2 ^ 53) :
    F64.add (.fin a) (.fin b) = .fin ((a + b : Int) : ℚ) := by
  have h1 : F64.add (.fin a) (.fin b) = F64.rnd ((a : ℚ) + (b : ℚ)) := rfl
  rw [h1, ← Int.cast_add]
  exact F64.rnd_int h

theorem F64.mul_int {a b : Int} (h : |a * b| ≤ 2 ^ 53) :
    F64.mul (.fin a) (.fin b) = .fin ((a * b : Int) : ℚ) := by
  have h1 : F64.mul (.fin a) (.fin b) = F64.rnd ((a : ℚ) * (b : ℚ)) := rfl
  rw [h1, ← Int.cast_mul]
  exact F64.rnd_int h

theorem toSizeT_nat {k : Nat} (h : k < 2 ^ 63) : F64.toSizeT (.fin ((k : Int) : ℚ)) = .ok k :=
  toSizeT_of_floor (Int.floor_intCast _) h

theorem subOne {c : Nat} (hc : c + 1 < 2 ^ 31) :
    F64.sub (.fin ((c : ℚ) + 1)) (.fin 1) = .fin ((c : Int) : ℚ) := by
  have := F64.sub_int (a := (c : Int) + 1) (b := 1) (by rw [abs_le]; omega)
  push_cast at this
  rw [this]
  simp

/-- The computation with doubles is exact. -/
theorem cellD (h : c * nr + r < 2 ^ 31) (hc : c + 1 < 2 ^ 31) (hn : nr < 2 ^ 31) :
    F64.toSizeT (F64.add (F64.mul (F64.sub (.fin ((c : ℚ) + 1)) (.fin 1)) (F64.ofNat nr))
      (.fin ((r : Int) : ℚ))) = .ok (c * nr + r) := by
  rw [subOne hc, F64.ofNat_eq (by omega)]
  have e1 : F64.mul (.fin ((c : Int) : ℚ)) (.fin (nr : ℚ)) = .fin (((c * nr : Nat) : Int) : ℚ) := by
    have := F64.mul_int (a := c) (b := nr) (by
      rw [abs_le]
      have : (0 : Int) ≤ (c : Int) * nr := by positivity
      have : ((c : Int) * nr) = ((c * nr : Nat) : Int) := by push_cast; rfl
      omega)
    push_cast at this ⊢
    exact this
  rw [e1]
  have e2 := F64.add_int (a := ((c * nr : Nat) : Int)) (b := (r : Int)) (by
    rw [abs_le]; omega)
  rw [e2, ← Nat.cast_add, toSizeT_nat (by omega)]

theorem colS_ok (h : c * nr + r < 2 ^ 31) (hc : c + 1 < 2 ^ 31) (hn : nr < 2 ^ 31) {x : Scal} {n : Nat}
    (hp : x.Pass) (e : posI n x = some c) : colS nr x r = .ok (c * nr + r) := by
  obtain ⟨_, rfl | rfl⟩ := posI_some hp e
  · exact colI_ok h (by omega) rfl
  · unfold colS
    rw [F64.ofNat_eq (n := r) (by omega)]
    have := cellD h hc hn
    push_cast at this ⊢
    exact this

theorem colT_ok (h : c * nr + r < 2 ^ 31) (hc : c + 1 < 2 ^ 31) {x : F64} {n : Nat}
    (e : posD n x = some c) : colT nr x r = .ok (c * nr + r) := by
  obtain ⟨q, rfl, hq, _⟩ := posD_some e
  unfold colT
  rw [toSizeT_of_floor (k := c + 1) (by push_cast; exact hq) (by omega)]
  show Out.ok _ = _
  rw [pred64_pos (by omega) (by omega), Nat.add_sub_cancel, wrap_cell h]

variable {base : Nat}

theorem wrap_add (h : base + r < 2 ^ 31) : wrap64 ((base : Int) + r) = base + r := by
  rw [wrap64_of_nonneg (by omega) (by omega)]
  omega

theorem rowI_ok (h : base + r < 2 ^ 31) {k : Int} (e : k = (r : Int) + 1) :
    rowI base k = .ok (base + r) := by
  subst e
  unfold rowI
  rw [show ((r : Int) + 1 - 1) = r by ring, ckI32_ok (by unfold InI32; omega)]
  show Out.ok _ = _
  rw [wrap_add h]

theorem rowD_ok (h : base + r < 2 ^ 31) (hr : r + 1 < 2 ^ 31) {x : F64} {n : Nat} (e : posD n x = some r) :
    rowD base x = .ok (base + r) := by
  obtain ⟨q, rfl, hq, _⟩ := posD_some e
  unfold rowD
  rw [toI32_of_floor hq (by omega) (by omega)]
  exact rowI_ok h rfl

theorem rowD'_ok (h : base + r < 2 ^ 31) (hr : r + 1 < 2 ^ 31) {x : F64} {n : Nat}
    (e : posD n x = some r) : rowD' base x = .ok (base + r) := by
  obtain ⟨q, rfl, hq, _⟩ := posD_some e
  unfold rowD'
  rw [toI32_of_floor hq (by omega) (by omega)]
  show Out.ok _ = _
  rw [show ((base : Int) + ((r : Int) + 1) - 1) = base + r by ring, wrap_add h]

theorem rowS_ok (h : base + r < 2 ^ 31) (hr : r + 1 < 2 ^ 31) {x : Scal} {n : Nat} (hp : x.Pass)
    (e : posI n x = some r) : rowS base x = .ok (base + r) := by
  obtain ⟨_, rfl | rfl⟩ := posI_some hp e
  · exact rowI_ok h rfl
  · unfold rowS
    simp only
    rw [subOne hr, F64.ofNat_eq (by omega)]
    have e2 := F64.add_int (a := (base : Int)) (b := (r : Int)) (by rw [abs_le]; omega)
    push_cast at e2 ⊢
    rw [e2]
    have := toSizeT_nat (k := base + r) (by omega)
    push_cast at this
    exact this

theorem posD_d2iS {x : Scal} {n : Nat} (hn : n < 2 ^ 31) (hp : x.Pass) (e : posI n x = some r) :
    posD n (d2iS x) = some r := by
  obtain ⟨h, rfl | rfl⟩ := posI_some hp e
  · unfold d2iS
    simp only
    rw [F64.ofInt_eq (by rw [abs_le]; omega)]
    unfold posD
    simp only [Int.floor_intCast]
    exact e
  · exact e

theorem colRow_ok (h : c * nr + r < 2 ^ 31) (hc : c + 1 < 2 ^ 31) (hr : r + 1 < 2 ^ 31) {x y : F64}
    {n m : Nat} (ex : posD n x = some c) (ey : posD m y = some r) :
    colRow nr x y = .ok (c * nr + r) := by
  obtain ⟨q, rfl, hq, _⟩ := posD_some ex
  unfold colRow
  rw [toI32_of_floor hq (by omega) (by omega)]
  show (ckI32 ((c : Int) + 1 - 1) >>= _) = _
  rw [show ((c : Int) + 1 - 1) = c by ring, ckI32_ok (by unfold InI32; omega)]
  show rowD _ _ = _
  rw [wrap_base (by omega)]
  exact rowD_ok h hr ey

theorem dblDbl_ok (h : c * nr + r < 2 ^ 31) (hc : c + 1 < 2 ^ 31) (hn : nr < 2 ^ 31) (hr : r + 1 < 2 ^ 31)
    {y : F64} {m : Nat} (ey : posD m y = some r) :
    dblDbl nr (.fin ((c : ℚ) + 1)) y = .ok (c * nr + r) := by
  obtain ⟨q, rfl, hq, _⟩ := posD_some ey
  unfold dblDbl
  rw [toI32_of_floor hq (by omega) (by omega)]
  show (ckI32 ((r : Int) + 1 - 1) >>= _) = _
  rw [show ((r : Int) + 1 - 1) = r by ring, ckI32_ok (by unfold InI32; omega)]
  show F64.toSizeT _ = _
  rw [F64.ofInt_eq (by rw [abs_le]; omega)]
  exact cellD h hc hn

end

theorem rowOfInt_ok {n : Nat} (hn : n < 2 ^ 31) {k : Int} {r : Nat} (h : pos1 n k = some r) :
    rowOfInt k = r := by
  obtain ⟨rfl, h2⟩ := pos1_some h
  unfold rowOfInt
  rw [wrap64_of_nonneg (by omega) (by omega), pred64_pos (by omega) (by omega)]
  omega

theorem convertSizeD_ok {n : Nat} {x : F64} {r : Nat} (h : posD n x = some r)
    (hr : r + 1 < 2 ^ 31) (ws : List String) :
    ∃ ws', convertSizeD x ws = (.ok (r + 1), ws') := by
  obtain ⟨q, rfl, hq, h2⟩ := posD_some h
  have h1 : 1 ≤ q := by
    have := Int.floor_le q
    rw [hq] at this
    push_cast at this
    have : (0 : ℚ) ≤ r := by positivity
    linarith
  have h3 : q < 2147483648 := by
    have := Int.lt_floor_add_one q
    rw [hq] at this
    push_cast at this
    have : (r : ℚ) + 1 + 1 ≤ 2147483648 := by exact_mod_cast (by omega : r + 1 + 1 ≤ 2147483648)
    linarith
  obtain ⟨b, hb⟩ := isDoubleInt_ok (q := q) (by linarith) h3
  obtain ⟨ws', hw⟩ := warn_ok b fracMsg ws
  refine ⟨ws', ?_⟩
  unfold convertSizeD
  rw [hb, M.bind_ok (m := M.lift (.ok b)) (a := b) rfl, M.bind_ok hw,
    M.bind_ok (M.ass_pos (by simp [F64.le, h1]) _),
    toSizeT_of_floor (k := r + 1) (by push_cast; exact hq) (by omega)]
  rfl

/-! ## Masks -/

theorem maskLoop_ok {n : Nat} : ∀ (l : List Bool) (i : Nat), i + l.length ≤ n →
    maskLoop n l i 0 = .ok ((List.range l.length).filterMap
      (fun j => if l[j]? = some true then some (i + j) else none))
  | [], _, _ => rfl
  | b :: t, i, h => by
    simp only [List.length_cons] at h
    have hn : n ≠ 0 := by omega
    unfold maskLoop
    simp only [modz, if_neg hn, Out.ok_bind]
    rw [if_neg (by
      rintro ⟨h1, h2⟩
      rw [Nat.mod_eq_of_lt (by omega)] at h1
      exact h2 h1)]
    rw [maskLoop_ok t (i + 1) (by omega), List.length_cons, List.range_succ_eq_map, List.filterMap_cons,
      List.filterMap_map]
    show Out.ok _ = Out.ok _
    congr 1
    have e : ((fun j => if (b :: t)[j]? = some true then some (i + j) else none) ∘ Nat.succ)
        = (fun j => if t[j]? = some true then some (i + 1 + j) else none) := by
      funext j
      simp [Function.comp, Nat.add_assoc, Nat.add_comm 1 j]
    rw [e]
    cases b <;> simp

theorem filterMap_if {α : Type} (p : α → Bool) (l : List α) :
    l.filterMap (fun j => if p j = true then some j else none) = l.filter p := by
  induction l with
  | nil => rfl
  | cons a t ih =>
    by_cases h : p a
    · simp [h, ih]
    · simp [h, ih]

theorem maskLoop_posM {n : Nat} {l : List Bool} (h : l.length = n) : maskLoop n l 0 0 = .ok (posM n l) := by
  rw [maskLoop_ok l 0 (by omega), h]
  congr 1
  have : (fun j => if l[j]? = some true then some (0 + j) else none)
      = (fun j => if (decide (l[j]? = some true)) = true then some j else none) := by
    funext j; simp
  rw [this, filterMap_if]
  unfold posM
  apply List.filter_congr
  intro i hi
  rw [List.mem_range] at hi
  rw [h, Nat.mod_eq_of_lt hi]

theorem posM_count {n : Nat} {l : List Bool} (h : posM n l ≠ []) : l.count true > 0 := by
  rw [gt_iff_lt, List.count_pos_iff]
  obtain ⟨i, hi⟩ := List.exists_mem_of_ne_nil _ h
  unfold posM at hi
  simp only [List.mem_filter, decide_eq_true_eq] at hi
  exact List.mem_of_getElem? hi.2

theorem positions_mask {n : Nat} {l : List Bool} {r : List Nat} (h : positions n (.vlgl l) = some r) :
    r = posM n l ∧ posM n l ≠ [] := by
  simp only [positions] at h
  split at h
  · simp at h
  · rename_i hne
    exact ⟨by simpa using h.symm, hne⟩

theorem maskRaw_ok {n : Nat} {l : List Bool} {r : List Nat} (h : positions n (.vlgl l) = some r)
    (hl : l.length = n) (ws : List String) : maskRaw n l ws = (.ok r, ws) := by
  obtain ⟨rfl, hne⟩ := positions_mask h
  unfold maskRaw
  rw [M.bind_ok (M.ass_pos (posM_count hne) _), maskLoop_posM hl]
  rfl

theorem mask_ne {n : Nat} {l : List Bool} (h : posM n l ≠ []) : l ≠ [] := by
  rintro rfl
  have := posM_count h
  simp at this

theorem maskRec_ok {n : Nat} {l : List Bool} {r : List Nat} (h : positions n (.vlgl l) = some r)
    (ws : List String) : maskRec n l ws = (.ok r, ws) := by
  obtain ⟨rfl, hne⟩ := positions_mask h
  unfold maskRec
  rw [maskPos_spec n (mask_ne hne), M.bind_ok (m := M.lift (.ok (posM n l))) (a := posM n l) rfl,
    M.bind_ok (M.ass_pos (List.length_pos_iff.mpr hne) _)]
  rfl

/-! ## The loops -/

theorem grid_all {α β : Type} {nr : Nat} {f : α → β → Out Nat} {P : α → Nat → Prop} {Q : β → Nat → Prop}
    (hf : ∀ a c b r, P a c → Q b r → f a b = .ok (c * nr + r)) {rs : List β} {rows : List Nat}
    (hr : List.Forall₂ Q rs rows) : ∀ {cs : List α} {cols : List Nat}, List.Forall₂ P cs cols →
    cs.flatMap (fun j => rs.map (fun i => f j i)) = (cells nr rows cols).map Out.ok
  | _, _, .nil => rfl
  | _, _, .cons (a := a) (b := c) h hs => by
    have ih := grid_all hf hr hs
    unfold cells at ih ⊢
    rw [List.flatMap_cons, List.flatMap_cons, List.map_append, ih]
    congr 1
    rw [List.map_map]
    clear ih hs
    induction hr with
    | nil => rfl
    | cons h' _ ih' => rw [List.map_cons, List.map_cons, ih', hf _ _ _ _ h h']; rfl

theorem grid_ok {α β : Type} {nr : Nat} {f : α → β → Out Nat} {P : α → Nat → Prop} {Q : β → Nat → Prop}
    {cs : List α} {rs : List β} {cols rows : List Nat} (hc : List.Forall₂ P cs cols)
    (hr : List.Forall₂ Q rs rows) (hc0 : cols ≠ []) (hr0 : rows ≠ [])
    (hf : ∀ a c b r, P a c → Q b r → f a b = .ok (c * nr + r)) (ws : List String) :
    grid cs rs f ws = (.ok (cells nr rows cols), ws) := by
  unfold grid
  have h1 : 1 ≤ rs.length * cs.length := by
    rw [hr.length_eq, hc.length_eq]
    exact Nat.mul_pos (List.length_pos_iff.mpr hr0) (List.length_pos_iff.mpr hc0)
  rw [M.bind_ok (resizeInd_ok h1 ws), Out.all_eq_ok.mpr (grid_all hf hr hc)]
  rfl

theorem forall₂_map {α : Type} {p : α → Option Nat} : ∀ {l : List α} {r : List Nat},
    l.map p = r.map some → List.Forall₂ (fun x c => x ∈ l ∧ p x = some c) l r
  | [], [], _ => .nil
  | [], _ :: _, h => by simp at h
  | _ :: _, [], h => by simp at h
  | x :: xs, c :: cs, h => by
    simp only [List.map_cons, List.cons.injEq] at h
    refine .cons ⟨by simp, h.1⟩ ((forall₂_map h.2).imp ?_)
    intro a b hab
    exact ⟨by simp [hab.1], hab.2⟩

theorem forall₂_self {n : Nat} : ∀ {l : List Nat}, (∀ j ∈ l, j < n) →
    List.Forall₂ (fun x c => x = c ∧ c < n) l l
  | [], _ => .nil
  | x :: xs, h => .cons ⟨rfl, h x (by simp)⟩ (forall₂_self (fun j hj => h j (by simp [hj])))

/-- A mask has the length of the dimension, or not more if the other index is a single number. -/
def MaskFits (n : Nat) (idx other : Index) : Prop :=
  match idx with
  | .vlgl l => if keepsDim other then l.length = n else l.length ≤ n
  | _ => True

/-- The combinations that address the wrong cells: two doubles, and a vector of doubles with a double
that is not an integer. -/
def Addressed : Index → Index → Prop
  | .dbl _, .dbl _ => False
  | .vdbl _, .dbl y => ∃ k : Int, y = .fin k
  | _, _ => True

/-- The shape that the code gives to the subset. -/
def codeShape (d : MatDim) (r c : Index) (nrows ncols : Nat) : MP :=
  match r, c with
  | .lgl _, .lgl _ => d.dmp
  | .vlgl _, .vint _ => noMat
  | .vlgl _, .vdbl _ => noMat
  | _, _ => subShape r c nrows ncols

theorem mapM_conv {α : Type} {f : α → L Nat} {g : α → Nat} : ∀ (l : List α) (ws : List String),
    (∀ x ∈ l, ∀ ws, ∃ ws', f x ws = (.ok (g x), ws')) → ∃ ws', l.mapM f ws = (.ok (l.map g), ws')
  | [], ws, _ => ⟨ws, by rw [List.mapM_nil]; rfl⟩
  | x :: xs, ws, h => by
    obtain ⟨w1, h1⟩ := h x (by simp) ws
    obtain ⟨w2, h2⟩ := mapM_conv xs w1 (fun y hy => h y (by simp [hy]))
    refine ⟨w2, ?_⟩
    rw [List.mapM_cons, M.bind_ok h1, M.bind_ok h2]
    rfl

theorem mapM_conv₂ {α : Type} {f : α → L Nat} {Q : α → Nat → Prop} {g : Nat → Nat} :
    ∀ {l : List α} {r : List Nat} (ws : List String), List.Forall₂ Q l r →
    (∀ x c, Q x c → ∀ ws, ∃ ws', f x ws = (.ok (g c), ws')) → ∃ ws', l.mapM f ws = (.ok (r.map g), ws')
  | _, _, ws, .nil, _ => ⟨ws, by rw [List.mapM_nil]; rfl⟩
  | _, _, ws, .cons hx hs, h => by
    obtain ⟨w1, h1⟩ := h _ _ hx ws
    obtain ⟨w2, h2⟩ := mapM_conv₂ w1 hs h
    refine ⟨w2, ?_⟩
    rw [List.mapM_cons, M.bind_ok h1, M.bind_ok h2]
    rfl

theorem cells_single (nr c : Nat) (rows : List Nat) : cells nr rows [c] = rows.map (fun r => c * nr + r) := by
  simp [cells]

theorem positions_range {n : Nat} {b : Bool} {r : List Nat} (h : positions n (.lgl b) = some r) :
    b = true ∧ r = List.range n ∧ 0 < n := by
  simp only [positions] at h
  split at h
  · rename_i hb; exact ⟨hb.1, by simpa using h.symm, hb.2⟩
  · simp at h

theorem positions_int {n : Nat} {k : Int} {r : List Nat} (h : positions n (.int k) = some r) :
    ∃ j, r = [j] ∧ pos1 n k = some j := by
  simp only [positions, Option.map_eq_some_iff] at h
  obtain ⟨j, hj, rfl⟩ := h
  exact ⟨j, rfl, hj⟩

theorem positions_dbl {n : Nat} {x : F64} {r : List Nat} (h : positions n (.dbl x) = some r) :
    ∃ j, r = [j] ∧ posD n x = some j := by
  simp only [positions, Option.map_eq_some_iff] at h
  obtain ⟨j, hj, rfl⟩ := h
  exact ⟨j, rfl, hj⟩

theorem posM_lt {n : Nat} {l : List Bool} : ∀ j ∈ posM n l, j < n := by
  intro j hj
  simp only [posM, List.mem_filter, List.mem_range] at hj
  exact hj.1

/-- All combinations of index arguments that address what they should: the computed indices are the
cells of the addressed rows and columns in column-major order. -/
theorem calcIndMatrix_ok {d : MatDim} (hn : d.n = d.nr * d.nc) (hlim : d.nr * d.nc < 2 ^ 31) {r c : Index}
    (pr : r.Pass) (pc : c.Pass) {rows cols : List Nat} (hr : positions d.nr r = some rows)
    (hc : positions d.nc c = some cols) (ha : Addressed r c) (mr : MaskFits d.nr r c)
    (mc : MaskFits d.nc c r) (ws : List String) :
    ∃ ws', calcIndMatrix d r c ws
      = (.ok (cells d.nr rows cols, codeShape d r c rows.length cols.length), ws') := by
  obtain ⟨er, r0⟩ := positions_entries hr
  obtain ⟨ec, c0⟩ := positions_entries hc
  have hnr := positions_pos hr
  have hnc := positions_pos hc
  obtain ⟨n, nr, nc, dmp⟩ := d
  dsimp only at *
  have key : ∀ c r, c < nc → r < nr → c * nr + r < 2 ^ 31 ∧ c + 1 < 2 ^ 31 ∧ r + 1 < 2 ^ 31 ∧
      nr < 2 ^ 31 ∧ nc < 2 ^ 31 := by
    intro c r h1 h2
    have h3 := cell_lt h1 h2
    have h4 := dim_lt (nr := nr) (nc := nc) (by omega) hlim
    have h5 := dim_lt (nr := nc) (nc := nr) (by omega) (by rw [Nat.mul_comm]; exact hlim)
    omega
  have hcell : ∀ a c b r, (a = c ∧ c < nc) → (b = r ∧ r < nr) →
      (Out.ok (wrap64 ((a : Int) * nr + b)) : Out Nat) = .ok (c * nr + r) := by
    rintro a c b r ⟨rfl, h1⟩ ⟨rfl, h2⟩
    rw [wrap_cell (key _ _ h1 h2).1]
  cases r with
  | lgl b =>
    obtain ⟨rfl, rfl, hr0⟩ := positions_range hr
    have R := forall₂_self (n := nr) (l := List.range nr) (by simp)
    cases c with
    | lgl b' =>
      obtain ⟨rfl, rfl, hc0⟩ := positions_range hc
      refine ⟨ws, ?_⟩
      simp only [calcIndMatrix, calcLgl, Bool.and_self, if_true]
      rw [M.bind_ok (resizeInd_ok (by rw [hn]; exact Nat.mul_pos hr0 hc0) ws)]
      have : cells nr (List.range nr) (List.range nc) = List.range n := by
        rw [hn]
        clear key hcell hr hc er ec hnr hnc r0 c0 R hn hlim hr0 hc0 mr mc
        unfold cells
        induction nc with
        | zero => simp
        | succ m ih =>
          rw [List.range_succ, List.flatMap_append, ih, Nat.mul_succ, List.range_add]
          simp [Nat.mul_comm]
      rw [this]
      rfl
    | int k =>
      obtain ⟨j, rfl, hj⟩ := positions_int hc
      refine ⟨ws, ?_⟩
      simp only [calcIndMatrix, calcLgl]
      rw [M.bind_ok (M.ass_pos rfl _), M.bind_ok (grid_ok (nr := nr) (P := fun k c => pos1 nc k = some c)
        (.cons hj .nil) R c0 r0 ?_ ws)]
      · rfl
      · rintro a c b r h ⟨rfl, h2⟩
        obtain ⟨e, h1⟩ := pos1_some h
        exact colI_ok (key _ _ h1 h2).1 (by have := key _ _ h1 h2; omega) e
    | dbl x =>
      obtain ⟨j, rfl, hj⟩ := positions_dbl hc
      refine ⟨ws, ?_⟩
      simp only [calcIndMatrix, calcLgl]
      rw [M.bind_ok (M.ass_pos rfl _), M.bind_ok (grid_ok (nr := nr) (P := fun k c => posD nc k = some c)
        (.cons hj .nil) R c0 r0 ?_ ws)]
      · rfl
      · rintro a c b r h ⟨rfl, h2⟩
        obtain ⟨_, _, _, h1⟩ := posD_some h
        exact colT_ok (key _ _ h1 h2).1 (key _ _ h1 h2).2.1 h
    | vlgl l =>
      have hm := maskRaw_ok hc (by simpa [MaskFits, keepsDim] using mc) ws
      obtain ⟨rfl, hne⟩ := positions_mask hc
      refine ⟨ws, ?_⟩
      simp only [calcIndMatrix, calcLgl]
      rw [M.bind_ok (M.ass_pos rfl _), M.bind_ok (M.ass_pos (posM_count hne) _), M.bind_ok hm,
        M.bind_ok (grid_ok (nr := nr) (forall₂_self posM_lt) R c0 r0 hcell ws)]
      simp [codeShape, subShape, keepsDim]
    | vint l =>
      refine ⟨ws, ?_⟩
      simp only [calcIndMatrix, calcLgl]
      have C := forall₂_map (p := posI nc) (l := l) ec
      rw [M.bind_ok (M.ass_pos rfl _), M.bind_ok (grid_ok (nr := nr) C R c0 r0 ?_ ws)]
      · simp [codeShape, subShape, keepsDim, C.length_eq]
      · rintro a c b r ⟨hm, h⟩ ⟨rfl, h2⟩
        have h1 := (posI_some (pc _ hm) h).1
        have := key _ _ h1 h2
        exact colS_ok this.1 this.2.1 this.2.2.2.1 (pc _ hm) h
    | vdbl l =>
      refine ⟨ws, ?_⟩
      simp only [calcIndMatrix, calcLgl]
      have C := forall₂_map (p := posD nc) (l := l) ec
      rw [M.bind_ok (M.ass_pos rfl _), M.bind_ok (grid_ok (nr := nr) C R c0 r0 ?_ ws)]
      · simp [codeShape, subShape, keepsDim, C.length_eq]
      · rintro a c b r ⟨hm, h⟩ ⟨rfl, h2⟩
        obtain ⟨_, _, _, h1⟩ := posD_some h
        exact colD_ok (key _ _ h1 h2).1 (key _ _ h1 h2).2.1 h
  | int k =>
    obtain ⟨i, rfl, hi⟩ := positions_int hr
    have hi2 := (pos1_some hi).2
    have hrow := rowOfInt_ok (key _ _ hnc hi2).2.2.2.1 hi
    have R : List.Forall₂ (fun x c => x = c ∧ c < nr) [rowOfInt k] [i] := .cons ⟨hrow, hi2⟩ .nil
    cases c with
    | lgl b' =>
      obtain ⟨rfl, rfl, hc0⟩ := positions_range hc
      refine ⟨ws, ?_⟩
      simp only [calcIndMatrix, calcInt]
      rw [M.bind_ok (M.ass_pos rfl _), M.bind_ok (grid_ok (nr := nr) (forall₂_self (by simp)) R c0 r0 hcell ws)]
      simp [codeShape, subShape, keepsDim, noMat]
    | int k =>
      obtain ⟨j, rfl, hj⟩ := positions_int hc
      refine ⟨ws, ?_⟩
      simp only [calcIndMatrix, calcInt]
      rw [M.bind_ok (grid_ok (nr := nr) (P := fun k c => pos1 nc k = some c)
        (.cons hj .nil) R c0 r0 ?_ ws)]
      · rfl
      · rintro a c b r h ⟨rfl, h2⟩
        obtain ⟨e, h1⟩ := pos1_some h
        exact colI_ok (key _ _ h1 h2).1 (by have := key _ _ h1 h2; omega) e
    | dbl x =>
      obtain ⟨j, rfl, hj⟩ := positions_dbl hc
      refine ⟨ws, ?_⟩
      simp only [calcIndMatrix, calcInt]
      rw [M.bind_ok (grid_ok (nr := nr) (P := fun k c => posD nc k = some c)
        (.cons hj .nil) R c0 r0 ?_ ws)]
      · rfl
      · rintro a c b r h ⟨rfl, h2⟩
        obtain ⟨_, _, _, h1⟩ := posD_some h
        exact colT_ok (key _ _ h1 h2).1 (key _ _ h1 h2).2.1 h
    | vlgl l =>
      have hm := maskRec_ok hc ws
      obtain ⟨rfl, hne⟩ := positions_mask hc
      refine ⟨ws, ?_⟩
      simp only [calcIndMatrix, calcInt]
      rw [M.bind_ok (M.ass_pos (by simpa [MaskFits, keepsDim] using mc) _), M.bind_ok hm,
        M.bind_ok (grid_ok (nr := nr) (forall₂_self posM_lt) R c0 r0 hcell ws)]
      simp [codeShape, subShape, keepsDim, noMat]
    | vint l =>
      refine ⟨ws, ?_⟩
      simp only [calcIndMatrix, calcInt]
      have C := forall₂_map (p := posI nc) (l := l) ec
      rw [M.bind_ok (grid_ok (nr := nr) C R c0 r0 ?_ ws)]
      · simp [codeShape, subShape, keepsDim, noMat]
      · rintro a c b r ⟨hm, h⟩ ⟨rfl, h2⟩
        have h1 := (posI_some (pc _ hm) h).1
        have := key _ _ h1 h2
        exact colS_ok this.1 this.2.1 this.2.2.2.1 (pc _ hm) h
    | vdbl l =>
      refine ⟨ws, ?_⟩
      simp only [calcIndMatrix, calcInt]
      have C := forall₂_map (p := posD nc) (l := l) ec
      rw [M.bind_ok (grid_ok (nr := nr) C R c0 r0 ?_ ws)]
      · simp [codeShape, subShape, keepsDim, noMat]
      · rintro a c b r ⟨hm, h⟩ ⟨rfl, h2⟩
        obtain ⟨_, _, _, h1⟩ := posD_some h
        exact colD_ok (key _ _ h1 h2).1 (key _ _ h1 h2).2.1 h
  | dbl x =>
    obtain ⟨i, rfl, hi⟩ := positions_dbl hr
    obtain ⟨_, _, _, hi2⟩ := posD_some hi
    have hk0 := key _ _ hnc hi2
    obtain ⟨w1, hw1⟩ := convertSizeD_ok hi hk0.2.2.1 ws
    have hrow : pred64 (i + 1) = i := by rw [pred64_pos (by omega) (by omega)]; omega
    have R : List.Forall₂ (fun x c => x = c ∧ c < nr) [pred64 (i + 1)] [i] := .cons ⟨hrow, hi2⟩ .nil
    refine ⟨w1, ?_⟩
    simp only [calcIndMatrix, calcDbl]
    rw [M.bind_ok hw1]
    cases c with
    | lgl b' =>
      obtain ⟨rfl, rfl, hc0⟩ := positions_range hc
      simp only
      rw [M.bind_ok (M.ass_pos rfl _), M.bind_ok (resizeInd_ok hnc w1), M.bind_ok (M.ass_pos (show 1 ≤ nr from hnr) _),
        M.bind_ok (grid_ok (nr := nr) (forall₂_self (by simp)) R c0 r0 hcell w1)]
      simp [codeShape, subShape, keepsDim, noMat]
    | int k =>
      obtain ⟨j, rfl, hj⟩ := positions_int hc
      simp only
      have hcn : convertSizeN nr w1 = (.ok nr, w1) := by
        unfold convertSizeN; rw [M.bind_ok (M.ass_pos (show 1 ≤ nr from hnr) _)]; rfl
      rw [M.bind_ok (resizeInd_ok (le_refl _) w1), M.bind_ok hcn,
        M.bind_ok (grid_ok (nr := nr) (P := fun k c => pos1 nc k = some c) (.cons hj .nil) R c0 r0 ?_ w1)]
      · rfl
      · rintro a c b r h ⟨rfl, h2⟩
        obtain ⟨e, h1⟩ := pos1_some h
        exact colI_ok (key _ _ h1 h2).1 (by have := key _ _ h1 h2; omega) e
    | dbl y => exact absurd ha (by simp [Addressed])
    | vlgl l =>
      have hm := maskRec_ok hc w1
      obtain ⟨rfl, hne⟩ := positions_mask hc
      simp only
      rw [M.bind_ok (M.ass_pos (by simpa [MaskFits, keepsDim] using mc) _), M.bind_ok hm,
        M.bind_ok (grid_ok (nr := nr) (forall₂_self posM_lt) R c0 r0 hcell w1)]
      simp [codeShape, subShape, keepsDim, noMat]
    | vint l =>
      simp only
      have C := forall₂_map (p := posI nc) (l := l) ec
      rw [M.bind_ok (grid_ok (nr := nr) C R c0 r0 ?_ w1)]
      · simp [codeShape, subShape, keepsDim, noMat]
      · rintro a c b r ⟨hm, h⟩ ⟨rfl, h2⟩
        have h1 := (posI_some (pc _ hm) h).1
        have := key _ _ h1 h2
        exact colS_ok this.1 this.2.1 this.2.2.2.1 (pc _ hm) h
    | vdbl l =>
      simp only
      have C := forall₂_map (p := posD nc) (l := l) ec
      rw [M.bind_ok (grid_ok (nr := nr) C R c0 r0 ?_ w1)]
      · simp [codeShape, subShape, keepsDim, noMat]
      · rintro a c b r ⟨hm, h⟩ ⟨rfl, h2⟩
        obtain ⟨_, _, _, h1⟩ := posD_some h
        exact colD_ok (key _ _ h1 h2).1 (key _ _ h1 h2).2.1 h
  | vlgl l =>
    obtain ⟨rfl, hne⟩ := positions_mask hr
    have R := forall₂_self (n := nr) (l := posM nr l) posM_lt
    have hmp := maskPos_spec nr (mask_ne hne)
    have hlen := List.length_pos_iff.mpr hne
    cases c with
    | lgl b' =>
      obtain ⟨rfl, rfl, hc0⟩ := positions_range hc
      have hm := maskRaw_ok hr (by simpa [MaskFits, keepsDim] using mr) ws
      refine ⟨ws, ?_⟩
      simp only [calcIndMatrix, calcVlgl]
      rw [M.bind_ok (M.ass_pos rfl _), M.bind_ok hm,
        M.bind_ok (grid_ok (nr := nr) (forall₂_self (by simp)) R c0 r0 hcell ws)]
      simp [codeShape, subShape, keepsDim]
    | int k =>
      obtain ⟨j, rfl, hj⟩ := positions_int hc
      refine ⟨ws, ?_⟩
      simp only [calcIndMatrix, calcVlgl]
      rw [hmp, M.bind_ok (m := M.lift (.ok (posM nr l))) (a := posM nr l) rfl,
        M.bind_ok (M.ass_pos (by simpa [MaskFits, keepsDim] using mr) _), M.bind_ok (M.ass_pos hlen _),
        M.bind_ok (grid_ok (nr := nr) (P := fun k c => pos1 nc k = some c) (.cons hj .nil) R c0 r0 ?_ ws)]
      · rfl
      · rintro a c b r h ⟨rfl, h2⟩
        obtain ⟨e, h1⟩ := pos1_some h
        exact colI_ok (key _ _ h1 h2).1 (by have := key _ _ h1 h2; omega) e
    | dbl y =>
      obtain ⟨j, rfl, hj⟩ := positions_dbl hc
      obtain ⟨_, _, _, hj2⟩ := posD_some hj
      have hk0 := key _ _ hj2 hnr
      simp only [calcIndMatrix, calcVlgl]
      obtain ⟨ws', h⟩ := mapM_conv₂ (f := fun i => do
          let c ← convertSizeD y
          return wrap64 ((pred64 c : Int) * nr + (i : Nat))) (g := fun r => j * nr + r) ws R (by
        rintro x r ⟨rfl, h2⟩ w
        obtain ⟨w', hw⟩ := convertSizeD_ok hj hk0.2.1 w
        refine ⟨w', ?_⟩
        rw [M.bind_ok hw, pred64_pos (by omega) (by omega), Nat.add_sub_cancel,
          wrap_cell (key _ _ hj2 h2).1]
        rfl)
      refine ⟨ws', ?_⟩
      rw [hmp, M.bind_ok (m := M.lift (.ok (posM nr l))) (a := posM nr l) rfl,
        M.bind_ok (M.ass_pos (by simpa [MaskFits, keepsDim] using mr) _), M.bind_ok (M.ass_pos hlen _),
        M.bind_ok (resizeInd_ok hlen ws), cells_single]
      exact M.bind_ok h
    | vlgl l' =>
      have hm := maskRaw_ok hr (by simpa [MaskFits, keepsDim] using mr) ws
      have hm' := maskRaw_ok hc (by simpa [MaskFits, keepsDim] using mc) ws
      obtain ⟨rfl, hne'⟩ := positions_mask hc
      refine ⟨ws, ?_⟩
      simp only [calcIndMatrix, calcVlgl]
      rw [M.bind_ok hm, M.bind_ok hm', M.bind_ok (grid_ok (nr := nr) (forall₂_self posM_lt) R c0 r0 hcell ws)]
      simp [codeShape, subShape, keepsDim]
    | vint l' =>
      have hm := maskRaw_ok hr (by simpa [MaskFits, keepsDim] using mr) ws
      refine ⟨ws, ?_⟩
      simp only [calcIndMatrix, calcVlgl]
      have C := forall₂_map (p := posI nc) (l := l') ec
      rw [M.bind_ok hm, M.bind_ok (grid_ok (nr := nr) C R c0 r0 ?_ ws)]
      · rfl
      · rintro a c b r ⟨hm, h⟩ ⟨rfl, h2⟩
        have h1 := (posI_some (pc _ hm) h).1
        have := key _ _ h1 h2
        exact colD_ok this.1 this.2.1 (posD_d2iS this.2.2.2.2 (pc _ hm) h)
    | vdbl l' =>
      have hm := maskRaw_ok hr (by simpa [MaskFits, keepsDim] using mr) ws
      refine ⟨ws, ?_⟩
      simp only [calcIndMatrix, calcVlgl]
      have C := forall₂_map (p := posD nc) (l := l') ec
      rw [M.bind_ok hm, M.bind_ok (grid_ok (nr := nr) C R c0 r0 ?_ ws)]
      · rfl
      · rintro a c b r ⟨hm, h⟩ ⟨rfl, h2⟩
        obtain ⟨_, _, _, h1⟩ := posD_some h
        exact colD_ok (key _ _ h1 h2).1 (key _ _ h1 h2).2.1 h
  | vint l =>
    have R := forall₂_map (p := posI nr) (l := l) er
    have hlen : 0 < l.length := by rw [R.length_eq]; exact List.length_pos_iff.mpr r0
    have hrow : ∀ c x r, c < nc → x ∈ l → posI nr x = some r →
        rowS (wrap64 ((c : Int) * nr)) x = .ok (c * nr + r) := by
      intro c x r h1 hm h
      have h2 := (posI_some (pr _ hm) h).1
      have := key _ _ h1 h2
      rw [wrap_base (by omega)]
      exact rowS_ok this.1 this.2.2.1 (pr _ hm) h
    cases c with
    | lgl b' =>
      obtain ⟨rfl, rfl, hc0⟩ := positions_range hc
      refine ⟨ws, ?_⟩
      simp only [calcIndMatrix, calcVint]
      rw [M.bind_ok (M.ass_pos rfl _), M.bind_ok (grid_ok (nr := nr) (forall₂_self (n := nc) (by simp)) R c0 r0 ?_ ws)]
      · simp [codeShape, subShape, keepsDim, R.length_eq]
      · rintro a c b r ⟨rfl, h1⟩ ⟨hm, h⟩
        exact hrow _ _ _ h1 hm h
    | int k =>
      obtain ⟨j, rfl, hj⟩ := positions_int hc
      refine ⟨ws, ?_⟩
      simp only [calcIndMatrix, calcVint]
      rw [M.bind_ok (grid_ok (nr := nr) (P := fun k c => pos1 nc k = some c) (.cons hj .nil) R c0 r0 ?_ ws)]
      · rfl
      · rintro a c b r h ⟨hm, h'⟩
        obtain ⟨rfl, h1⟩ := pos1_some h
        rw [show ((c : Int) + 1 - 1) = c by ring, ckI32_ok (by
          unfold InI32; have := key _ _ h1 hnr; omega)]
        exact hrow _ _ _ h1 hm h'
    | dbl y =>
      obtain ⟨j, rfl, hj⟩ := positions_dbl hc
      obtain ⟨_, _, _, hj2⟩ := posD_some hj
      have hk0 := key _ _ hj2 hnr
      simp only [calcIndMatrix, calcVint]
      obtain ⟨ws', h⟩ := mapM_conv₂ (f := fun x => do
          let c ← convertSizeD y
          M.lift (rowS (wrap64 ((pred64 c : Int) * nr)) x)) (g := fun r => j * nr + r) ws R (by
        rintro x r ⟨hm, h2⟩ w
        obtain ⟨w', hw⟩ := convertSizeD_ok hj hk0.2.1 w
        refine ⟨w', ?_⟩
        rw [M.bind_ok hw, pred64_pos (by omega) (by omega), Nat.add_sub_cancel, hrow _ _ _ hj2 hm h2]
        rfl)
      refine ⟨ws', ?_⟩
      rw [M.bind_ok (resizeInd_ok hlen ws), cells_single]
      exact M.bind_ok h
    | vlgl l' =>
      have hm' := maskRaw_ok hc (by simpa [MaskFits, keepsDim] using mc) ws
      obtain ⟨rfl, hne'⟩ := positions_mask hc
      refine ⟨ws, ?_⟩
      simp only [calcIndMatrix, calcVint]
      rw [M.bind_ok hm', M.bind_ok (grid_ok (nr := nr) (forall₂_self (n := nc) posM_lt) R c0 r0 ?_ ws)]
      · simp [codeShape, subShape, keepsDim, R.length_eq]
      · rintro a c b r ⟨rfl, h1⟩ ⟨hm, h⟩
        have h2 := (posI_some (pr _ hm) h).1
        have := key _ _ h1 h2
        rw [wrap_base (by omega)]
        exact rowD'_ok this.1 this.2.2.1 (posD_d2iS this.2.2.2.1 (pr _ hm) h)
    | vint l' =>
      refine ⟨ws, ?_⟩
      simp only [calcIndMatrix, calcVint]
      have C := forall₂_map (p := posI nc) (l := l') ec
      rw [M.bind_ok (grid_ok (nr := nr) C R c0 r0 ?_ ws)]
      · simp [codeShape, subShape, keepsDim, R.length_eq, C.length_eq]
      · rintro a c b r ⟨hm, h⟩ ⟨hm', h'⟩
        have h1 := (posI_some (pc _ hm) h).1
        have h2 := (posI_some (pr _ hm') h').1
        have := key _ _ h1 h2
        exact colRow_ok this.1 this.2.1 this.2.2.1 (posD_d2iS this.2.2.2.2 (pc _ hm) h)
          (posD_d2iS this.2.2.2.1 (pr _ hm') h')
    | vdbl l' =>
      refine ⟨ws, ?_⟩
      simp only [calcIndMatrix, calcVint]
      have C := forall₂_map (p := posD nc) (l := l') ec
      rw [M.bind_ok (grid_ok (nr := nr) C R c0 r0 ?_ ws)]
      · simp [codeShape, subShape, keepsDim, R.length_eq, C.length_eq]
      · rintro a c b r ⟨hm, h⟩ ⟨hm', h'⟩
        obtain ⟨_, _, _, h1⟩ := posD_some h
        have h2 := (posI_some (pr _ hm') h').1
        have := key _ _ h1 h2
        exact colRow_ok this.1 this.2.1 this.2.2.1 h (posD_d2iS this.2.2.2.1 (pr _ hm') h')
  | vdbl l =>
    have R := forall₂_map (p := posD nr) (l := l) er
    have hlen : 0 < l.length := by rw [R.length_eq]; exact List.length_pos_iff.mpr r0
    have hrow : ∀ c x r, c < nc → x ∈ l → posD nr x = some r →
        rowD (wrap64 ((c : Int) * nr)) x = .ok (c * nr + r) := by
      intro c x r h1 hm h
      obtain ⟨_, _, _, h2⟩ := posD_some h
      have := key _ _ h1 h2
      rw [wrap_base (by omega)]
      exact rowD_ok this.1 this.2.2.1 h
    cases c with
    | lgl b' =>
      obtain ⟨rfl, rfl, hc0⟩ := positions_range hc
      refine ⟨ws, ?_⟩
      simp only [calcIndMatrix, calcVdbl]
      rw [M.bind_ok (M.ass_pos rfl _), M.bind_ok (grid_ok (nr := nr) (forall₂_self (n := nc) (by simp)) R c0 r0 ?_ ws)]
      · simp [codeShape, subShape, keepsDim, R.length_eq]
      · rintro a c b r ⟨rfl, h1⟩ ⟨hm, h⟩
        exact hrow _ _ _ h1 hm h
    | int k =>
      obtain ⟨j, rfl, hj⟩ := positions_int hc
      refine ⟨ws, ?_⟩
      simp only [calcIndMatrix, calcVdbl]
      rw [M.bind_ok (grid_ok (nr := nr) (P := fun k c => pos1 nc k = some c) (.cons hj .nil) R c0 r0 ?_ ws)]
      · rfl
      · rintro a c b r h ⟨hm, h'⟩
        obtain ⟨rfl, h1⟩ := pos1_some h
        rw [show ((c : Int) + 1 - 1) = c by ring, ckI32_ok (by
          unfold InI32; have := key _ _ h1 hnr; omega)]
        exact hrow _ _ _ h1 hm h'
    | dbl y =>
      obtain ⟨j, rfl, hj⟩ := positions_dbl hc
      obtain ⟨k, rfl⟩ : ∃ k : Int, y = .fin k := ha
      obtain ⟨q, hq, hf, hj2⟩ := posD_some hj
      cases hq
      rw [Int.floor_intCast] at hf
      subst hf
      refine ⟨ws, ?_⟩
      simp only [calcIndMatrix, calcVdbl]
      rw [M.bind_ok (grid_ok (nr := nr) (P := fun k c => k = .fin ((c : ℚ) + 1) ∧ c < nc)
        (.cons ⟨by push_cast; rfl, hj2⟩ .nil) R c0 r0 ?_ ws)]
      · rfl
      · rintro a c b r ⟨rfl, h1⟩ ⟨hm, h'⟩
        obtain ⟨_, _, _, h2⟩ := posD_some h'
        have := key _ _ h1 h2
        exact dblDbl_ok this.1 this.2.1 this.2.2.2.1 this.2.2.1 h'
    | vlgl l' =>
      have hm' := maskRaw_ok hc (by simpa [MaskFits, keepsDim] using mc) ws
      obtain ⟨rfl, hne'⟩ := positions_mask hc
      refine ⟨ws, ?_⟩
      simp only [calcIndMatrix, calcVdbl]
      rw [M.bind_ok hm', M.bind_ok (grid_ok (nr := nr) (forall₂_self (n := nc) posM_lt) R c0 r0 ?_ ws)]
      · simp [codeShape, subShape, keepsDim, R.length_eq]
      · rintro a c b r ⟨rfl, h1⟩ ⟨hm, h⟩
        obtain ⟨_, _, _, h2⟩ := posD_some h
        have := key _ _ h1 h2
        rw [wrap_base (by omega)]
        exact rowD'_ok this.1 this.2.2.1 h
    | vint l' =>
      refine ⟨ws, ?_⟩
      simp only [calcIndMatrix, calcVdbl]
      have C := forall₂_map (p := posI nc) (l := l') ec
      rw [M.bind_ok (grid_ok (nr := nr) C R c0 r0 ?_ ws)]
      · simp [codeShape, subShape, keepsDim, R.length_eq, C.length_eq]
      · rintro a c b r ⟨hm, h⟩ ⟨hm', h'⟩
        have h1 := (posI_some (pc _ hm) h).1
        obtain ⟨_, _, _, h2⟩ := posD_some h'
        have := key _ _ h1 h2
        exact colRow_ok this.1 this.2.1 this.2.2.1 (posD_d2iS this.2.2.2.2 (pc _ hm) h) h'
    | vdbl l' =>
      refine ⟨ws, ?_⟩
      simp only [calcIndMatrix, calcVdbl]
      have C := forall₂_map (p := posD nc) (l := l') ec
      rw [M.bind_ok (grid_ok (nr := nr) C R c0 r0 ?_ ws)]
      · simp [codeShape, subShape, keepsDim, R.length_eq, C.length_eq]
      · rintro a c b r ⟨hm, h⟩ ⟨hm', h'⟩
        obtain ⟨_, _, _, h1⟩ := posD_some h
        obtain ⟨_, _, _, h2⟩ := posD_some h'
        have := key _ _ h1 h2
        exact colRow_ok this.1 this.2.1 this.2.2.1 h h'

end ETR
