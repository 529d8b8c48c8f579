import Mathlib.Algebra.Order.Floor.Ring
import Mathlib.Tactic.Linarith
import Mathlib.Tactic.NormNum
import Verif.Spec.Index
import Verif.Lemmas.F64
import Verif.Lemmas.MachFun

/-! # Index computation meets the specification -/

namespace ETR
open Spec

theorem truncQ_of_neg {q : ℚ} (h : q < 0) : F64.truncQ q = -⌊-q⌋ := by
  unfold F64.truncQ; rw [if_neg (by linarith)]; rfl

theorem wrap64_of_nonneg {n : Int} (h : 0 ≤ n) (h2 : n < 2 ^ 64) : wrap64 n = n.toNat := by
  unfold wrap64 two64
  rw [Int.emod_eq_of_lt h (by omega)]

theorem wrap64_of_neg {n : Int} (h : n < 0) (h2 : -2 ^ 63 ≤ n) : 2 ^ 62 < wrap64 n := by
  unfold wrap64 two64
  omega

theorem pred64_pos {k : Nat} (h : 1 ≤ k) (h2 : k < 2 ^ 64) : pred64 k = k - 1 := by
  unfold pred64
  rw [wrap64_of_nonneg (by omega) (by omega)]
  omega

theorem pred64_zero : 2 ^ 62 < pred64 0 := by decide

theorem toSizeT_of_nonneg {q : ℚ} (h : -1 < q) (h2 : q < 2 ^ 64) :
    F64.toSizeT (.fin q) = .ok ⌊q⌋.toNat := by
  unfold F64.toSizeT two64
  by_cases hq : 0 ≤ q
  · have h0 : 0 ≤ ⌊q⌋ := Int.floor_nonneg.mpr hq
    have h1 : ⌊q⌋ < 2 ^ 64 := by
      rw [Int.floor_lt]; exact_mod_cast h2
    simp only [truncQ_of_nonneg hq]
    rw [if_pos ⟨h0, by omega⟩]
  · have hq' : q < 0 := by linarith
    have h0 : ⌊-q⌋ = 0 := by
      rw [Int.floor_eq_zero_iff]; constructor <;> linarith
    have h1 : ⌊q⌋ < 0 := by rw [Int.floor_lt]; simpa using hq'
    simp only [truncQ_of_neg hq', h0]
    rw [if_pos (by decide)]
    congr 1
    omega

theorem dblPos_spec {n : Nat} (hn : n ≤ 2 ^ 62) {x : F64} (h : x.NoUB) :
    ∃ j, dblPos x = .ok j ∧ (posD n x = some j ∨ posD n x = none ∧ n ≤ j) := by
  cases x with
  | nan => exact absurd h (by simp [F64.NoUB])
  | inf s => exact absurd h (by simp [F64.NoUB])
  | fin q =>
    obtain ⟨h1, h2⟩ := h
    refine ⟨_, by unfold dblPos; rw [toSizeT_of_nonneg h1 h2]; rfl, ?_⟩
    have hb : ⌊q⌋ < 2 ^ 64 := by rw [Int.floor_lt]; exact_mod_cast h2
    rw [posD, pos1]
    by_cases hk : 1 ≤ ⌊q⌋
    · rw [pred64_pos (by omega) (by omega)]
      by_cases hkn : ⌊q⌋ ≤ n
      · left; rw [if_pos ⟨hk, hkn⟩]; congr 1; omega
      · right; rw [if_neg (by omega)]; exact ⟨rfl, by omega⟩
    · right
      rw [if_neg (by omega)]
      have : ⌊q⌋.toNat = 0 := by omega
      rw [this]
      have := pred64_zero
      exact ⟨rfl, by omega⟩

theorem ckI32_ok {n : Int} (h : InI32 n) : ckI32 n = .ok n := by unfold ckI32; rw [if_pos h]

theorem F64.sub_int {a b : Int} (h : |a - b| ≤ 2 ^ 53) :
    F64.sub (.fin a) (.fin b) = .fin ((a - b : Int) : ℚ) := by
  have h1 : F64.sub (.fin a) (.fin b) = F64.rnd ((a : ℚ) + -(b : ℚ)) := rfl
  rw [h1, show ((a : ℚ) + -(b : ℚ)) = ((a - b : Int) : ℚ) by push_cast; ring]
  exact F64.rnd_int h

theorem intPos_spec {n : Nat} (hn : n ≤ 2 ^ 62) {x : Scal} (hp : x.Pass) (h : x.NoUB) :
    ∃ j, intPos x = .ok j ∧ (posI n x = some j ∨ posI n x = none ∧ n ≤ j) := by
  cases x with
  | b v => exact absurd hp (by simp [Scal.Pass])
  | i k =>
    have hp' : InI32 k := hp
    have h' : k ≠ -2147483648 := h
    unfold InI32 at hp'
    refine ⟨wrap64 (k - 1), by
      rw [intPos, ckI32_ok (by unfold InI32; omega)]; rfl, ?_⟩
    rw [posI, pos1]
    by_cases hk : 1 ≤ k
    · rw [wrap64_of_nonneg (by omega) (by omega)]
      by_cases hkn : k ≤ n
      · left; rw [if_pos ⟨hk, hkn⟩]
      · right; rw [if_neg (by omega)]; exact ⟨rfl, by omega⟩
    · right
      rw [if_neg (by omega)]
      have := wrap64_of_neg (n := k - 1) (by omega) (by omega)
      exact ⟨rfl, by omega⟩
  | d x =>
    cases x with
    | nan => exact absurd h (by simp [Scal.NoUB])
    | inf s => exact absurd h (by simp [Scal.NoUB])
    | fin q =>
      obtain ⟨k, hq, hk⟩ : ∃ k : Int, q = k ∧ InI32 k := hp
      obtain ⟨h1, h2⟩ : 1 ≤ q ∧ q < 2 ^ 31 := h
      subst hq
      have h1' : 1 ≤ k := by exact_mod_cast h1
      unfold InI32 at hk
      have e : F64.sub (.fin (k : ℚ)) (.fin 1) = .fin ((k - 1 : Int) : ℚ) := by
        have := F64.sub_int (a := k) (b := 1) (by rw [abs_le]; omega)
        simpa using this
      refine ⟨(k - 1).toNat, ?_, ?_⟩
      · show F64.toSizeT (F64.sub (.fin (k : ℚ)) (.fin 1)) = _
        rw [e, toSizeT_of_nonneg, Int.floor_intCast]
        · have : (0 : ℚ) ≤ ((k - 1 : Int) : ℚ) := by exact_mod_cast (by omega : (0 : Int) ≤ k - 1)
          linarith
        · exact_mod_cast (by omega : k - 1 < 2 ^ 64)
      · unfold posI posD pos1
        simp only [Int.floor_intCast]
        by_cases hkn : k ≤ n
        · left; rw [if_pos ⟨h1', hkn⟩]
        · right; rw [if_neg (by omega)]; exact ⟨rfl, by omega⟩

theorem maskPos_spec (n : Nat) {l : List Bool} (hl : l ≠ []) : maskPos n l = .ok (posM n l) := by
  have hpos := List.length_pos_iff.mpr hl
  have h1 : Out.all ((List.range n).map (fun i => do
      let k ← modz i l.length
      getL l k)) = .ok ((List.range n).map (fun i => (l[i % l.length]?).getD false)) := by
    rw [Out.all_eq_ok, List.map_map]
    apply List.map_congr_left
    intro i _
    have hi : i % l.length < l.length := Nat.mod_lt _ hpos
    simp [modz, getL, hi, Nat.ne_of_gt hpos]
  unfold maskPos
  rw [h1]
  show Out.ok _ = _
  congr 1
  unfold posM
  apply List.filter_congr
  intro i hi
  rw [List.mem_range] at hi
  have hi' : i % l.length < l.length := Nat.mod_lt _ hpos
  simp [hi, hi']

/-- Lists of positions: element by element, an index is in range and denotes the position, or it is
not and the computed position is outside of the vector. -/
def Addr (n : Nat) (ps : List (Option Nat)) (ind : List Nat) : Prop :=
  List.Forall₂ (fun p j => p = some j ∨ p = none ∧ n ≤ j) ps ind

theorem addr_all {α : Type} {n : Nat} {l : List α} {f : α → Out Nat} {p : α → Option Nat}
    (h : ∀ x ∈ l, ∃ j, f x = .ok j ∧ (p x = some j ∨ p x = none ∧ n ≤ j)) :
    ∃ ind, Out.all (l.map f) = .ok ind ∧ Addr n (l.map p) ind := by
  induction l with
  | nil => exact ⟨[], rfl, .nil⟩
  | cons x xs ih =>
    obtain ⟨j, e, hj⟩ := h x (by simp)
    obtain ⟨ind, e', hi⟩ := ih (fun y hy => h y (by simp [hy]))
    exact ⟨j :: ind, by simp [Out.all, e, e'], .cons hj hi⟩

theorem Addr.mapM {α : Type} {n : Nat} {p : α → Option Nat} : ∀ {l : List α} {ind r : List Nat},
    Addr n (l.map p) ind → l.mapM p = some r → ind = r
  | [], _, _, .nil, hr => by simp at hr; exact hr.symm
  | x :: xs, _, _, .cons (b := j) (l₂ := js) h hs, hr => by
    rw [List.mapM_cons] at hr
    rcases h with h | ⟨h, _⟩
    · rw [h] at hr
      cases hm : xs.mapM p with
      | none => rw [hm] at hr; simp at hr
      | some r' =>
        rw [hm] at hr
        simp at hr
        rw [← hr, Addr.mapM hs hm]
    · rw [h] at hr; simp at hr

/-- The index of each element, as an option. -/
def Index.entries (n : Nat) : Index → List (Option Nat)
  | .lgl b => if b then (List.range n).map some else []
  | .int k => [pos1 n k]
  | .dbl x => [posD n x]
  | .vlgl l => (posM n l).map some
  | .vint l => l.map (posI n)
  | .vdbl l => l.map (posD n)

theorem addr_some (n : Nat) (l : List Nat) : Addr n (l.map some) l := by
  induction l with
  | nil => exact .nil
  | cons x xs ih => exact .cons (.inl rfl) ih

theorem mapM_iff {α : Type} {p : α → Option Nat} : ∀ {l : List α} {r : List Nat},
    l.mapM p = some r ↔ l.map p = r.map some
  | [], r => by cases r <;> simp
  | x :: xs, r => by
    rw [List.mapM_cons]
    cases r with
    | nil => cases p x <;> (simp; try cases xs.mapM p <;> simp)
    | cons a t =>
      have ih := mapM_iff (p := p) (l := xs) (r := t)
      cases hx : p x with
      | none => simp [hx]
      | some b =>
        cases hm : xs.mapM p with
        | none =>
          simp only [hm] at ih
          simp [hx]
          intro _ hh
          exact absurd (ih.mpr hh) (by simp)
        | some r' =>
          have ih' := mapM_iff (p := p) (l := xs) (r := r')
          have e1 := ih'.mp hm
          simp [hx]
          intro _
          rw [e1]
          constructor
          · rintro rfl; rfl
          · intro hh; exact List.map_injective_iff.mpr (Option.some_injective _) hh

theorem positions_entries {n : Nat} {idx : Index} {r : List Nat} (h : positions n idx = some r) :
    idx.entries n = r.map some ∧ r ≠ [] := by
  cases idx with
  | lgl b =>
    simp only [positions] at h
    split at h
    · rename_i hb
      simp only [Option.some.injEq] at h
      subst h
      refine ⟨by simp [Index.entries, hb.1], ?_⟩
      intro h0
      have := congrArg List.length h0
      simp at this; omega
    · simp at h
  | int k =>
    simp only [positions, Option.map_eq_some_iff] at h
    obtain ⟨j, hj, rfl⟩ := h
    exact ⟨by simp [Index.entries, hj], by simp⟩
  | dbl x =>
    simp only [positions, Option.map_eq_some_iff] at h
    obtain ⟨j, hj, rfl⟩ := h
    exact ⟨by simp [Index.entries, hj], by simp⟩
  | vlgl l =>
    simp only [positions] at h
    split at h
    · simp at h
    · rename_i hne
      simp only [Option.some.injEq] at h
      subst h
      exact ⟨rfl, hne⟩
  | vint l =>
    simp only [positions] at h
    split at h
    · simp at h
    · rename_i hne
      have := mapM_iff.mp h
      exact ⟨this, by rintro rfl; simp at this; exact hne this⟩
  | vdbl l =>
    simp only [positions] at h
    split at h
    · simp at h
    · rename_i hne
      have := mapM_iff.mp h
      exact ⟨this, by rintro rfl; simp at this; exact hne this⟩

theorem entries_positions {n : Nat} {idx : Index} {r : List Nat} (h : idx.entries n = r.map some)
    (hr : r ≠ []) : positions n idx = some r := by
  cases idx with
  | lgl b =>
    cases b with
    | false => simp [Index.entries] at h; exact absurd h hr
    | true =>
      simp only [Index.entries, if_true] at h
      have := List.map_injective_iff.mpr (Option.some_injective _) h
      subst this
      have : n ≠ 0 := by rintro rfl; simp at hr
      simp [positions]; omega
  | int k =>
    simp only [Index.entries] at h
    match r, h with
    | [j], h => simp at h; simp [positions, h]
    | _ :: _ :: _, h => simp at h
  | dbl k =>
    simp only [Index.entries] at h
    match r, h with
    | [j], h => simp at h; simp [positions, h]
    | _ :: _ :: _, h => simp at h
  | vlgl l =>
    simp only [Index.entries] at h
    have := List.map_injective_iff.mpr (Option.some_injective _) h
    subst this
    simp [positions, hr]
  | vint l =>
    simp only [Index.entries] at h
    simp only [positions]
    rw [if_neg (by rintro rfl; simp at h; exact hr h), mapM_iff]
    exact h
  | vdbl l =>
    simp only [Index.entries] at h
    simp only [positions]
    rw [if_neg (by rintro rfl; simp at h; exact hr h), mapM_iff]
    exact h

theorem resizeInd_ok {n : Nat} (h : 1 ≤ n) (ws : List String) : resizeInd n ws = (.ok (), ws) := by
  unfold resizeInd M.ass; rw [M.lift_apply, Out.ass_pos h]

theorem resizeInd_thr (ws : List String) :
    resizeInd 0 ws = (.thr "Size has to be larger than 0", ws) := by
  unfold resizeInd M.ass; rw [M.lift_apply, Out.ass_neg (by omega)]

theorem isDoubleInt_ok {q : ℚ} (h1 : -2147483649 < q) (h2 : q < 2147483648) :
    ∃ b, isDoubleInt (.fin q) = .ok b := by
  have h : InI32 (F64.truncQ q) := by
    unfold InI32
    by_cases hq : 0 ≤ q
    · rw [truncQ_of_nonneg hq]
      have : ⌊q⌋ < 2147483648 := by rw [Int.floor_lt]; exact_mod_cast h2
      have : 0 ≤ ⌊q⌋ := Int.floor_nonneg.mpr hq
      omega
    · rw [truncQ_of_neg (by linarith)]
      have : ⌊-q⌋ < 2147483649 := by rw [Int.floor_lt]; push_cast; linarith
      have : 0 ≤ ⌊-q⌋ := Int.floor_nonneg.mpr (by linarith)
      omega
  unfold isDoubleInt F64.toI32
  simp only []
  rw [if_pos h]
  exact ⟨_, rfl⟩

theorem warn_ok (b : Bool) (m : String) (ws : List String) : ∃ ws', warn b m ws = (.ok (), ws') := by
  cases b
  · exact ⟨_, rfl⟩
  · exact ⟨_, rfl⟩

theorem convertD_ok {q : ℚ} (h1 : 1 ≤ q) (h2 : q < 2147483648) (ws : List String) :
    ∃ ws', convertSizeSubsettingD (.fin q) ws = (.ok ⌊q⌋.toNat, ws') := by
  obtain ⟨b, hb⟩ := isDoubleInt_ok (q := q) (by linarith) h2
  obtain ⟨ws', hw⟩ := warn_ok b fracMsg ws
  refine ⟨ws', ?_⟩
  unfold convertSizeSubsettingD
  rw [hb, M.bind_ok (m := M.lift (.ok b)) (a := b) rfl, M.bind_ok hw,
    M.bind_ok (M.ass_pos (by simp [F64.le, h1]) _), toSizeT_of_nonneg (by linarith) (by linarith)]
  rfl

theorem convertD_thr {q : ℚ} (h1 : -2147483649 < q) (h2 : q < 1) (ws : List String) :
    ∃ ws', convertSizeSubsettingD (.fin q) ws = (.thr "invalid index argument", ws') := by
  obtain ⟨b, hb⟩ := isDoubleInt_ok (q := q) h1 (by linarith)
  obtain ⟨ws', hw⟩ := warn_ok b fracMsg ws
  refine ⟨ws', ?_⟩
  unfold convertSizeSubsettingD
  rw [hb, M.bind_ok (m := M.lift (.ok b)) (a := b) rfl, M.bind_ok hw,
    M.bind_thr (M.ass_neg (by simp [F64.le]; linarith) _)]

/-- The computed indices agree with the specification: the index argument is rejected, or every
computed index is the denoted position or lies outside of the vector. -/
theorem calcIndVector_spec {n : Nat} (hn : n ≤ 2 ^ 62) {idx : Index} (hp : idx.Pass) (hu : idx.NoUB)
    (ws : List String) :
    (∃ m ws', calcIndVector n idx ws = (.thr m, ws') ∧ positions n idx = none) ∨
    (∃ ind ws', calcIndVector n idx ws = (.ok ind, ws') ∧ Addr n (idx.entries n) ind ∧ ind ≠ []) := by
  cases idx with
  | lgl b =>
    cases b with
    | false => exact .inl ⟨_, ws, rfl, by simp [positions]⟩
    | true =>
      rcases Nat.eq_zero_or_pos n with h0 | h0
      · subst h0
        refine .inl ⟨"Size has to be larger than 0", ws, ?_, by simp [positions]⟩
        simp only [calcIndVector, if_true]
        exact M.bind_thr (resizeInd_thr ws)
      · refine .inr ⟨List.range n, ws, ?_, ?_, ?_⟩
        · simp only [calcIndVector, if_true]
          exact M.bind_ok (resizeInd_ok h0 ws)
        · simp only [Index.entries, if_true]; exact addr_some _ _
        · intro h; have := congrArg List.length h; simp at this; omega
  | int k =>
    obtain ⟨j, e, hj⟩ := intPos_spec hn (x := .i k) hp hu
    refine .inr ⟨[j], ws, ?_, .cons hj .nil, by simp⟩
    rw [calcIndVector]
    rw [M.bind_ok (resizeInd_ok (le_refl _) ws), e, M.bind_ok (m := M.lift (.ok j)) (a := j) rfl,
      M.bind_ok (M.ass_pos (Nat.zero_le j) _)]
    rfl
  | dbl x =>
    cases x with
    | nan => exact absurd hu (by simp [Index.NoUB])
    | inf s => exact absurd hu (by simp [Index.NoUB])
    | fin q =>
      obtain ⟨h1, h2⟩ := hu
      by_cases hq : 1 ≤ q
      · obtain ⟨ws', e⟩ := convertD_ok hq h2 ws
        refine .inr ⟨[pred64 ⌊q⌋.toNat], ws', ?_, .cons ?_ .nil, by simp⟩
        · rw [calcIndVector]
          rw [M.bind_ok (resizeInd_ok (le_refl _) ws), M.bind_ok e]; rfl
        · obtain ⟨j, e', hj⟩ := dblPos_spec hn (x := .fin q) ⟨by linarith, by linarith⟩
          unfold dblPos at e'
          rw [toSizeT_of_nonneg (by linarith) (by linarith)] at e'
          have : pred64 ⌊q⌋.toNat = j := by simpa using e'
          rw [this]; exact hj
      · obtain ⟨ws', e⟩ := convertD_thr h1 (by linarith) ws
        refine .inl ⟨"invalid index argument", ws', ?_, ?_⟩
        · rw [calcIndVector]
          rw [M.bind_ok (resizeInd_ok (le_refl _) ws), M.bind_thr e]
        · have : ⌊q⌋ < 1 := by rw [Int.floor_lt]; push_cast; linarith
          simp [positions, posD, pos1]; omega
  | vlgl l =>
    have hl : l ≠ [] := hu
    have e := maskPos_spec n hl
    by_cases h0 : posM n l = []
    · refine .inl ⟨"Size has to be larger than 0", ws, ?_, by simp [positions, h0]⟩
      rw [calcIndVector]
      rw [e, M.bind_ok (m := M.lift (.ok (posM n l))) (a := posM n l) rfl, h0]
      exact M.bind_thr (resizeInd_thr ws)
    · refine .inr ⟨posM n l, ws, ?_, addr_some _ _, h0⟩
      rw [calcIndVector]
      rw [e, M.bind_ok (m := M.lift (.ok (posM n l))) (a := posM n l) rfl,
        M.bind_ok (resizeInd_ok (List.length_pos_iff.mpr h0) ws)]
      rfl
  | vint l =>
    cases l with
    | nil => exact .inl ⟨_, ws, M.bind_thr (resizeInd_thr ws), by simp [positions]⟩
    | cons x xs =>
      obtain ⟨ind, e, ha⟩ := addr_all (n := n) (l := x :: xs) (f := intPos) (p := posI n)
        (fun y hy => intPos_spec hn (hp y hy) (hu y hy))
      refine .inr ⟨ind, ws, ?_, ha, ?_⟩
      · rw [calcIndVector]
        rw [M.bind_ok (resizeInd_ok (show 1 ≤ (x :: xs).length by simp) ws), e]; rfl
      · rintro rfl; cases ha
  | vdbl l =>
    cases l with
    | nil => exact .inl ⟨_, ws, M.bind_thr (resizeInd_thr ws), by simp [positions]⟩
    | cons x xs =>
      obtain ⟨ind, e, ha⟩ := addr_all (n := n) (l := x :: xs) (f := dblPos) (p := posD n)
        (fun y hy => dblPos_spec hn (hu y hy))
      refine .inr ⟨ind, ws, ?_, ha, ?_⟩
      · rw [calcIndVector]
        rw [M.bind_ok (resizeInd_ok (show 1 ≤ (x :: xs).length by simp) ws), e]; rfl
      · rintro rfl; cases ha

theorem addr_some_eq {n : Nat} : ∀ {r ind : List Nat}, Addr n (r.map some) ind → ind = r
  | [], _, .nil => rfl
  | a :: t, _, .cons h hs => by
    rw [addr_some_eq hs]
    rcases h with h | ⟨h, _⟩
    · simp at h; rw [h]
    · simp at h

/-- An index argument that denotes positions is evaluated without undefined behaviour. -/
theorem noUB_of_positions {n : Nat} (hn : n < 2 ^ 31) {idx : Index} (hp : idx.Pass) {r : List Nat}
    (h : positions n idx = some r) : idx.NoUB := by
  have fl : ∀ q : ℚ, pos1 n ⌊q⌋ ≠ none → 1 ≤ q ∧ q < 2 ^ 31 := by
    intro q hq
    unfold pos1 at hq
    split at hq
    · rename_i hb
      have a := Int.floor_le q
      have b := Int.lt_floor_add_one q
      have c : (1 : ℚ) ≤ ⌊q⌋ := by exact_mod_cast hb.1
      have d : ((⌊q⌋ : Int) : ℚ) + 1 ≤ 2 ^ 31 := by exact_mod_cast (by omega : ⌊q⌋ + 1 ≤ 2 ^ 31)
      exact ⟨by linarith, by linarith⟩
    · exact absurd rfl hq
  obtain ⟨he, _⟩ := positions_entries h
  have hne : ∀ p ∈ idx.entries n, p ≠ none := by rw [he]; intro p hp; simp at hp; aesop
  cases idx with
  | lgl b => trivial
  | int k =>
    have := hne (pos1 n k) (by simp [Index.entries])
    show k ≠ _
    rintro rfl
    simp [pos1] at this
  | dbl x =>
    have := hne (posD n x) (by simp [Index.entries])
    cases x with
    | nan => simp [posD] at this
    | inf s => simp [posD] at this
    | fin q =>
      have := fl q this
      exact ⟨by linarith, by linarith [this.2]⟩
  | vlgl l =>
    show l ≠ []
    rintro rfl
    simp [positions, posM] at h
  | vint l =>
    intro x hx
    have := hne (posI n x) (by simp only [Index.entries]; exact List.mem_map_of_mem hx)
    have hpx := hp x hx
    cases x with
    | b v => exact absurd hpx (by simp [Scal.Pass])
    | i k =>
      show k ≠ _
      rintro rfl
      simp [posI, pos1] at this
    | d x =>
      cases x with
      | nan => simp [posI, posD] at this
      | inf s => simp [posI, posD] at this
      | fin q => exact fl q this
  | vdbl l =>
    intro x hx
    have := hne (posD n x) (by simp only [Index.entries]; exact List.mem_map_of_mem hx)
    cases x with
    | nan => simp [posD] at this
    | inf s => simp [posD] at this
    | fin q =>
      have := fl q this
      exact ⟨by linarith, by linarith [this.2]⟩

/-- An index argument that denotes positions is translated to these positions. -/
theorem calcIndVector_ok {n : Nat} (hn : n < 2 ^ 31) {idx : Index} (hp : idx.Pass) {r : List Nat}
    (h : positions n idx = some r) (ws : List String) :
    ∃ ws', calcIndVector n idx ws = (.ok r, ws') := by
  rcases calcIndVector_spec (n := n) (by omega) hp (noUB_of_positions hn hp h) ws with
    ⟨m, ws', _, hn'⟩ | ⟨ind, ws', e, ha, _⟩
  · rw [h] at hn'; simp at hn'
  · obtain ⟨he, _⟩ := positions_entries h
    rw [he] at ha
    rw [addr_some_eq ha] at e
    exact ⟨ws', e⟩

theorem positions_lt {n : Nat} {idx : Index} {r : List Nat} (h : positions n idx = some r) :
    ∀ j ∈ r, j < n := by
  have hp1 : ∀ k j, pos1 n k = some j → j < n := by
    intro k j h
    unfold pos1 at h
    split at h
    · simp only [Option.some.injEq] at h; omega
    · simp at h
  have hpD : ∀ x j, posD n x = some j → j < n := by
    intro x j h
    cases x with
    | nan => simp [posD] at h
    | inf s => simp [posD] at h
    | fin q => exact hp1 _ _ h
  have hpI : ∀ x j, posI n x = some j → j < n := by
    intro x j h
    cases x with
    | b v => exact hp1 _ _ h
    | i k => exact hp1 _ _ h
    | d x => exact hpD _ _ h
  obtain ⟨he, _⟩ := positions_entries h
  intro j hj
  have hm : some j ∈ idx.entries n := by rw [he]; exact List.mem_map_of_mem hj
  cases idx with
  | lgl b =>
    cases b <;> simp [Index.entries] at hm
    exact hm
  | int k => simp [Index.entries] at hm; exact hp1 _ _ hm.symm
  | dbl x => simp [Index.entries] at hm; exact hpD _ _ hm.symm
  | vlgl l => simp [Index.entries, posM] at hm; exact hm.1
  | vint l =>
    simp only [Index.entries, List.mem_map] at hm
    obtain ⟨x, _, hx⟩ := hm; exact hpI _ _ hx
  | vdbl l =>
    simp only [Index.entries, List.mem_map] at hm
    obtain ⟨x, _, hx⟩ := hm; exact hpD _ _ hx

theorem positions_pos {n : Nat} {idx : Index} {r : List Nat} (h : positions n idx = some r) : 0 < n := by
  obtain ⟨j, hj⟩ := List.exists_mem_of_ne_nil _ (positions_entries h).2
  have := positions_lt h j hj
  omega

end ETR
