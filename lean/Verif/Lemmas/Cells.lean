import Verif.Spec.Cells
import Verif.Lemmas.Eval

/-! Lazy element access agrees with the naive semantics of cells. -/

namespace ETR
namespace Spec
variable {V : Type}

/-- The environment shows the lists `ρ`, and positions beyond the end of a vector with elements are rejected. -/
def AgreesX (env : Env V) (ρ : Nat → Option (List V)) : Prop :=
  Agrees env ρ ∧ ∀ x l, ρ x = some l → l ≠ [] → ∀ i, l.length ≤ i → env.get x i = .thr beyond

theorem cellD_lt {α : Type} {l : List α} {i : Nat} (d : α) (h : i < l.length) : l.getD i d = l[i] := by
  rw [List.getD_eq_getElem?_getD, List.getElem?_eq_getElem h, Option.getD_some]

theorem cellD_ge {α : Type} {l : List α} {i : Nat} (d : α) (h : l.length ≤ i) : l.getD i d = d := by
  rw [List.getD_eq_getElem?_getD, List.getElem?_eq_none h, Option.getD_none]

theorem posOf_cell {env : Env V} {e : Expr V} {C : List (Out V)} (hC : C ≠ [])
    (hz : e.size env = C.length) (he : ∀ i (hi : i < C.length), e.el env i = C[i]) (i : Nat) :
    (posOf e.isScal (e.size env) i >>= fun k => e.el env k)
      = C[i % C.length]'(Nat.mod_lt _ (List.length_pos_iff.mpr hC)) := by
  have hp := List.length_pos_iff.mpr hC
  unfold posOf
  cases hs : e.isScal with
  | false =>
    simp only [Bool.false_eq_true, if_false]
    rw [hz, modz_pos hp, Out.ok_bind, he _ (Nat.mod_lt _ hp)]
  | true =>
    simp only [if_true, Out.ok_bind]
    cases e with
    | scal v =>
      simp only [Expr.size] at hz
      have : i % C.length = 0 := by rw [← hz]; exact Nat.mod_one i
      rw [he 0 hp]
      simp only [this]
    | _ => simp [Expr.isScal] at hs

/-- Size and elements of an expression are those of its cells. -/
theorem cells_sound {env : Env V} {ρ : Nat → Option (List V)} (ha : AgreesX env ρ) (e : Expr V) :
    ∀ {C : List (Out V)}, cellsOf ρ e = some C → C ≠ [] ∧ e.size env = C.length ∧
      ∀ i (hi : i < C.length), e.el env i = C[i] := by
  induction e with
  | leaf x =>
    intro C h
    simp only [cellsOf, Option.map_eq_some_iff, Option.bind_eq_bind, Option.bind_eq_some_iff] at h
    obtain ⟨l', ⟨l, h1, h2⟩, rfl⟩ := h
    obtain ⟨h3, rfl⟩ := nonEmpty_eq_some.mp h2
    obtain ⟨h4, h5⟩ := ha.1 x _ h1
    exact ⟨by simpa using h3, by simpa [Expr.size] using h4, fun i hi => by
      rw [List.getElem_map]; exact h5 i (by simpa using hi)⟩
  | rvec l mp =>
    intro C h
    simp only [cellsOf, Option.map_eq_some_iff] at h
    obtain ⟨l', h2, rfl⟩ := h
    obtain ⟨h3, rfl⟩ := nonEmpty_eq_some.mp h2
    exact ⟨by simpa using h3, by simp [Expr.size], fun i hi => by
      rw [List.length_map] at hi
      simp [Expr.el, getL, hi]⟩
  | scal v =>
    intro C h
    simp only [cellsOf, Option.some.injEq] at h
    subst h
    exact ⟨by simp, rfl, fun i hi => by simp [Expr.el]⟩
  | un f e ih =>
    intro C h
    simp only [cellsOf, Option.map_eq_some_iff] at h
    obtain ⟨A, h1, rfl⟩ := h
    obtain ⟨i1, i2, i3⟩ := ih h1
    refine ⟨by simpa using i1, by simpa [Expr.size] using i2, fun i hi => ?_⟩
    have hil : i < A.length := by simpa using hi
    have := posOf_cell i1 i2 i3 i
    simp only [Expr.el]
    rw [← bind_assoc, this]
    simp [Nat.mod_eq_of_lt hil]
  | bin f l r ihl ihr =>
    intro C h
    simp only [cellsOf, Option.bind_eq_bind, Option.bind_eq_some_iff, Option.pure_def, Option.some.injEq] at h
    obtain ⟨a, ha', b, hb', rfl⟩ := h
    obtain ⟨a1, a2, a3⟩ := ihl ha'
    obtain ⟨b1, b2, b3⟩ := ihr hb'
    have pa := List.length_pos_iff.mpr a1
    have pb := List.length_pos_iff.mpr b1
    refine ⟨List.length_pos_iff.mp (by simp; omega), ?_, fun i hi => ?_⟩
    · simp only [Expr.size, List.length_map, List.length_range]
      have sc : ∀ {x : Expr V}, x.isScal = true → x.size env = 1 := by
        intro x hx; cases x <;> simp_all [Expr.isScal, Expr.size]
      split
      · rename_i hc; have := sc hc.1; have := sc hc.2; omega
      · split
        · rename_i hc; have := sc hc; omega
        · split
          · rename_i hc; have := sc hc; omega
          · split <;> omega
    · have ea := posOf_cell a1 a2 a3 i
      have eb := posOf_cell b1 b2 b3 i
      simp only [Expr.el, List.getElem_map, List.getElem_range]
      rw [← bind_assoc, ea, cellD_lt _ (Nat.mod_lt _ pa), cellD_lt _ (Nat.mod_lt _ pb)]
      congr 1
      funext x
      rw [← bind_assoc, eb]
  | sub e ind mp ih =>
    intro C h
    simp only [cellsOf, Option.bind_eq_bind, Option.bind_eq_some_iff] at h
    obtain ⟨A, h1, h⟩ := h
    split at h
    · rename_i hc
      obtain ⟨c1, c2, c3⟩ := hc
      simp only [Option.pure_def, Option.some.injEq] at h
      subst h
      obtain ⟨i1, i2, i3⟩ := ih h1
      have hp := List.length_pos_iff.mpr i1
      refine ⟨by simpa using c1, by simp [Expr.size], fun i hi => ?_⟩
      have hi' : i < ind.length := by simpa using hi
      simp only [Expr.el]
      rw [i2, modz_pos hp, Out.ok_bind, Nat.mod_eq_of_lt (by omega), show getL ind i = .ok ind[i] by simp [getL, hi'], Out.ok_bind,
        List.getElem_map]
      by_cases hj : ind[i] < A.length
      · rw [cellD_lt _ hj, i3 _ hj]
      · rcases c3 with c3 | c3
        · cases e with
          | leaf x =>
            simp only [cellsOf, Option.map_eq_some_iff, Option.bind_eq_bind, Option.bind_eq_some_iff] at h1
            obtain ⟨l', ⟨l, h1, h2⟩, rfl⟩ := h1
            obtain ⟨h3, rfl⟩ := nonEmpty_eq_some.mp h2
            rw [cellD_ge _ (by omega)]
            exact ha.2 x _ h1 h3 _ (by simpa using hj)
          | _ => simp [isNamed] at c3
        · exact absurd (c3 _ (List.getElem_mem hi')) hj
    · simp at h

/-- An expression that denotes a list has the values of that list as cells. -/
theorem cells_eval {ρ : Nat → Option (List V)} (e : Expr V) : ∀ {L : List V}, eval ρ e = some L → cellsOf ρ e = some (L.map .ok) := by
  have map_ok : ∀ {α : Type} {f : α → Out V} {l : List α} {L : List V}, l.mapM (fun v => val (f v)) = some L → l.map f = L.map .ok := by
    intro α f l L h
    refine List.ext_getElem (by simp [mapM_length h]) (fun i h1 h2 => ?_)
    have := val_eq_some.mp (mapM_get h i (by simpa using h1) (by simpa using h2))
    simp [this]
  induction e with
  | leaf x => intro L h; simp only [cellsOf]; simp only [eval] at h; rw [h]; rfl
  | rvec l mp => intro L h; simp only [cellsOf]; simp only [eval] at h; rw [h]; rfl
  | scal v => intro L h; simp only [eval, Option.some.injEq] at h; subst h; rfl
  | un f e ih =>
    intro L h
    simp only [eval, Option.bind_eq_bind, Option.bind_eq_some_iff] at h
    obtain ⟨l, h1, h2⟩ := h
    simp only [cellsOf, ih h1, Option.map_some, List.map_map, Option.some.injEq]
    rw [← map_ok h2]
    exact List.map_congr_left (fun _ _ => rfl)
  | bin f l r ihl ihr =>
    intro L h
    simp only [eval, Option.bind_eq_bind, Option.bind_eq_some_iff] at h
    obtain ⟨a, ha, b, hb, hz⟩ := h
    simp only [cellsOf, ihl ha, ihr hb, Option.bind_eq_bind, Option.bind_some, Option.pure_def, List.length_map, Option.some.injEq]
    unfold zipRecycled at hz
    refine List.ext_getElem (by simp [mapM_length hz]) (fun i h1 h2 => ?_)
    have hv := mapM_get hz i (by simpa using h1) (by simpa using h2)
    simp only [List.getElem_range, Option.bind_eq_bind, Option.bind_eq_some_iff] at hv
    obtain ⟨x, hx, y, hy, hxy⟩ := hv
    simp only [List.getElem_map, List.getElem_range, List.getD_eq_getElem?_getD, List.getElem?_map, hx, hy, Option.map_some, Option.getD_some,
      Out.ok_bind]
    exact val_eq_some.mp hxy
  | sub e ind mp ih =>
    intro L h
    simp only [eval, Option.bind_eq_bind, Option.bind_eq_some_iff] at h
    obtain ⟨l, h1, h⟩ := h
    split at h
    · rename_i hc
      have hlen := mapM_length h
      simp only [cellsOf, ih h1, Option.bind_eq_bind, Option.bind_some, List.length_map]
      have hr : ∀ j ∈ ind, j < l.length := by
        intro j hj
        obtain ⟨i, hi, rfl⟩ := List.mem_iff_getElem.mp hj
        have := mapM_get h i hi (by omega)
        exact (List.getElem?_eq_some_iff.mp this).1
      rw [if_pos ⟨hc.1, hc.2, Or.inr hr⟩]
      simp only [Option.pure_def, Option.some.injEq]
      refine List.ext_getElem (by simp [hlen]) (fun i h1 h2 => ?_)
      have := mapM_get h i (by simpa using h1) (by simpa using h2)
      simp [this]
    · simp at h

/-- The cells before the failure are values. -/
theorem failure_split : ∀ {C : List (Out V)} {m : String}, failure C = some m → ∃ (L : List V) (D : List (Out V)), C = L.map .ok ++ .thr m :: D := by
  intro C
  induction C with
  | nil => intro m h; simp [failure] at h
  | cons c C ih =>
    intro m h
    cases c with
    | ok v =>
      obtain ⟨L, D, rfl⟩ := ih (by simpa [failure] using h)
      exact ⟨v :: L, D, rfl⟩
    | thr e => simp only [failure, Option.some.injEq] at h; subst h; exact ⟨[], C, rfl⟩
    | ub k => simp [failure] at h

theorem values_get {C : List (Out V)} {L : List V} (h : values C = some L) : C = L.map .ok := by
  refine List.ext_getElem (by simp [mapM_length h]) (fun i h1 h2 => ?_)
  have := val_eq_some.mp (mapM_get h i h1 (by simpa using h2))
  simpa using this

end Spec
end ETR
