import Verif.Spec.Numeric

/-! Lemmas on lists of values that may be missing. -/

namespace ETR
open Spec

theorem allSome_eq {α : Type} {l : List (Option α)} {m : List α} : allSome l = some m ↔ l = m.map some := by
  induction l generalizing m with
  | nil => cases m <;> simp [allSome]
  | cons a l ih =>
    cases a with
    | none => cases m <;> simp [allSome]
    | some a =>
      cases m with
      | nil => simp [allSome]
      | cons b m =>
        simp only [allSome, Option.map_eq_some_iff, List.map_cons, List.cons.injEq, Option.some.injEq]
        constructor
        · rintro ⟨k, hk, rfl, rfl⟩; exact ⟨rfl, ih.1 hk⟩
        · rintro ⟨rfl, h⟩; exact ⟨m, ih.2 h, rfl, rfl⟩

theorem allSome_get {α : Type} {l : List (Option α)} {m : List α} (h : allSome l = some m) :
    l.length = m.length ∧ ∀ i (hi : i < m.length), l[i]? = some (some m[i]) := by
  rw [allSome_eq] at h
  subst h
  exact ⟨by simp, fun i hi => by simp [hi]⟩

end ETR
