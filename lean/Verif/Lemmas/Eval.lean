import Mathlib.Data.List.Basic
import Verif.Spec.Eval

/-! Lazy element access agrees with the naive list semantics. -/

namespace ETR
namespace Spec
variable {V : Type}

theorem val_eq_some {α : Type} {o : Out α} {a : α} : val o = some a ↔ o = .ok a := by
  cases o <;> simp [val]

theorem nonEmpty_eq_some {l l' : List V} : nonEmpty l = some l' ↔ l ≠ [] ∧ l' = l := by
  unfold nonEmpty; split
  · simp_all
  · simp_all [eq_comm]

theorem mapM_length {α β : Type} {f : α → Option β} : ∀ {l : List α} {r : List β},
    l.mapM f = some r → r.length = l.length := by
  intro l
  induction l with
  | nil => intro r h; simp at h; subst h; rfl
  | cons a t ih =>
    intro r h
    simp only [List.mapM_cons, Option.pure_def, Option.bind_eq_bind, Option.bind_eq_some_iff,
      Option.some.injEq] at h
    obtain ⟨b, _, bs, h2, rfl⟩ := h
    simp [ih h2]

theorem mapM_get {α β : Type} {f : α → Option β} : ∀ {l : List α} {r : List β},
    l.mapM f = some r → ∀ i (h1 : i < l.length) (h2 : i < r.length), f l[i] = some r[i] := by
  intro l
  induction l with
  | nil => intro r _ i h1; simp at h1
  | cons a t ih =>
    intro r h i h1 h2
    simp only [List.mapM_cons, Option.pure_def, Option.bind_eq_bind, Option.bind_eq_some_iff,
      Option.some.injEq] at h
    obtain ⟨b, hb, bs, hbs, rfl⟩ := h
    cases i with
    | zero => simpa using hb
    | succ i => simpa using ih hbs i (by simpa using h1) (by simpa using h2)

theorem mapM_intro {α β : Type} {f : α → Option β} : ∀ {l : List α} {r : List β},
    r.length = l.length → (∀ i (h1 : i < l.length) (h2 : i < r.length), f l[i] = some r[i]) →
    l.mapM f = some r := by
  intro l
  induction l with
  | nil => intro r h _; simp at h; subst h; rfl
  | cons a t ih =>
    intro r h hf
    cases r with
    | nil => simp at h
    | cons b bs =>
      have h0 := hf 0 (by simp) (by simp)
      have ht := ih (r := bs) (by simpa using h) (fun i h1 h2 => by
        have := hf (i + 1) (by simpa using h1) (by simpa using h2)
        simpa using this)
      simp only [List.getElem_cons_zero] at h0
      simp [List.mapM_cons, h0, ht]

/-- The environment shows the lists `ρ`. -/
def Agrees (env : Env V) (ρ : Nat → Option (List V)) : Prop :=
  ∀ x l, ρ x = some l → env.size x = l.length ∧ ∀ i (hi : i < l.length), env.get x i = .ok l[i]

theorem modz_pos {n i : Nat} (h : 0 < n) : modz i n = .ok (i % n) := by
  unfold modz; rw [if_neg (by omega)]

theorem posOf_el {env : Env V} {e : Expr V} {l : List V} (hl : l ≠ [])
    (hz : e.size env = l.length) (he : ∀ i (hi : i < l.length), e.el env i = .ok l[i]) (i : Nat) :
    (posOf e.isScal (e.size env) i >>= fun k => e.el env k)
      = .ok (l[i % l.length]'(Nat.mod_lt _ (List.length_pos_iff.mpr hl))) := by
  have hp := List.length_pos_iff.mpr hl
  unfold posOf
  cases hs : e.isScal with
  | false =>
    simp only [Bool.false_eq_true, if_false]
    rw [hz, modz_pos hp, Out.ok_bind, he _ (Nat.mod_lt _ hp)]
  | true =>
    simp only [if_true, Out.ok_bind]
    cases e with
    | scal v =>
      simp only [Expr.size] at hz
      have : i % l.length = 0 := by rw [← hz]; exact Nat.mod_one i
      rw [he 0 hp]
      simp only [this]
    | _ => simp [Expr.isScal] at hs

/-- Main lemma: size and elements of an expression are those of the list it denotes. -/
theorem eval_sound {env : Env V} {ρ : Nat → Option (List V)} (ha : Agrees env ρ) (e : Expr V) :
    ∀ {L : List V}, eval ρ e = some L → L ≠ [] ∧ e.size env = L.length ∧
      ∀ i (hi : i < L.length), e.el env i = .ok L[i] := by
  induction e with
  | leaf x =>
    intro L h
    simp only [eval, Option.bind_eq_bind, Option.bind_eq_some_iff] at h
    obtain ⟨l, h1, h2⟩ := h
    obtain ⟨h3, rfl⟩ := nonEmpty_eq_some.mp h2
    obtain ⟨h4, h5⟩ := ha x _ h1
    exact ⟨h3, h4, h5⟩
  | rvec l mp =>
    intro L h
    obtain ⟨h3, rfl⟩ := nonEmpty_eq_some.mp h
    exact ⟨h3, rfl, fun i hi => by simp [Expr.el, getL, hi]⟩
  | scal v =>
    intro L h
    simp only [eval, Option.some.injEq] at h
    subst h
    exact ⟨by simp, rfl, fun i hi => by simp [Expr.el]⟩
  | un f e ih =>
    intro L h
    simp only [eval, Option.bind_eq_bind, Option.bind_eq_some_iff] at h
    obtain ⟨l, h1, h2⟩ := h
    obtain ⟨i1, i2, i3⟩ := ih h1
    have hlen := mapM_length h2
    have hp := List.length_pos_iff.mpr i1
    refine ⟨List.length_pos_iff.mp (by omega), by simp only [Expr.size]; omega, fun i hi => ?_⟩
    have hil : i < l.length := by omega
    have := posOf_el i1 i2 i3 i
    simp only [Expr.el]
    rw [← bind_assoc, this, Out.ok_bind]
    have hv := val_eq_some.mp (mapM_get h2 i hil hi)
    simpa [Nat.mod_eq_of_lt hil] using hv
  | bin f l r ihl ihr =>
    intro L h
    simp only [eval, Option.bind_eq_bind, Option.bind_eq_some_iff] at h
    obtain ⟨a, ha', b, hb', hz⟩ := h
    obtain ⟨a1, a2, a3⟩ := ihl ha'
    obtain ⟨b1, b2, b3⟩ := ihr hb'
    have pa := List.length_pos_iff.mpr a1
    have pb := List.length_pos_iff.mpr b1
    unfold zipRecycled at hz
    have hlen := mapM_length hz
    simp only [List.length_range] at hlen
    refine ⟨List.length_pos_iff.mp (by omega), ?_, fun i hi => ?_⟩
    · simp only [Expr.size]
      have sc : ∀ {x : Expr V}, x.isScal = true → x.size env = 1 := by
        intro x hx; cases x <;> simp_all [Expr.isScal, Expr.size]
      split
      · rename_i hc; have := sc hc.1; have := sc hc.2; omega
      · split
        · rename_i hc; have := sc hc; omega
        · split
          · rename_i hc; have := sc hc; omega
          · split <;> omega
    · have hv := mapM_get hz i (by simpa [hlen] using hi) hi
      simp only [List.getElem_range, Option.bind_eq_bind, Option.bind_eq_some_iff] at hv
      obtain ⟨x, hx, y, hy, hxy⟩ := hv
      have ea := posOf_el a1 a2 a3 i
      have eb := posOf_el b1 b2 b3 i
      have hx' := List.getElem?_eq_some_iff.mp hx
      have hy' := List.getElem?_eq_some_iff.mp hy
      simp only [Expr.el]
      rw [← bind_assoc, ea, Out.ok_bind, ← bind_assoc, eb, Out.ok_bind, hx'.2, hy'.2]
      exact val_eq_some.mp hxy
  | sub e ind mp ih =>
    intro L h
    simp only [eval, Option.bind_eq_bind, Option.bind_eq_some_iff] at h
    obtain ⟨l, h1, h2⟩ := h
    obtain ⟨i1, i2, i3⟩ := ih h1
    have hp := List.length_pos_iff.mpr i1
    split at h2
    · rename_i hc
      have hlen := mapM_length h2
      have hpi := List.length_pos_iff.mpr hc.1
      refine ⟨List.length_pos_iff.mp (by omega), by simp [Expr.size, hlen], fun i hi => ?_⟩
      have hii : i < ind.length := by omega
      have hv := mapM_get h2 i hii hi
      obtain ⟨hj, hv⟩ := List.getElem?_eq_some_iff.mp hv
      simp only [Expr.el]
      rw [i2, modz_pos hp, Out.ok_bind, Nat.mod_eq_of_lt (by omega)]
      simp only [getL, List.getElem?_eq_getElem hii, Out.ok_bind]
      rw [i3 _ hj, hv]
    · simp at h2

end Spec
end ETR
