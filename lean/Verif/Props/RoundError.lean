import Verif.Props.Round
import Verif.Props.Assign
import Verif.Props.Expr
import Verif.Lemmas.Numeric

/-! C107: the rounding error of formulas on doubles. -/

namespace ETR
open F64

namespace Spec

/-- A binary64 number. -/
def Binary64 (q : ℚ) : Prop := Grid q ∧ |q| < 2 ^ 1024

/-- The vectors are vectors of doubles that hold the lists `ρ` (where these are not empty). -/
def HoldsD (env : Env Scal) (ρ : Nat → List ℚ) : Prop :=
  ∀ x, ρ x ≠ [] → env.size x = (ρ x).length ∧ ∀ i (hi : i < (ρ x).length), env.get x i = .ok (.d (fin (ρ x)[i]))

end Spec
open Spec

theorem rnd_fin_iff (q : ℚ) : rnd q = fin q ↔ Binary64 q := by
  rw [rounded_iff]
  constructor
  · rintro ⟨v, h1, h2⟩
    split at h2
    · rename_i h; cases h2; exact ⟨h1.1, h⟩
    · cases h2
  · rintro ⟨h1, h2⟩
    exact ⟨q, nearest_of_grid h1, by rw [if_pos h2]⟩

instance (q : ℚ) : Decidable (Binary64 q) := decidable_of_iff _ (rnd_fin_iff q)

namespace Spec

/-- The rational numbers, as long as every result is a binary64 number. -/
def representable : Numbers ℚ where
  num := some
  neg q := some (-q)
  op o p q := do
    let v ← opQ o p q
    if Binary64 v then some v else none
  cmp o p q :=
    match o with
    | .eq => if Binary64 (p - q) then sign (1 / 1000 - |p - q|) (1 / 2 ^ 60) else none
    | .ne => if Binary64 (p - q) then sign (|p - q| - 1 / 1000) (1 / 2 ^ 60) else none
    | o => cmpQ o p q

end Spec

/-- The kind of numbers describes what is computed: `R a z`, the computed number `z` is as `a` says. -/
structure Describes {α : Type} (N : Numbers α) (R : α → ℚ → Prop) : Prop where
  num : ∀ q a, N.num q = some a → R a q
  neg : ∀ a b z, N.neg a = some b → R a z → R b (-z)
  op : ∀ o a b c u v, N.op o a b = some c → R a u → R b v → ∃ z, o.f (.d (fin u)) (.d (fin v)) = .ok (.d (fin z)) ∧ R c z

theorem conv_d (e : TForm) (x : F64) : e.conv (.d x) = .d x := by
  cases e <;> simp [TForm.conv, Scal.toD]

/-- A double. -/
abbrev dbl (q : ℚ) : Scal := .d (fin q)

theorem forall₂_get {β γ : Type} {R : β → γ → Prop} {l : List β} {m : List γ} (h : List.Forall₂ R l m) (i : Nat) (h1 : i < l.length)
    (h2 : i < m.length) : R l[i] m[i] := (List.forall₂_iff_get.1 h).2 i h1 h2

/-- `allSome` and `mapM` in step. -/
theorem allSome_mapM {α β δ : Type} {R : α → ℚ → Prop} {g : β → Option α} {f : δ → Option Scal} {m : List β} {k : List δ} {l : List α}
    (hk : k.length = m.length) (h : allSome (m.map g) = some l)
    (hs : ∀ i (h1 : i < m.length) (h2 : i < k.length) a, g m[i] = some a → ∃ z, f k[i] = some (dbl z) ∧ R a z) :
    ∃ zs : List ℚ, k.mapM f = some (zs.map dbl) ∧ List.Forall₂ R l zs := by
  induction m generalizing k l with
  | nil =>
    cases h
    obtain rfl : k = [] := List.eq_nil_of_length_eq_zero hk
    exact ⟨[], rfl, .nil⟩
  | cons b m ih =>
    cases k with
    | nil => simp at hk
    | cons d k =>
      rw [List.map_cons] at h
      cases hb : g b with
      | none => rw [hb] at h; cases h
      | some a =>
        rw [hb] at h
        simp only [allSome, Option.map_eq_some_iff] at h
        obtain ⟨l', hl', rfl⟩ := h
        obtain ⟨z, z1, z2⟩ := hs 0 (by simp) (by simp) a hb
        obtain ⟨zs, e, r⟩ := ih (k := k) (by simpa using hk) hl' (fun i h1 h2 a ha =>
          hs (i + 1) (by simpa using h1) (by simpa using h2) a ha)
        simp only [List.getElem_cons_zero] at z1
        exact ⟨z :: zs, by simp [List.mapM_cons, z1, e], .cons z2 r⟩

/-- A formula read over a kind of numbers that describes the computation describes the naive value. -/
theorem Describes.eval {α : Type} {N : Numbers α} {R : α → ℚ → Prop} (D : Describes N R) {ρ : Nat → Option (List Scal)}
    {η : Nat → Option (List α)} (hη : ∀ x l, η x = some l → ∃ zs : List ℚ, ρ x = some (zs.map dbl) ∧ List.Forall₂ R l zs)
    (e : TForm) (l : List α) (h : overL N η e = some l) :
    l ≠ [] ∧ ∃ zs : List ℚ, Spec.eval ρ e.toExpr = some (zs.map dbl) ∧ List.Forall₂ R l zs := by
  induction e generalizing l with
  | leaf t x =>
    cases t with
    | bool => simp [overL] at h
    | int => simp [overL] at h
    | double =>
      simp only [overL, Option.bind_eq_bind, Option.bind_eq_some_iff] at h
      obtain ⟨l', h1, h2⟩ := h
      split at h2
      · cases h2
      · rename_i h3
        cases h2
        obtain ⟨zs, e, r⟩ := hη x l h1
        refine ⟨h3, zs, ?_, r⟩
        simp only [TForm.toExpr, Spec.eval, e, Option.bind_eq_bind, Option.bind_some, nonEmpty]
        rw [if_neg]
        intro h0
        have := congrArg List.length h0
        rw [List.length_map, ← r.length_eq, List.length_nil, List.length_eq_zero_iff] at this
        exact h3 this
  | scal v =>
    rcases v with v | n | x
    · simp [overL] at h
    · simp [overL] at h
    · rcases x with _ | b | q
      · simp [overL] at h
      · simp [overL] at h
      · simp only [overL] at h
        obtain ⟨zs, e, r⟩ := allSome_mapM (R := R) (g := fun q => N.num q) (m := [q]) (k := [q]) (f := fun q => some (dbl q)) rfl h
          (fun i h1 h2 a ha => ⟨_, rfl, D.num _ _ ha⟩)
        refine ⟨?_, zs, ?_, r⟩
        · rintro rfl
          cases r
          cases e
        · simp only [TForm.toExpr, Spec.eval]
          rw [← e]
          rfl
  | un o e ih =>
    cases o with
    | fn g => simp [overL] at h
    | neg =>
      simp only [overL, Option.bind_eq_bind, Option.bind_eq_some_iff] at h
      obtain ⟨l', h1, h2⟩ := h
      obtain ⟨n1, zs, e1, r⟩ := ih l' h1
      obtain ⟨zs', e2, r2⟩ := allSome_mapM (R := R) (k := zs.map dbl) (f := fun v => val (UnO.neg.f (e.conv v)))
        (by rw [List.length_map, r.length_eq]) h2 (fun i h3 h4 a ha => by
          refine ⟨-zs[i]'(by simpa using h4), ?_, D.neg _ _ _ ha (forall₂_get r i h3 (by simpa using h4))⟩
          simp only [List.getElem_map, conv_d]
          rfl)
      refine ⟨?_, zs', ?_, r2⟩
      · have := (allSome_get h2).1
        rw [List.length_map] at this
        intro h0
        rw [h0, List.length_nil, List.length_eq_zero_iff] at this
        exact n1 this
      · simp only [TForm.toExpr, Spec.eval, e1, Option.bind_eq_bind, Option.bind_some]
        exact e2
  | bin o l1 r1 hl hr =>
    simp only [overL, Option.bind_eq_bind, Option.bind_eq_some_iff] at h
    obtain ⟨a, h1, b, h2, h3⟩ := h
    obtain ⟨a1, za, ea, ra⟩ := hl a h1
    obtain ⟨b1, zb, eb, rb⟩ := hr b h2
    have la := ra.length_eq
    have lb := rb.length_eq
    have pa := List.length_pos_iff.mpr a1
    have pb := List.length_pos_iff.mpr b1
    obtain ⟨zs, e2, r2⟩ := allSome_mapM (R := R) (k := List.range (max (za.map dbl).length (zb.map dbl).length))
      (f := fun i => do
        let x ← (za.map dbl)[i % (za.map dbl).length]?
        let y ← (zb.map dbl)[i % (zb.map dbl).length]?
        val (o.f (l1.conv x) (r1.conv y)))
      (by simp [la, lb]) h3 (fun i h4 h5 c hc => by
        simp only [List.getElem_range, Option.bind_eq_some_iff] at hc
        obtain ⟨u, hu, v, hv, hc⟩ := hc
        obtain ⟨iu, eu⟩ := List.getElem?_eq_some_iff.1 hu
        obtain ⟨iv, ev⟩ := List.getElem?_eq_some_iff.1 hv
        have ru := forall₂_get ra _ iu (by omega)
        have rv := forall₂_get rb _ iv (by omega)
        rw [eu] at ru
        rw [ev] at rv
        obtain ⟨z, z1, z2⟩ := D.op _ _ _ _ _ _ hc ru rv
        refine ⟨z, ?_, z2⟩
        have k1 : i % za.length < za.length := by rw [← la]; exact iu
        have k2 : i % zb.length < zb.length := by rw [← lb]; exact iv
        simp only [List.getElem_range, List.length_map, List.getElem?_map, List.getElem?_eq_getElem k1,
          List.getElem?_eq_getElem k2, Option.map_some, Option.bind_eq_bind, Option.bind_some, conv_d]
        simp only [← la, ← lb, z1, val])
    refine ⟨?_, zs, ?_, r2⟩
    · have := (allSome_get h3).1
      rw [List.length_map, List.length_range] at this
      rw [← List.length_pos_iff]
      omega
    · simp only [TForm.toExpr, Spec.eval, ea, eb, Option.bind_eq_bind, Option.bind_some]
      exact e2
  | sub e ind mp ih =>
    simp only [overL, Option.bind_eq_bind, Option.bind_eq_some_iff] at h
    obtain ⟨l', h1, h2⟩ := h
    split at h2
    · rename_i h3
      obtain ⟨n1, zs, e1, r⟩ := ih l' h1
      obtain ⟨zs', e2, r2⟩ := allSome_mapM (R := R) (k := ind) (f := fun j => (zs.map dbl)[j]?) rfl h2 (fun i h4 h5 a ha => by
        obtain ⟨hj, ej⟩ := List.getElem?_eq_some_iff.1 ha
        have hj' : ind[i] < zs.length := by rw [← r.length_eq]; exact hj
        refine ⟨zs[ind[i]], by simp [hj'], ?_⟩
        rw [← ej]
        exact forall₂_get r _ hj hj')
      refine ⟨?_, zs', ?_, r2⟩
      · have := (allSome_get h2).1
        rw [List.length_map] at this
        intro h0
        rw [h0, List.length_nil, List.length_eq_zero_iff] at this
        exact h3.1 this
      · simp only [TForm.toExpr, Spec.eval, e1, Option.bind_eq_bind, Option.bind_some]
        rw [if_pos ⟨h3.1, by rw [List.length_map, ← r.length_eq]; exact h3.2⟩]
        exact e2
    · cases h2

/-- A formula read over a kind of numbers that describes the computation describes the elements. -/
theorem Describes.el {α : Type} {N : Numbers α} {R : α → ℚ → Prop} (D : Describes N R) {env : Env Scal} {ρ : Nat → List ℚ}
    (hρ : HoldsD env ρ) (e : TForm) (l : List α) (h : over N ρ e = some l) :
    l ≠ [] ∧ e.toExpr.size env = l.length ∧ ∀ i (hi : i < l.length), ∃ z, e.toExpr.el env i = .ok (.d (fin z)) ∧ R l[i] z := by
  have hag : Agrees env (fun x => if ρ x = [] then none else some ((ρ x).map dbl)) := by
    intro x l hl
    beta_reduce at hl
    split at hl
    · cases hl
    · rename_i h0
      cases hl
      obtain ⟨k1, k2⟩ := hρ x h0
      refine ⟨by simpa using k1, fun i hi => ?_⟩
      simp only [List.length_map] at hi
      rw [k2 i hi, List.getElem_map]
  -- empty lists have no value
  have h' : overL N (fun x => if ρ x = [] then none else allSome ((ρ x).map N.num)) e = some l := by
    rw [← h]
    unfold over
    clear h
    induction e generalizing l with
    | leaf t x =>
      cases t with
      | bool => rfl
      | int => rfl
      | double =>
        simp only [overL]
        split
        · rename_i h0
          simp [h0, allSome]
        · rfl
    | scal v => rcases v with v | n | (_ | b | q) <;> rfl
    | un o e ih => cases o <;> simp only [overL, ih l]
    | bin o l1 r1 hl hr => simp only [overL, hl l, hr l]
    | sub e ind mp ih => simp only [overL, ih l]
  obtain ⟨n1, zs, e1, r⟩ := D.eval (ρ := fun x => if ρ x = [] then none else some ((ρ x).map dbl)) (by
    intro x l hl
    split at hl
    · cases hl
    · rename_i h0
      refine ⟨ρ x, by rw [if_neg h0], ?_⟩
      rw [List.forall₂_iff_get]
      obtain ⟨h2, h3⟩ := allSome_get hl
      rw [List.length_map] at h2
      refine ⟨h2.symm, fun i h4 h5 => D.num _ _ ?_⟩
      have := h3 i h4
      simp only [List.getElem?_map, List.getElem?_eq_getElem h5, Option.map_some, Option.some.injEq] at this
      exact this) e l h'
  obtain ⟨_, k2, k3⟩ := eval_sound hag _ e1
  rw [List.length_map, ← r.length_eq] at k2
  refine ⟨n1, k2, fun i hi => ?_⟩
  have hi' : i < zs.length := by rw [← r.length_eq]; exact hi
  refine ⟨zs[i], ?_, forall₂_get r i hi hi'⟩
  rw [k3 i (by simpa using hi'), List.getElem_map]

theorem overL_retTy {α : Type} {N : Numbers α} {η : Nat → Option (List α)} {e : TForm} {l : List α} (h : overL N η e = some l) :
    e.retTy = .double := by
  cases e with
  | leaf t x => cases t <;> simp_all [overL, TForm.retTy]
  | scal v => rcases v with v | n | x <;> simp_all [overL, TForm.retTy, Scal.ty]
  | _ => rfl

/-- The stored element. -/
theorem Describes.elTo {α : Type} {N : Numbers α} {R : α → ℚ → Prop} (D : Describes N R) {env : Env Scal} {ρ : Nat → List ℚ}
    (hρ : HoldsD env ρ) (e : TForm) (l : List α) (h : over N ρ e = some l) :
    e.toExpr.size env = l.length ∧ ∀ i (hi : i < l.length), ∃ z, e.elTo .double env i = .ok (.d (fin z)) ∧ R l[i] z := by
  obtain ⟨_, h2, h3⟩ := D.el hρ e l h
  refine ⟨h2, fun i hi => ?_⟩
  obtain ⟨z, z1, z2⟩ := h3 i hi
  refine ⟨z, ?_, z2⟩
  unfold TForm.elTo
  rw [z1, Out.ok_bind, conv_d, overL_retTy h]
  rfl

theorem pow2_negNat (n : Nat) : pow2 (-(n : Int)) = 1 / 2 ^ n := by rw [pow2_eq, zpow_neg, zpow_natCast, one_div]

/-- Half a unit in the last place. -/
theorem rndQ_bound (t : ℚ) : |rndQ t - t| ≤ |t| / 2 ^ 53 + 1 / 2 ^ 1075 := by
  rcases le_or_gt (pow2 (-1022)) |t| with h | h
  · have := rndQ_relerr h
    have e : pow2 (-53) = 1 / 2 ^ 53 := by rw [pow2_eq]; norm_num [zpow_neg]
    rw [e] at this
    have : (0 : ℚ) ≤ 1 / 2 ^ 1075 := by positivity
    linarith
  · by_cases h0 : t = 0
    · rw [h0, rndQ_zero]; simp
    have ht : 0 < |t| := abs_pos.2 h0
    have h1 := (ilog_spec ht).1
    have h2 : ilog |t| < -1022 := pow2_lt_iff.1 (lt_of_le_of_lt h1 h)
    have h3 : ulpExp t = -1074 := by unfold ulpExp; omega
    have h4 := rndQ_err t
    rw [h3] at h4
    have e : pow2 (-1074) / 2 = 1 / 2 ^ 1075 := by
      have e1 : pow2 (-1074) = pow2 (-1075) * pow2 1 := by rw [← pow2_add]; norm_num
      have e2 : pow2 1 = 2 := by rw [pow2_eq]; norm_num
      have e3 : pow2 (-1075) = 1 / 2 ^ 1075 := pow2_negNat 1075
      rw [e1, e2, ← e3, mul_div_assoc]
      norm_num
    rw [e] at h4
    exact h4.trans (le_add_of_nonneg_left (div_nonneg (abs_nonneg t) (by norm_num)))

theorem rnd_fin_of_le {t : ℚ} (h : |t| ≤ 2 ^ 1023) : rnd t = fin (rndQ t) := by
  apply rnd_of_lt
  have e : pow2 1023 = 2 ^ 1023 := pow2_natCast 1023
  have hx : rndQ (2 ^ 1023) = 2 ^ 1023 := by
    have := @rndQ_exact 1 1023 (by norm_num) (by norm_num)
    rw [e] at this
    simpa using this
  obtain ⟨h1, h2⟩ := abs_le.1 h
  have k2 := rndQ_mono h2
  have k1 := rndQ_mono h1
  rw [rndQ_neg] at k1
  rw [hx] at k1 k2
  have : pow2 1024 = 2 * 2 ^ 1023 := by rw [show pow2 1024 = 2 ^ 1024 from pow2_natCast 1024, pow_succ, mul_comm]
  rw [this]
  have hp : (0 : ℚ) < 2 ^ 1023 := by positivity
  exact lt_of_le_of_lt (abs_le.2 ⟨k1, k2⟩) (by rw [two_mul]; exact lt_add_of_pos_right _ hp)

theorem settle_ok {v d t : ℚ} {c : ℚ × ℚ} (h : settle v d = some c) (ht : |t - v| ≤ d) :
    rnd t = fin (rndQ t) ∧ |rndQ t - c.1| ≤ c.2 := by
  unfold settle at h
  split at h
  · rename_i h1
    cases h
    have h2 : |t| ≤ |v| + d := by
      have := abs_sub_abs_le_abs_sub t v
      linarith
    refine ⟨rnd_fin_of_le (h2.trans h1), ?_⟩
    dsimp only
    have h3 := rndQ_bound t
    have h4 := abs_sub_le (rndQ t) t v
    have h5 : |t| / 2 ^ 53 ≤ (|v| + d) / 2 ^ 53 := by gcongr
    linarith
  · cases h

theorem plus_fin (u v : ℚ) : BinO.plus.f (.d (fin u)) (.d (fin v)) = .ok (.d (rnd (u + v))) := rfl
theorem minus_fin (u v : ℚ) : BinO.minus.f (.d (fin u)) (.d (fin v)) = .ok (.d (rnd (u - v))) := by rw [sub_eq_add_neg]; rfl
theorem times_fin (u v : ℚ) : BinO.times.f (.d (fin u)) (.d (fin v)) = .ok (.d (rnd (u * v))) := rfl
theorem divide_fin {u v : ℚ} (h : v ≠ 0) : BinO.divide.f (.d (fin u)) (.d (fin v)) = .ok (.d (rnd (u / v))) := by
  simp only [BinO.f, Trait.divide, Scal.toD, F64.div, if_neg h]

theorem describes_withError : Describes withError (fun a z => |z - a.1| ≤ a.2) where
  num q a h := by cases h; simp
  neg a b z h hz := by
    cases h
    dsimp only
    rwa [← neg_add', abs_neg, ← sub_eq_add_neg]
  op o a b c u v h hu hv := by
    have hu0 : 0 ≤ a.2 := le_trans (abs_nonneg _) hu
    have hv0 : 0 ≤ b.2 := le_trans (abs_nonneg _) hv
    cases o <;> simp only [withError] at h
    case plus =>
      obtain ⟨h1, h2⟩ := settle_ok (t := u + v) h (by
        rw [show u + v - (a.1 + b.1) = (u - a.1) + (v - b.1) by ring]
        exact (abs_add_le _ _).trans (add_le_add hu hv))
      exact ⟨_, by rw [plus_fin, h1], h2⟩
    case minus =>
      obtain ⟨h1, h2⟩ := settle_ok (t := u - v) h (by
        rw [show u - v - (a.1 - b.1) = (u - a.1) - (v - b.1) by ring]
        exact (abs_sub _ _).trans (add_le_add hu hv))
      exact ⟨_, by rw [minus_fin, h1], h2⟩
    case times =>
      obtain ⟨h1, h2⟩ := settle_ok (t := u * v) h (by
        rw [show u * v - a.1 * b.1 = a.1 * (v - b.1) + b.1 * (u - a.1) + (u - a.1) * (v - b.1) by ring]
        refine (abs_add_three _ _ _).trans ?_
        rw [abs_mul, abs_mul, abs_mul]
        gcongr)
      exact ⟨_, by rw [times_fin, h1], h2⟩
    case divide =>
      split at h
      · rename_i hb
        obtain ⟨hb2, hb⟩ := hb
        have hw : |b.1| - b.2 ≤ |v| := by
          have := abs_sub_abs_le_abs_sub b.1 v
          rw [abs_sub_comm] at this
          linarith
        have hv1 : 0 < |v| := by linarith
        have hv2 : v ≠ 0 := abs_pos.1 hv1
        have hb1 : 0 < |b.1| := abs_pos.2 hb2
        obtain ⟨h1, h2⟩ := settle_ok (t := u / v) h (by
          have e : u / v - a.1 / b.1 = (b.1 * (u - a.1) - a.1 * (v - b.1)) / (b.1 * v) := by field_simp; ring
          rw [e, abs_div, abs_mul b.1 v]
          have k1 : |b.1 * (u - a.1) - a.1 * (v - b.1)| ≤ |a.1| * b.2 + |b.1| * a.2 := by
            refine (abs_sub _ _).trans ?_
            rw [abs_mul, abs_mul, add_comm]
            gcongr
          have k2 : |b.1| * (|b.1| - b.2) ≤ |b.1| * |v| := by gcongr
          have k3 : 0 < |b.1| * (|b.1| - b.2) := mul_pos hb1 (by linarith)
          exact div_le_div₀ (by positivity) k1 k3 k2)
        exact ⟨_, by rw [divide_fin hv2, h1], h2⟩
      · cases h
    all_goals cases h

theorem describes_representable : Describes representable (fun a z => z = a) where
  num q a h := by cases h; rfl
  neg a b z h hz := by cases h; rw [hz]
  op o a b c u v h hu hv := by
    subst hu hv
    simp only [representable, Option.bind_eq_bind, Option.bind_eq_some_iff] at h
    obtain ⟨w, h1, h2⟩ := h
    split at h2
    · rename_i h3
      cases h2
      refine ⟨_, ?_, rfl⟩
      have h4 := (rnd_fin_iff _).2 h3
      cases o <;> simp only [opQ] at h1
      case plus => cases h1; rw [plus_fin, h4]
      case minus => cases h1; rw [minus_fin, h4]
      case times => cases h1; rw [times_fin, h4]
      case divide =>
        split at h1
        · cases h1
        · rename_i h5; cases h1; rw [divide_fin h5, h4]
      all_goals cases h1
    · cases h2

/-- The factor of `n` roundings. -/
theorem pow_half {n : Nat} (h : n ≤ 2 ^ 40) : (1 : ℚ) - n / 2 ^ 53 ≤ (1 - 1 / 2 ^ 53) ^ n ∧ (1 : ℚ) / 2 ≤ 1 - n / 2 ^ 53 := by
  constructor
  · have := one_add_mul_le_pow (show (-2 : ℚ) ≤ -(1 / 2 ^ 53) by norm_num) n
    rw [← sub_eq_add_neg] at this
    refine le_trans (le_of_eq ?_) this
    ring
  · have : (n : ℚ) ≤ 2 ^ 40 := by exact_mod_cast h
    rw [le_sub_comm, div_le_iff₀ (by positivity)]
    refine this.trans ?_
    norm_num

/-- `z` is `v` after at most `n` roundings. -/
def Near (v : ℚ) (n : Nat) (z : ℚ) : Prop := v * (1 - 1 / 2 ^ 53) ^ n ≤ z ∧ z * (1 - 1 / 2 ^ 53) ^ n ≤ v

theorem near_step {v t z : ℚ} {n : Nat} (ht : 0 < t) (hr : |z - t| ≤ t * (1 / 2 ^ 53)) (h : Near v n t) :
    Near v (n + 1) z := by
  obtain ⟨t1, t2⟩ := h
  obtain ⟨r1, r2⟩ := abs_le.1 hr
  have f0 : (0 : ℚ) ≤ 1 - 1 / 2 ^ 53 := by norm_num
  constructor
  · rw [pow_succ, ← mul_assoc]
    calc v * (1 - 1 / 2 ^ 53) ^ n * (1 - 1 / 2 ^ 53) ≤ t * (1 - 1 / 2 ^ 53) := by gcongr
      _ ≤ z := by linarith
  · rw [pow_succ', ← mul_assoc]
    refine le_trans ?_ t2
    have : (0 : ℚ) ≤ (1 - 1 / 2 ^ 53) ^ n := pow_nonneg f0 n
    gcongr
    calc z * (1 - 1 / 2 ^ 53) ≤ (t * (1 + 1 / 2 ^ 53)) * (1 - 1 / 2 ^ 53) := by gcongr; linarith
      _ = t * ((1 + 1 / 2 ^ 53) * (1 - 1 / 2 ^ 53)) := by ring
      _ ≤ t * 1 := by gcongr; norm_num
      _ = t := mul_one t

theorem moderate_ok {v t : ℚ} {n : Nat} {c : ℚ × Nat} (h : moderate v (n + 1) = some c) (ht : Near v n t) :
    rnd t = fin (rndQ t) ∧ 0 < c.1 ∧ c.2 ≤ 2 ^ 40 ∧ Near c.1 c.2 (rndQ t) := by
  unfold moderate at h
  split at h
  · rename_i h1
    obtain ⟨h1, h2, h3⟩ := h1
    cases h
    dsimp only
    obtain ⟨t1, t2⟩ := ht
    have hp : (0 : ℚ) < 1 / 2 ^ 1000 := by positivity
    have hv : 0 < v := lt_of_lt_of_le hp h1
    have hn : (n : Nat) ≤ 2 ^ 40 := by omega
    obtain ⟨k1, k2⟩ := pow_half hn
    have hq : (1 : ℚ) / 2 ≤ (1 - 1 / 2 ^ 53) ^ n := k2.trans k1
    have g1 : v * (1 / 2) ≤ t := le_trans (by gcongr) t1
    have ht0 : 0 < t := by linarith
    have g2 : t * (1 / 2) ≤ v := le_trans (by gcongr) t2
    have big : t ≤ 2 ^ 1023 := by
      have : t ≤ 2 * 2 ^ 1000 := by linarith
      refine this.trans ?_
      rw [← pow_succ']
      exact pow_le_pow_right₀ (by norm_num) (by norm_num)
    have small : pow2 (-1022) ≤ |t| := by
      have e : pow2 (-1001) = 1 / 2 ^ 1001 := pow2_negNat 1001
      rw [abs_of_pos ht0]
      refine (pow2_mono (show (-1022 : Int) ≤ -1001 by norm_num)).trans ?_
      rw [e, pow_succ, ← div_div]
      linarith
    have hr := rndQ_relerr small
    have e : pow2 (-53) = 1 / 2 ^ 53 := by rw [pow2_eq]; norm_num [zpow_neg]
    rw [e, abs_of_pos ht0] at hr
    refine ⟨rnd_fin_of_le (by rw [abs_of_pos ht0]; exact big), hv, h3, near_step ht0 hr ⟨t1, t2⟩⟩
  · cases h

theorem describes_counted : Describes counted (fun a z => 0 < a.1 ∧ a.2 ≤ 2 ^ 40 ∧ Near a.1 a.2 z) where
  num q a h := by
    simp only [counted, moderate] at h
    split at h
    · rename_i h1
      cases h
      have : (0 : ℚ) < 1 / 2 ^ 1000 := by positivity
      exact ⟨lt_of_lt_of_le this h1.1, by norm_num, by simp, by simp⟩
    · cases h
  neg a b z h hz := by cases h
  op o a b c u v h hu hv := by
    obtain ⟨a1, an, u1, u2⟩ := hu
    obtain ⟨b1, bn, v1, v2⟩ := hv
    have f0 : (0 : ℚ) < 1 - 1 / 2 ^ 53 := by norm_num
    have f1 : (1 : ℚ) - 1 / 2 ^ 53 ≤ 1 := by norm_num
    have ha : (0 : ℚ) < (1 - 1 / 2 ^ 53) ^ a.2 := pow_pos f0 _
    have hb : (0 : ℚ) < (1 - 1 / 2 ^ 53) ^ b.2 := pow_pos f0 _
    have hu0 : 0 < u := lt_of_lt_of_le (mul_pos a1 ha) u1
    have hv0 : 0 < v := lt_of_lt_of_le (mul_pos b1 hb) v1
    cases o <;> simp only [counted] at h
    case plus =>
      have m1 : (1 - 1 / 2 ^ 53 : ℚ) ^ max a.2 b.2 ≤ (1 - 1 / 2 ^ 53) ^ a.2 := pow_le_pow_of_le_one f0.le f1 (le_max_left _ _)
      have m2 : (1 - 1 / 2 ^ 53 : ℚ) ^ max a.2 b.2 ≤ (1 - 1 / 2 ^ 53) ^ b.2 := pow_le_pow_of_le_one f0.le f1 (le_max_right _ _)
      obtain ⟨h1, h2⟩ := moderate_ok (t := u + v) h ⟨by
          rw [add_mul]
          exact add_le_add (le_trans (by gcongr) u1) (le_trans (by gcongr) v1), by
          rw [add_mul]
          exact add_le_add (le_trans (by gcongr) u2) (le_trans (by gcongr) v2)⟩
      exact ⟨_, by rw [plus_fin, h1], h2⟩
    case times =>
      obtain ⟨h1, h2⟩ := moderate_ok (t := u * v) h ⟨by
          rw [pow_add, mul_mul_mul_comm]
          exact mul_le_mul u1 v1 (by positivity) hu0.le, by
          rw [pow_add, mul_mul_mul_comm]
          exact mul_le_mul u2 v2 (by positivity) a1.le⟩
      exact ⟨_, by rw [times_fin, h1], h2⟩
    case divide =>
      obtain ⟨h1, h2⟩ := moderate_ok (t := u / v) h ⟨by
          rw [pow_add, le_div_iff₀ hv0, div_mul_eq_mul_div, div_mul_eq_mul_div, div_le_iff₀ b1]
          calc a.1 * ((1 - 1 / 2 ^ 53) ^ a.2 * (1 - 1 / 2 ^ 53) ^ b.2) * v
              = (a.1 * (1 - 1 / 2 ^ 53) ^ a.2) * (v * (1 - 1 / 2 ^ 53) ^ b.2) := by ring
            _ ≤ u * b.1 := mul_le_mul u1 v2 (by positivity) hu0.le, by
          rw [pow_add, div_mul_eq_mul_div, div_le_iff₀ hv0, div_mul_eq_mul_div, le_div_iff₀ b1]
          calc u * ((1 - 1 / 2 ^ 53) ^ a.2 * (1 - 1 / 2 ^ 53) ^ b.2) * b.1
              = (u * (1 - 1 / 2 ^ 53) ^ a.2) * (b.1 * (1 - 1 / 2 ^ 53) ^ b.2) := by ring
            _ ≤ a.1 * v := mul_le_mul u2 v1 (by positivity) a1.le⟩
      exact ⟨_, by rw [divide_fin hv0.ne', h1], h2⟩
    all_goals cases h

theorem near_err {v z : ℚ} {n : Nat} (hn : n ≤ 2 ^ 40) (hv : 0 < v) (h : Near v n z) : |z - v| ≤ v * (n / 2 ^ 52) := by
  obtain ⟨h1, h2⟩ := h
  obtain ⟨k1, k2⟩ := pow_half hn
  set x : ℚ := n / 2 ^ 53 with hx
  have hx0 : 0 ≤ x := by rw [hx]; positivity
  have e : (n : ℚ) / 2 ^ 52 = 2 * x := by rw [hx]; ring
  rw [e, abs_le]
  have hz : 0 ≤ z := le_trans (by positivity) h1
  have a1 : v * (1 - x) ≤ z := le_trans (by gcongr) h1
  have a2 : z * (1 - x) ≤ v := le_trans (by gcongr) h2
  constructor
  · nlinarith
  · have : z ≤ 2 * v := by nlinarith
    nlinarith

theorem allSome_fst {α β : Type} {f : α → ℚ} (g : β → Option α) (g' : β → Option ℚ) (m : List β) (l : List α)
    (hg : ∀ b ∈ m, ∀ a, g b = some a → g' b = some (f a)) (h : allSome (m.map g) = some l) :
    allSome (m.map g') = some (l.map f) := by
  induction m generalizing l with
  | nil => cases h; rfl
  | cons b m ih =>
    rw [List.map_cons] at h ⊢
    cases hb : g b with
    | none => rw [hb] at h; cases h
    | some a =>
      rw [hb] at h
      simp only [allSome, Option.map_eq_some_iff] at h
      obtain ⟨k, hk, rfl⟩ := h
      rw [hg b (by simp) a hb]
      simp only [allSome, ih k (fun b hb => hg b (by simp [hb])) hk, Option.map_some, List.map_cons]

/-- The exact values in the first components. -/
theorem overL_fst {α : Type} {N : Numbers α} {f : α → ℚ} (hnum : ∀ q a, N.num q = some a → f a = q)
    (hneg : ∀ a b, N.neg a = some b → f b = - f a) (hop : ∀ o a b c, N.op o a b = some c → opQ o (f a) (f b) = some (f c))
    {η : Nat → Option (List α)} {η' : Nat → Option (List ℚ)} (hη : ∀ x l, η x = some l → η' x = some (l.map f))
    (e : TForm) (l : List α) (h : overL N η e = some l) : overL rational η' e = some (l.map f) := by
  induction e generalizing l with
  | leaf t x =>
    cases t with
    | bool => simp [overL] at h
    | int => simp [overL] at h
    | double =>
      simp only [overL, Option.bind_eq_bind, Option.bind_eq_some_iff] at h ⊢
      obtain ⟨l', h1, h2⟩ := h
      split at h2
      · cases h2
      · rename_i h3
        cases h2
        exact ⟨_, hη x l h1, by rw [if_neg (by simpa using h3)]⟩
  | scal v =>
    rcases v with v | n | x
    · simp [overL] at h
    · simp [overL] at h
    · rcases x with _ | b | q
      · simp [overL] at h
      · simp [overL] at h
      · exact allSome_fst _ _ [q] _ (fun q _ a ha => by rw [hnum q a ha]; rfl) h
  | un o e ih =>
    cases o with
    | fn g => simp [overL] at h
    | neg =>
      simp only [overL, Option.bind_eq_bind, Option.bind_eq_some_iff] at h ⊢
      obtain ⟨l', h1, h2⟩ := h
      refine ⟨_, ih l' h1, ?_⟩
      rw [List.map_map]
      exact allSome_fst _ _ _ _ (fun a _ b hb => by simp [rational, hneg a b hb]) h2
  | bin o l1 r1 hl hr =>
    simp only [overL, Option.bind_eq_bind, Option.bind_eq_some_iff] at h ⊢
    obtain ⟨a, h1, b, h2, h3⟩ := h
    refine ⟨_, hl a h1, _, hr b h2, ?_⟩
    rw [List.length_map, List.length_map]
    refine allSome_fst _ _ _ _ (fun i _ c hc => ?_) h3
    simp only [Option.bind_eq_some_iff] at hc
    obtain ⟨u, hu, v, hv, hc⟩ := hc
    simp only [List.getElem?_map, hu, hv, Option.map_some, Option.bind_some]
    exact hop o u v c hc
  | sub e ind mp ih =>
    simp only [overL, Option.bind_eq_bind, Option.bind_eq_some_iff] at h ⊢
    obtain ⟨l', h1, h2⟩ := h
    refine ⟨_, ih l' h1, ?_⟩
    split at h2
    · rename_i h3
      rw [List.length_map, if_pos h3]
      exact allSome_fst _ _ _ _ (fun j _ a ha => by rw [List.getElem?_map, ha]; rfl) h2
    · cases h2

theorem over_fst {α : Type} {N : Numbers α} {f : α → ℚ} (hnum : ∀ q a, N.num q = some a → f a = q)
    (hneg : ∀ a b, N.neg a = some b → f b = - f a) (hop : ∀ o a b c, N.op o a b = some c → opQ o (f a) (f b) = some (f c))
    (ρ : Nat → List ℚ) (e : TForm) (l : List α) (h : over N ρ e = some l) : over rational ρ e = some (l.map f) :=
  overL_fst hnum hneg hop (fun _ _ hx => allSome_fst _ _ _ _ (fun q _ a ha => by rw [hnum q a ha]; rfl) hx) e l h

theorem settle_fst {v d : ℚ} {c : ℚ × ℚ} (h : settle v d = some c) : c.1 = v := by
  unfold settle at h
  split at h
  · cases h; rfl
  · cases h

theorem moderate_fst {v : ℚ} {n : Nat} {c : ℚ × Nat} (h : moderate v n = some c) : c.1 = v := by
  unfold moderate at h
  split at h
  · cases h; rfl
  · cases h

theorem withError_op {o : BinO} {a b c : ℚ × ℚ} (h : withError.op o a b = some c) : opQ o a.1 b.1 = some c.1 := by
  cases o <;> simp only [withError] at h
  case plus => rw [settle_fst h]; rfl
  case minus => rw [settle_fst h]; rfl
  case times => rw [settle_fst h]; rfl
  case divide =>
    split at h
    · rename_i hb
      rw [settle_fst h]
      simp only [opQ, if_neg hb.1]
    · cases h
  all_goals cases h

theorem over_withError {ρ : Nat → List ℚ} {e : TForm} {l : List (ℚ × ℚ)} (h : over withError ρ e = some l) :
    over rational ρ e = some (l.map (·.1)) :=
  over_fst (fun q a h => by cases h; rfl) (fun a b h => by cases h; rfl) (fun _ _ _ _ h => withError_op h) ρ e l h

theorem counted_op {o : BinO} {a b c : ℚ × Nat} (h : counted.op o a b = some c) : opQ o a.1 b.1 = some c.1 := by
  cases o <;> simp only [counted] at h
  case plus => rw [moderate_fst h]; rfl
  case times => rw [moderate_fst h]; rfl
  case divide =>
    have h0 : b.1 ≠ 0 := by
      intro h0
      rw [h0, div_zero] at h
      unfold moderate at h
      rw [if_neg] at h
      · cases h
      · intro h1
        have : (0 : ℚ) < 1 / 2 ^ 1000 := by positivity
        exact absurd h1.1 (not_le.2 this)
    rw [moderate_fst h]
    simp only [opQ, if_neg h0]
  all_goals cases h

theorem over_counted {ρ : Nat → List ℚ} {e : TForm} {l : List (ℚ × Nat)} (h : over counted ρ e = some l) :
    over rational ρ e = some (l.map (·.1)) :=
  over_fst (fun q a h => moderate_fst h) (fun a b h => by cases h) (fun _ _ _ _ h => counted_op h) ρ e l h

theorem representable_op {o : BinO} {a b c : ℚ} (h : representable.op o a b = some c) : opQ o a b = some c := by
  simp only [representable, Option.bind_eq_bind, Option.bind_eq_some_iff] at h
  obtain ⟨w, h1, h2⟩ := h
  split at h2
  · cases h2; exact h1
  · cases h2

theorem over_representable {ρ : Nat → List ℚ} {e : TForm} {l : List ℚ} (h : over representable ρ e = some l) :
    over rational ρ e = some l := by
  have := over_fst (f := id) (N := representable) (fun q a h => by cases h; rfl) (fun a b h => by cases h; rfl)
    (fun _ _ _ _ h => representable_op h) ρ e l h
  simpa using this

/-- C107 (partial: `+`, `-`, `*`, `/`, unary minus and subsets on vectors of doubles).  Let the exact values and error bounds of a formula
be `l`: bounds computed by the rule that each operation passes on the errors of its operands and adds half a unit in the last place.
The first components are the exact values, and every element that is stored is off by at most the bound. -/
theorem C107_error_partial (env : Env Scal) (ρ : Nat → List ℚ) (hρ : HoldsD env ρ) (e : TForm) (l : List (ℚ × ℚ))
    (h : over withError ρ e = some l) :
    over rational ρ e = some (l.map (·.1)) ∧ e.toExpr.size env = l.length ∧
    ∀ i (hi : i < l.length), ∃ z, e.elTo .double env i = .ok (.d (fin z)) ∧ |z - l[i].1| ≤ l[i].2 := by
  obtain ⟨h1, h2⟩ := describes_withError.elTo hρ e l h
  exact ⟨over_withError h, h1, h2⟩

/-- Vectors 0, 1 and 2: `0.5, 2, 3`, `0.25, 10` and `3`. -/
def roundLists (x : Nat) : List ℚ := ([[1 / 2, 2, 3], [1 / 4, 10], [3]] : List (List ℚ))[x]?.getD []

def roundEnv : Env Scal := listEnv [[.d (fin (1 / 2)), .d (fin 2), .d (fin 3)], [.d (fin (1 / 4)), .d (fin 10)], [.d (fin 3)]]

theorem roundEnv_holds : HoldsD roundEnv roundLists := by
  intro x hx
  match x with
  | 0 => exact ⟨rfl, fun i hi => match i, hi with | 0, _ => rfl | 1, _ => rfl | 2, _ => rfl⟩
  | 1 => exact ⟨rfl, fun i hi => match i, hi with | 0, _ => rfl | 1, _ => rfl⟩
  | 2 => exact ⟨rfl, fun i hi => match i, hi with | 0, _ => rfl⟩
  | x + 3 => exact absurd rfl hx

/-- `(x + y) / z`. -/
def roundForm : TForm := .bin .divide (.bin .plus (.leaf .double 0) (.leaf .double 1)) (.leaf .double 2)

/-- `0.75 / 3` is exact, `12 / 3` is exact and `3.25 / 3` is rounded; the bound is not zero, but small. -/
example : HoldsD roundEnv roundLists ∧ ∃ l, over withError roundLists roundForm = some l ∧ l.map (·.1) = [1 / 4, 4, 13 / 12] ∧
    ∀ a ∈ l, 0 < a.2 ∧ a.2 < a.1 / 2 ^ 51 := by
  refine ⟨roundEnv_holds, ((over withError roundLists roundForm).getD []), ?_, ?_, ?_⟩ <;> decide +kernel

/-- C107, relative (partial: `+`, `*`, `/` and subsets on vectors of positive doubles).  If no intermediate value is outside
`2^(-1000) … 2^1000` and an element goes through `n ≤ 2^40` roundings, its relative error is at most `n · 2^(-52)`: no cancellation,
whatever the data and the length of the formula. -/
theorem C107_relative_partial (env : Env Scal) (ρ : Nat → List ℚ) (hρ : HoldsD env ρ) (e : TForm) (l : List (ℚ × Nat))
    (h : over counted ρ e = some l) :
    over rational ρ e = some (l.map (·.1)) ∧ e.toExpr.size env = l.length ∧
    ∀ i (hi : i < l.length), ∃ z, e.elTo .double env i = .ok (.d (fin z)) ∧ |z - l[i].1| ≤ l[i].1 * (l[i].2 / 2 ^ 52) := by
  obtain ⟨h1, h2⟩ := describes_counted.elTo hρ e l h
  refine ⟨over_counted h, h1, fun i hi => ?_⟩
  obtain ⟨z, z1, z2, z3, z4⟩ := h2 i hi
  exact ⟨z, z1, near_err z3 z2 z4⟩

example : HoldsD roundEnv roundLists ∧ over counted roundLists roundForm = some [(1 / 4, 2), (4, 2), (13 / 12, 2)] :=
  ⟨roundEnv_holds, by decide +kernel⟩

/-- C107, exact (partial: `+`, `-`, `*`, `/`, unary minus and subsets on vectors of doubles).  If the exact result of every operation is
a binary64 number, for example a whole number of at most `2^53`, then the exact values are stored. -/
theorem C107_exact_partial (env : Env Scal) (ρ : Nat → List ℚ) (hρ : HoldsD env ρ) (e : TForm) (l : List ℚ)
    (h : over representable ρ e = some l) :
    over rational ρ e = some l ∧ e.toExpr.size env = l.length ∧
    ∀ i (hi : i < l.length), e.elTo .double env i = .ok (.d (fin l[i])) := by
  obtain ⟨h1, h2⟩ := describes_representable.elTo hρ e l h
  refine ⟨over_representable h, h1, fun i hi => ?_⟩
  obtain ⟨z, z1, rfl⟩ := h2 i hi
  exact z1

/-- Whole numbers up to `2^53` are binary64 numbers. -/
theorem C107_whole (n : Int) (h : |n| ≤ 2 ^ 53) : Binary64 n := (rnd_fin_iff _).1 (rnd_int h)

/-- `(x + y) * z`; the quotient `13 / 12` would not be exact. -/
example : HoldsD roundEnv roundLists ∧
    over representable roundLists (.bin .times (.bin .plus (.leaf .double 0) (.leaf .double 1)) (.leaf .double 2))
      = some [9 / 4, 36, 39 / 4] ∧ over representable roundLists roundForm = none :=
  ⟨roundEnv_holds, by decide +kernel, by decide +kernel⟩

/-- Three times `2^51 + 1`, and the largest whole number. -/
example : Binary64 (3 * (2 ^ 51 + 1)) ∧ Binary64 (2 ^ 53) ∧ ¬ Binary64 (2 ^ 53 + 1) := by decide +kernel

/-- C107: no bound that is relative to the exact result holds when numbers are subtracted: `(x + y) - x` for `x = 2^53`, `y = 1` is 0,
the exact value is 1. -/
theorem C107_relative_false : ∃ (env : Env Scal) (ρ : Nat → List ℚ) (e : TForm), HoldsD env ρ ∧ over rational ρ e = some [1] ∧
    e.elTo .double env 0 = .ok (.d (fin 0)) :=
  ⟨listEnv [[.d (fin (2 ^ 53))], [.d (fin 1)]], fun x => ([[2 ^ 53], [1]] : List (List ℚ))[x]?.getD [],
    .bin .minus (.bin .plus (.leaf .double 0) (.leaf .double 1)) (.leaf .double 0), by
      intro x hx
      match x with
      | 0 => exact ⟨rfl, fun i hi => match i, hi with | 0, _ => rfl⟩
      | 1 => exact ⟨rfl, fun i hi => match i, hi with | 0, _ => rfl⟩
      | x + 2 => exact absurd rfl hx, by decide +kernel, by decide +kernel⟩

/-- C107 (partial: right-hand sides of at most `2^30` elements) for an assignment `x = e` in a reachable state: what `x` shows afterwards
is off by at most the bound. -/
theorem C107_assignment_partial {zero : Scal} {s s' : Mach Scal} (r : Mach.Reach zero s) (x : Nat) (e : TForm) (hlt : x < s.n)
    (hlim : e.toExpr.size s.env ≤ 2 ^ 30) (ρ : Nat → List ℚ) (hρ : HoldsD s.env ρ) (l : List (ℚ × ℚ))
    (hl : over withError ρ e = some l)
    (h : Mach.exec zero (.assign (fun v => do let w ← (e.conv v).to e.retTy; w.to .double) x e.toExpr) s = (.ok (), s')) :
    over rational ρ e = some (l.map (·.1)) ∧ s'.env.size x = l.length ∧
    ∀ i (hi : i < l.length), ∃ z, s'.env.get x i = .ok (.d (fin z)) ∧ |z - l[i].1| ≤ l[i].2 := by
  obtain ⟨h1, h2, h3⟩ := C107_error_partial s.env ρ hρ e l hl
  obtain ⟨L, ⟨k1, k2⟩, ⟨k3, k4⟩, _⟩ := Mach.C11_snapshot_partial r _ x e.toExpr hlt hlim h
  have hlen : L.length = l.length := by rw [k1, h2]
  refine ⟨h1, by rw [k3, hlen], fun i hi => ?_⟩
  obtain ⟨z, z1, z2⟩ := h3 i hi
  refine ⟨z, ?_, z2⟩
  rw [k4 i (by omega), ← k2 i (by omega)]
  exact z1

/-- `x = c(0.5, 2, 3)`, `z = 3`, `r = 0`. -/
def roundHistory : List (Cmd Scal) :=
  [.declTemp [.d (fin (1 / 2)), .d (fin 2), .d (fin 3)] {}, .declTemp [.d (fin 3)] {}, .declTemp [.d (fin 0)] {}]

def roundQuot : TForm := .bin .divide (.leaf .double 1) (.leaf .double 3)

def roundAssign : Cmd Scal := .assign (fun v => do let w ← (roundQuot.conv v).to roundQuot.retTy; w.to .double) 5 roundQuot.toExpr

def roundState : Mach Scal := (Mach.runAll (.d (fin 0)) roundHistory Mach.start).2

def roundState' : Mach Scal := (Mach.exec (.d (fin 0)) roundAssign roundState).2

def roundLists' (x : Nat) : List ℚ := if x = 1 then [1 / 2, 2, 3] else if x = 3 then [3] else []

/-- `r = x / z` stores `1/6` and `2/3` with an error. -/
example : Mach.Reach (.d (fin 0)) roundState ∧ HoldsD roundState.env roundLists' ∧ roundQuot.toExpr.size roundState.env ≤ 2 ^ 30 ∧
    5 < roundState.n ∧ Mach.exec (.d (fin 0)) roundAssign roundState = (.ok (), roundState') ∧
    (over withError roundLists' roundQuot).map (·.map (·.1)) = some [1 / 6, 2 / 3, 1] ∧
    roundState'.env.get 5 0 ≠ .ok (.d (fin (1 / 6))) ∧ roundState'.env.get 5 2 = .ok (.d (fin 1)) := by
  refine ⟨⟨roundHistory, .cons (by show _ ≤ _; decide) <| .cons (by show _ ≤ _; decide) <| .cons (by show _ ≤ _; decide) trivial,
      Prod.ext (by decide +kernel) rfl⟩, ?_, by decide +kernel, by decide +kernel, Prod.ext (by decide +kernel) rfl,
    by decide +kernel, by decide +kernel, by decide +kernel⟩
  intro x hx
  by_cases h1 : x = 1
  · subst h1
    exact ⟨by decide +kernel, by decide +kernel⟩
  · by_cases h3 : x = 3
    · subst h3
      exact ⟨by decide +kernel, by decide +kernel⟩
    · simp [roundLists', h1, h3] at hx

end ETR
