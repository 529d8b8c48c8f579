import Mathlib.Data.List.Perm.Basic
import Verif.Props.Fibonacci

/-! # C79: the example `bubblesort.cpp` -/

namespace ETR
open Spec Mach Examples

/-! ## Lists of doubles -/

/-- Number of pairs in the wrong order. -/
def inversions : List F64 → Nat
  | [] => 0
  | a :: t => t.countP (fun b => F64.lt b a) + inversions t

theorem lt_asymm' {a b : F64} (h : F64.lt a b = true) : F64.lt b a = false := by
  rcases a with p | p | _ <;> rcases b with q | q | _ <;> simp_all [F64.lt]
  · exact le_of_lt h

theorem inversions_swap {a b : F64} (h : F64.lt b a = true) (pre post : List F64) :
    inversions (pre ++ a :: b :: post) = inversions (pre ++ b :: a :: post) + 1 := by
  induction pre with
  | nil =>
    have := lt_asymm' h
    simp only [List.nil_append, inversions, List.countP_cons, h, this, if_true]
    simp
    omega
  | cons x pre ih =>
    simp only [List.cons_append, inversions]
    rw [ih, List.Perm.countP_eq _ (show (pre ++ a :: b :: post).Perm (pre ++ b :: a :: post) from
      List.Perm.append_left pre (List.Perm.swap b a post))]
    omega

/-- Exchange of the elements `j` and `j + 1`. -/
def exchange (l : List F64) (j : Nat) (h : j + 1 < l.length) : List F64 := (l.set j l[j + 1]).set (j + 1) l[j]

theorem exchange_split {l : List F64} {j : Nat} (h : j + 1 < l.length) :
    ∃ pre post, l = pre ++ l[j] :: l[j + 1] :: post ∧ exchange l j h = pre ++ l[j + 1] :: l[j] :: post := by
  have hs : l = l.take j ++ l[j] :: l[j + 1] :: l.drop (j + 2) := by
    conv_lhs => rw [← List.take_append_drop j l]
    rw [List.drop_eq_getElem_cons (by omega), List.drop_eq_getElem_cons (by omega)]
  refine ⟨l.take j, l.drop (j + 2), hs, ?_⟩
  have hl : (l.take j).length = j := by simp; omega
  unfold exchange
  generalize l[j] = a at *
  generalize l[j + 1] = b at *
  generalize l.take j = pre at *
  generalize l.drop (j + 2) = post at *
  subst hs hl
  rw [List.set_append_right _ _ (le_refl _), List.set_append_right _ _ (by omega)]
  simp

/-- No element is greater than its successor. -/
def Ordered (l : List F64) : Prop := ∀ i (h : i + 1 < l.length), F64.lt l[i + 1] l[i] = false

theorem exchange_perm {l : List F64} {j : Nat} (h : j + 1 < l.length) : (exchange l j h).Perm l := by
  obtain ⟨pre, post, h1, h2⟩ := exchange_split h
  rw [h2]
  conv_rhs => rw [h1]
  exact List.Perm.append_left pre (List.Perm.swap _ _ _)

theorem exchange_inversions {l : List F64} {j : Nat} (h : j + 1 < l.length) (hlt : F64.lt l[j + 1] l[j] = true) :
    inversions (exchange l j h) < inversions l := by
  obtain ⟨pre, post, h1, h2⟩ := exchange_split h
  rw [h2]
  conv_rhs => rw [h1]
  rw [inversions_swap hlt]
  omega

/-! ## Naive semantics -/

/-- The variables of the program: the vector has the elements `l`, the flag `swapped` has the value `fl`. -/
structure BS (p : PState F64) (l : List F64) (fl : Bool) : Prop where
  arr : p.vars V1 = some ⟨l, .stolen⟩
  size : p.vars vSize = some ⟨[.fin ((l.length : Int) : ℚ)], .std⟩
  temp : ∃ t, p.vars vTemp = some ⟨[t], .std⟩
  swapped : p.vars vSwapped = some ⟨[.fin (if fl then 1 else 0)], .std⟩

theorem add_one {i : Int} (h0 : 0 ≤ i) (h : i ≤ 2 ^ 31) : F64.add (.fin i) (.fin 1) = .fin ((i + 1 : Int) : ℚ) := by
  show F64.rnd ((i : ℚ) + 1) = _
  have : ((i : ℚ) + 1) = ((i + 1 : Int) : ℚ) := by push_cast; ring
  rw [this, F64.rnd_int (by rw [abs_of_nonneg (by omega)]; omega)]

theorem sub_one {i : Int} (h0 : 1 ≤ i) (h : i ≤ 2 ^ 31) : F64.sub (.fin i) (.fin 1) = .fin ((i - 1 : Int) : ℚ) := by
  show F64.rnd ((i : ℚ) + -1) = _
  have : ((i : ℚ) + -1) = ((i - 1 : Int) : ℚ) := by push_cast; ring
  rw [this, F64.rnd_int (by rw [abs_of_nonneg (by omega)]; omega)]

/-- Comparison and exchange at position `j` (from 0). -/
theorem compareSwap_naive (fuel : Nat) {p : PState F64} {l : List F64} {fl : Bool} (b : BS p l fl) (hn : l.length < 2 ^ 31)
    {j : Nat} (hj : j + 1 < l.length) :
    ∃ p', Spec.exec (.fin 0) fuel (compareSwap (.fin ((1 + j : Int) : ℚ))) p = .done p' ∧
      if F64.lt l[j + 1] l[j] then BS p' (exchange l j hj) true else BS p' l fl := by
  unfold compareSwap
  simp only [Spec.exec]
  rw [index_dbl b.arr (by omega) (by omega) hn]
  simp only [withVal]
  rw [add_one (by omega) (by omega), index_dbl b.arr (by omega) (by omega) hn]
  simp only [Prog.ite, Spec.exec]
  rw [show ((1 + j : Int) - 1).toNat = j by omega, show ((1 + j : Int) + 1 - 1).toNat = j + 1 by omega]
  have hg : first p (.bin greater (.sub (.leaf V1) [j] {}) (.sub (.leaf V1) [j + 1] {})) =
      some (.fin (if F64.lt l[j + 1] l[j] then 1 else 0)) := by
    exact first_eval (eval_bin1 (eval_sub1 b.arr (by omega) {}) (eval_sub1 b.arr hj {}) rfl)
  rw [hg]
  by_cases hlt : F64.lt l[j + 1] l[j] = true
  · simp only [hlt, if_true, withVal]
    rw [if_pos (by decide +kernel)]
    obtain ⟨t, ht⟩ := b.temp
    simp only [Spec.exec]
    rw [step_assign1 ht (eval_sub1 b.arr (by omega) {})]
    simp only [withVal, Res.andThen]
    generalize hp1 : p.put vTemp _ = p1
    have a1 : p1.vars V1 = some ⟨l, .stolen⟩ := by subst hp1; rw [put_vars_ne _ (by decide)]; exact b.arr
    have t1 : p1.vars vTemp = some ⟨[l[j]], .std⟩ := by subst hp1; simp
    have z1 : p1.vars vSize = some ⟨[.fin ((l.length : Int) : ℚ)], .std⟩ := by subst hp1; rw [put_vars_ne _ (by decide)]; exact b.size
    have s1 : p1.vars vSwapped = some ⟨[.fin (if fl then 1 else 0)], .std⟩ := by subst hp1; rw [put_vars_ne _ (by decide)]; exact b.swapped
    rw [step_sub1 a1 (by omega) (eval_sub1 a1 hj {})]
    simp only
    generalize hp2 : ({ p1.put V1 _ with next := p1.next + 1 } : PState F64) = p2
    have a2 : p2.vars V1 = some ⟨l.set j l[j + 1], .stolen⟩ := by subst hp2; simp [PState.put]
    have t2 : p2.vars vTemp = some ⟨[l[j]], .std⟩ := by
      subst hp2; simpa [PState.put] using t1
    have z2 : p2.vars vSize = some ⟨[.fin ((l.length : Int) : ℚ)], .std⟩ := by
      subst hp2; simpa [PState.put] using z1
    have s2 : p2.vars vSwapped = some ⟨[.fin (if fl then 1 else 0)], .std⟩ := by
      subst hp2; simpa [PState.put] using s1
    rw [step_sub1 a2 (by simpa using hj) (eval_leaf t2 (by simp))]
    simp only
    generalize hp3 : ({ p2.put V1 _ with next := p2.next + 1 } : PState F64) = p3
    have a3 : p3.vars V1 = some ⟨exchange l j hj, .stolen⟩ := by subst hp3; simp [PState.put, exchange]
    have t3 : p3.vars vTemp = some ⟨[l[j]], .std⟩ := by
      subst hp3; simpa [PState.put] using t2
    have z3 : p3.vars vSize = some ⟨[.fin ((l.length : Int) : ℚ)], .std⟩ := by
      subst hp3; simpa [PState.put] using z2
    have s3 : p3.vars vSwapped = some ⟨[.fin (if fl then 1 else 0)], .std⟩ := by
      subst hp3; simpa [PState.put] using s2
    rw [step_assignScalar s3]
    refine ⟨_, rfl, ?_⟩
    constructor
    · rw [put_vars_ne _ (by decide)]; exact a3
    · rw [put_vars_ne _ (by decide), z3]; simp [exchange]
    · exact ⟨_, by rw [put_vars_ne _ (by decide)]; exact t3⟩
    · simp [Kind.resized]
  · simp only [hlt, if_false, Bool.false_eq_true, withVal]
    rw [if_neg (by decide +kernel)]
    exact ⟨p, rfl, b⟩

/-- The rounds of a pass from position `j` on. -/
theorem rounds_naive (fuel : Nat) {n : Nat} (hn : n < 2 ^ 31) (l0 : List F64) (hl0 : l0.length = n) : ∀ (m j : Nat), j + m + 1 = n →
    ∀ (p : PState F64) (l : List F64) (fl : Bool), BS p l fl → l.Perm l0 →
    (fl = true → inversions l < inversions l0) →
    (fl = false → l = l0 ∧ ∀ i, i < j → ∀ h : i + 1 < l.length, F64.lt l[i + 1] l[i] = false) →
    ∃ p' l' fl', Spec.each (fun i => Spec.exec (.fin 0) fuel (compareSwap i))
        ((List.range m).map (fun (i : Nat) => F64.fin (((1 + (j + i) : Int)) : ℚ))) p = .done p' ∧ BS p' l' fl' ∧ l'.Perm l0 ∧
      (fl' = true → inversions l' < inversions l0) ∧ (fl' = false → Ordered l') := by
  intro m
  induction m with
  | zero =>
    intro j hj p l fl b hp h1 h2
    refine ⟨p, l, fl, rfl, b, hp, h1, fun hf => ?_⟩
    intro i hi
    have hl : l.length = n := by rw [hp.length_eq, hl0]
    exact (h2 hf).2 i (by omega) hi
  | succ m ih =>
    intro j hj p l fl b hp h1 h2
    have hl : l.length = n := by rw [hp.length_eq, hl0]
    rw [List.range_succ_eq_map, List.map_cons, List.map_map]
    simp only [Spec.each, Nat.cast_zero, add_zero]
    obtain ⟨p1, e1, b1⟩ := compareSwap_naive fuel b (by omega) (j := j) (by omega)
    rw [e1]
    simp only [Res.andThen]
    have hmap : (List.range m).map ((fun (i : Nat) => F64.fin (((1 + (j + i) : Int)) : ℚ)) ∘ Nat.succ) =
        (List.range m).map (fun (i : Nat) => F64.fin (((1 + ((j + 1 : Nat) + i) : Int)) : ℚ)) := by
      apply List.map_congr_left
      intro i _
      simp only [Function.comp]
      congr 1
      push_cast
      ring
    rw [hmap]
    by_cases hlt : F64.lt l[j + 1] l[j] = true
    · rw [if_pos hlt] at b1
      have hlt' := exchange_inversions (show j + 1 < l.length by omega) hlt
      refine ih (j + 1) (by omega) p1 _ true b1 ((exchange_perm _).trans hp) (fun _ => ?_) (by simp)
      cases fl with
      | true => exact lt_trans hlt' (h1 rfl)
      | false => exact lt_of_lt_of_eq hlt' (congrArg inversions (h2 rfl).1)
    · rw [if_neg hlt] at b1
      refine ih (j + 1) (by omega) p1 l fl b1 hp h1 (fun hf => ⟨(h2 hf).1, fun i hi h => ?_⟩)
      rcases Nat.lt_succ_iff_lt_or_eq.mp hi with hi | rfl
      · exact (h2 hf).2 i hi h
      · simpa using hlt

/-- One pass. -/
theorem pass_naive (fuel : Nat) {p : PState F64} {l : List F64} {fl : Bool} (b : BS p l fl) (h2 : 2 ≤ l.length)
    (hn : l.length ≤ 2 ^ 29) :
    ∃ p' l' fl', Spec.exec (.fin 0) fuel pass p = .done p' ∧ BS p' l' fl' ∧ l'.Perm l ∧
      (fl' = true → inversions l' < inversions l) ∧ (fl' = false → Ordered l') := by
  unfold pass
  simp only [Spec.exec]
  rw [step_assignScalar b.swapped]
  simp only [withVal, Res.andThen]
  generalize hp1 : p.put vSwapped _ = p1
  have b1 : BS p1 l false := by
    subst hp1
    constructor
    · rw [put_vars_ne _ (by decide)]; exact b.arr
    · rw [put_vars_ne _ (by decide)]; exact b.size
    · obtain ⟨t, ht⟩ := b.temp
      exact ⟨t, by rw [put_vars_ne _ (by decide)]; exact ht⟩
    · simp [Kind.resized]
  have hf : first p1 (.bin minus (.leaf vSize) (.scal (.fin 1))) = some (.fin (((l.length : Int) - 1 : Int) : ℚ)) := by
    rw [first_eval (eval_bin1 (eval_leaf b1.size (by simp)) (show eval p1.lists (.scal (.fin 1)) = some [.fin 1] from rfl) rfl)]
    rw [sub_one (by omega) (by omega)]
  rw [hf]
  simp only
  have hd : dblSeq (.fin 1) (.fin (((l.length : Int) - 1 : Int) : ℚ)) =
      some ((List.range (l.length - 1)).map (fun (i : Nat) => F64.fin (((1 + ((0 : Nat) + i) : Int)) : ℚ))) := by
    simp only [dblSeq]
    have hc : (((l.length : Int) - 1 : Int) : ℚ) ≤ 2 ^ 29 := by
      have : ((l.length : Int) - 1 : Int) ≤ 2 ^ 29 := by omega
      exact_mod_cast this
    have hc' : -2 ^ 29 ≤ (((l.length : Int) - 1 : Int) : ℚ) := by
      have : -2 ^ 29 ≤ ((l.length : Int) - 1 : Int) := by omega
      exact_mod_cast this
    rw [if_pos ⟨rfl, Rat.den_intCast _, by norm_num, by norm_num, hc', hc⟩]
    unfold intSeq
    rw [Rat.num_intCast, show (1 : ℚ).num = 1 from rfl, if_pos (by omega), List.map_map]
    rw [show ((l.length : Int) - 1 - 1 + 1).toNat = l.length - 1 by omega]
    simp [Function.comp_def]
  rw [hd]
  simp only
  exact rounds_naive fuel (n := l.length) (by omega) l rfl (l.length - 1) 0 (by omega) p1 l false b1 (List.Perm.refl l) (by simp)
    (fun _ => ⟨rfl, by omega⟩)

/-- The outer loop. -/
theorem loop_naive (fuel : Nat) : ∀ (k : Nat) (p : PState F64) (l : List F64) (fl : Bool), BS p l fl → 2 ≤ l.length →
    l.length ≤ 2 ^ 29 → (fl = true → inversions l + 2 ≤ k) → (fl = false → Ordered l ∧ 1 ≤ k) →
    ∃ p' l', Spec.rounds (fun p => (first p (.leaf vSwapped)).map F64.toBool) (fun p => readRejects p (.leaf vSwapped))
      (Spec.exec (.fin 0) fuel pass) k p = .done p' ∧
      BS p' l' false ∧ l'.Perm l ∧ Ordered l' := by
  intro k
  induction k with
  | zero =>
    intro p l fl b h2 hn h3 h4
    cases fl with
    | true => have := h3 rfl; omega
    | false => have := (h4 rfl).2; omega
  | succ k ih =>
    intro p l fl b h2 hn h3 h4
    have hf : (first p (.leaf vSwapped)).map F64.toBool = some fl := by
      rw [first_eval (eval_leaf b.swapped (by simp))]
      cases fl <;> simp <;> decide +kernel
    simp only [Spec.rounds]
    rw [hf]
    simp only [withVal]
    cases fl with
    | false => exact ⟨p, l, rfl, b, List.Perm.refl l, (h4 rfl).1⟩
    | true =>
      obtain ⟨p1, l1, fl1, e1, b1, pm, i1, o1⟩ := pass_naive fuel b h2 hn
      simp only [if_true]
      rw [e1]
      simp only [Res.andThen]
      have hk := h3 rfl
      have hl := pm.length_eq
      obtain ⟨p2, l2, e2, b2, pm2, o2⟩ := ih p1 l1 fl1 b1 (by omega) (by omega) (fun hf => by have := i1 hf; omega)
        (fun hf => ⟨o1 hf, by omega⟩)
      exact ⟨p2, l2, e2, b2, pm2.trans pm, o2⟩

theorem bubblesort_naive {fuel : Nat} {l : List F64} (h2 : 2 ≤ l.length) (hn : l.length ≤ 2 ^ 29) (hf : inversions l + 1 ≤ fuel) (t : F64) :
    ∃ p l', Spec.exec (.fin 0) fuel (bubblesort (.declScalar t) l) PState.empty = .done p ∧
      p.vars V1 = some ⟨l', .stolen⟩ ∧ l'.Perm l ∧ Ordered l' := by
  unfold bubblesort Prog.doWhile
  simp only [Spec.exec]
  have h0 : step (.fin 0) PState.empty (.declTemp l {}) = some (PState.empty.new 1 ⟨l, .stolen⟩) := by
    simp only [step, stepOwn, lim]
    rw [if_pos ⟨by rintro rfl; simp at h2, by omega⟩]
    rfl
  rw [h0]
  simp only [withVal, Res.andThen, step, stepOwn]
  generalize hp : (PState.new (PState.new (PState.new (PState.new _ _ _) _ _) _ _) _ _ : PState F64) = p
  have v1 : p.vars V1 = some ⟨l, .stolen⟩ := by subst hp; rfl
  have v2 : p.vars vSize = some ⟨[], .bare⟩ := by subst hp; rfl
  have v3 : p.vars vTemp = some ⟨[t], .std⟩ := by subst hp; rfl
  have v4 : p.vars vSwapped = some ⟨[], .bare⟩ := by subst hp; rfl
  have hl : Spec.len p (.leaf V1) = some (l.length : Int) := by
    unfold Spec.len
    rw [cells_eval _ (eval_leaf v1 (by rintro rfl; simp at h2))]
    simp only [Option.bind_eq_bind, Option.bind_some, List.length_map]
    rw [if_pos (by omega)]
  rw [hl]
  simp only [v2, Option.bind_eq_bind, Option.bind_some, Option.pure_def]
  rw [F64.ofInt_eq (by rw [abs_of_nonneg (by omega)]; omega)]
  rw [put_vars_ne _ (by decide), v4]
  simp only [Option.bind_some]
  generalize hp1 : (PState.put (PState.put p _ _) _ _ : PState F64) = p1
  have b1 : BS p1 l true := by
    subst hp1
    constructor
    · rw [put_vars_ne _ (by decide), put_vars_ne _ (by decide)]; exact v1
    · rw [put_vars_ne _ (by decide), put_vars_same]; simp [Kind.resized]
    · exact ⟨t, by rw [put_vars_ne _ (by decide), put_vars_ne _ (by decide)]; exact v3⟩
    · simp [Kind.resized]
  obtain ⟨p2, l2, fl2, e2, b2, pm, i2, o2⟩ := pass_naive fuel b1 h2 hn
  rw [e2]
  simp only
  have hlen := pm.length_eq
  obtain ⟨p3, l3, e3, b3, pm3, o3⟩ := loop_naive fuel fuel p2 l2 fl2 b2 (by omega) (by omega) (fun hf => by have := i2 hf; omega)
    (fun hf => ⟨o2 hf, by omega⟩)
  exact ⟨p3, l3, e3, b3.arr, pm3.trans pm, o3⟩

/-! ## The library -/

theorem bubblesort_wellFormed (t : F64) (l : List F64) : WellFormed (bubblesort (.declScalar t) l) := by
  have hp : WellFormed pass := by
    refine ⟨trivial, fun _ i r r' v => ?_⟩
    dsimp only
    split
    · exact ⟨trivial, trivial, trivial, trivial⟩
    · trivial
  exact ⟨trivial, trivial, trivial, trivial, fun _ => trivial, trivial, hp, hp⟩

/-- No NaN. -/
def Comparable (l : List F64) : Prop := ∀ x ∈ l, x ≠ .nan

theorem le_of_not_lt {a b : F64} (ha : a ≠ .nan) (hb : b ≠ .nan) (h : F64.lt b a = false) : F64.le a b = true := by
  cases a <;> cases b <;> simp_all [F64.lt, F64.le]
  rename_i p q
  cases p <;> cases q <;> simp_all

theorem le_trans' {a b c : F64} (h1 : F64.le a b = true) (h2 : F64.le b c = true) : F64.le a c = true := by
  cases a <;> cases b <;> cases c <;> simp_all [F64.le]
  all_goals rename_i p q r
  · rcases h2 with h2 | h2 <;> simp_all
  all_goals linarith

/-- Ordered neighbours make a sorted list. -/
theorem Ordered.sorted : ∀ {l : List F64}, Ordered l → Comparable l → l.Pairwise (fun a b => F64.le a b = true) := by
  intro l
  induction l with
  | nil => intro _ _; exact List.Pairwise.nil
  | cons a t ih =>
    intro o c
    have pt := ih (fun i h => o (i + 1) (by simpa using h)) (fun x hx => c x (by simp [hx]))
    refine List.pairwise_cons.mpr ⟨fun b hb => ?_, pt⟩
    cases t with
    | nil => simp at hb
    | cons d u =>
      have had : F64.le a d = true := le_of_not_lt (c a (by simp)) (c d (by simp)) (o 0 (by simp))
      rcases List.mem_cons.mp hb with rfl | hb
      · exact had
      · exact le_trans' had ((List.pairwise_cons.mp pt).1 b hb)

/-- C79: with an initialised variable `temp` the program terminates for every vector with 2 to 2^29 elements, after at most as many
further passes as there are pairs in the wrong order; then the vector has the same elements, and no element is greater than its
successor. -/
theorem C79_partial {fuel : Nat} {l : List F64} (h2 : 2 ≤ l.length) (hn : l.length ≤ 2 ^ 29) (hf : inversions l + 1 ≤ fuel) (t : F64)
    (ws : List String) :
    ∃ ws' s l', (bubblesort (.declScalar t) l).run (.fin 0) fuel (ws, start) = some (.ok (), (ws', s)) ∧ ShowsVar s V1 l' ∧
      l'.Perm l ∧ (Comparable l → l'.Pairwise (fun a b => F64.le a b = true)) := by
  obtain ⟨p, l', e, hv, pm, o⟩ := bubblesort_naive h2 hn hf t
  have h := run_empty (V := F64) (.fin 0) fuel (bubblesort (.declScalar t) l) (bubblesort_wellFormed t l) (p := p)
  specialize h e ws
  obtain ⟨ws', s, e', hs⟩ := h
  have hv' : ShowsVar s V1 l' := hs V1 l' (lists_of_vars hv)
  have hs' : Comparable l → l'.Pairwise (fun a b => F64.le a b = true) := fun hc => o.sorted (fun x hx => hc x (pm.mem_iff.mp hx))
  exact ⟨ws', s, l', e', hv', pm, hs'⟩

/-- The example vector. -/
def exampleArr : List F64 := [.fin 3, .fin 2, .fin 8, .fin 1, .fin 0]

example : ∃ ws' s l', (bubblesort (.declScalar (.fin 0)) exampleArr).run (.fin 0) 10 ([], start) = some (.ok (), (ws', s)) ∧
    ShowsVar s V1 l' ∧ l'.Perm exampleArr ∧ l'.Pairwise (fun a b => F64.le a b = true) := by
  obtain ⟨ws', s, l', h1, h2, h3, h4⟩ := C79_partial (fuel := 10) (l := exampleArr) (by decide) (by decide)
    (by decide +kernel) (.fin 0) []
  exact ⟨ws', s, l', h1, h2, h3, h4 (by unfold Comparable; decide +kernel)⟩

/-- C79 is false for the program as written in the example: the variable `temp` is declared without a value, so that its second
assignment throws; two elements have been exchanged, the rest is as before. -/
theorem C79_false : ((bubblesort .declDefault exampleArr).run (.fin 0) 100 ([], start)).map Prod.fst =
      some (.thr "try to delete nullptr") ∧
    (List.range 5).map (fun i => ((bubblesort .declDefault exampleArr).run (.fin 0) 100 ([], start)).map
      (fun r => r.2.2.env.get V1 i)) = [.fin 2, .fin 3, .fin 8, .fin 1, .fin 0].map (fun v => some (.ok v)) := by
  decide +kernel

/-- C79 is false for a vector with one element: `colon(1, 0)` counts down, and the program leaves the vector. -/
theorem C79_single_false : ((bubblesort (.declScalar (.fin 0)) [.fin 3]).run (.fin 0) 100 ([], start)).map Prod.fst =
    some (.thr "Error: out of boundaries --> value beyond size of vector") := by
  decide +kernel

/-- With NaN the elements are kept, but not sorted. -/
theorem C79_nan_false : (List.range 3).map (fun i => ((bubblesort (.declScalar (.fin 0)) [.fin 2, .nan, .fin 1]).run (.fin 0) 100
    ([], start)).map (fun r => r.2.2.env.get V1 i)) = [.fin 2, .nan, .fin 1].map (fun v => some (.ok v)) := by
  decide +kernel

end ETR
