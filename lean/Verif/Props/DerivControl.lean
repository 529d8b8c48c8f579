import Verif.Lemmas.DerivControl
import Verif.Props.DerivInit
import Mathlib.Analysis.Calculus.Deriv.Pow

/-! # Derivatives of programs with branches and loops (C112) -/

namespace ETR.Deriv
open Spec Filter Topology

/-- C112 for programs whose statements fit and whose tests do not compare equal numbers.  After `initBuffer` and `initBorrowSEXP` with
any vectors, a program with `if`, `for` and `while` runs without exception; for all small changes of the independent variable the
same statements are executed, with values `G` that are those stored without a change; `get_derivs` of any variable that is not empty returns
the derivatives of the values with respect to the independent variable.

Missing: runs in which a test compares equal numbers (the function has a kink there), and what is missing for a program without
branches (`C95_sexp_partial`), such as a given variable that is assigned by the first statement that reads it (`C112_false`). -/
theorem C112_partial (k : DVar) (kind : VKind) (lb ls : List (List ℝ)) (hb : ∀ l ∈ lb, 1 ≤ l.length ∧ l.length ≤ 2 ^ 59)
    (hs : ∀ l ∈ ls, 1 ≤ l.length ∧ l.length ≤ 2 ^ 59) (hone : ∀ y, handed lb ls y ≠ [] → y.2 = k.2 → y = k)
    (p : DProg ℝ) (fuel : Nat) (a : List Happens) (ha : happens k 0 fuel p (Vals.given k 0 (handed lb ls)) = some a)
    (hf : FitsRun k a (Vals.given k 0 (handed lb ls))) (hm : ∀ q ∈ stmtsOf a, StmtMixed q)
    (hn : FirstUses (fun y => handed lb ls y ≠ []) (stmtsOf a)) :
    ∃ s0 s, initBoth lb ls (AV.start k.2 kind) = (.ok (), s0) ∧ p.run DArith.real fuel s0 = some (.ok (), s) ∧
      ∃ G : ℝ → Vals ℝ, (∀ᶠ t in 𝓝 (0 : ℝ), dprog k t fuel p (Vals.given k t (handed lb ls)) = some (G t)) ∧
      (∀ t, G t = after k t a (Vals.given k t (handed lb ls))) ∧
      ∀ x : DVar, ∃ d : List ℝ, (s.val x).Is ((G 0).var x) ∧ d.length = ((G 0).var x).length ∧
      (∀ i, HasDerivAt (fun t => ((G t).var x).getD i 0) (d.getD i 0) 0) ∧
      ((G 0).var x ≠ [] → ∃ s', AV.getDerivs DArith.real x s = (.ok d, s')) := by
  obtain ⟨s0, D0, e0, h0⟩ := initBoth_inv k kind lb ls hb hs hone
  obtain ⟨s, D, e, hi, hv⟩ := Follows.run fuel p s0 _ D0 _ a h0 ha ⟨hf, hm, hn⟩
  refine ⟨s0, s, e0, e, fun t => after k t a (Vals.given k t (handed lb ls)), ?_, fun _ => rfl,
    fun x => ⟨D x, hi.val x, hi.derL x, hi.derD x, fun hx => ⟨_, hi.getDerivs hx⟩⟩⟩
  filter_upwards [hv] with t ht
  unfold dprog
  rw [ht]; rfl

/-! ## Powers by a loop -/

/-- `b = b * a` -/
def timesA : AV.Stmt ℝ := .assign (B 1) (.bin .mul (.var (B 1)) (.var (B 0)))

/-- `b = 1; for (int i = 0; i < n; i++) b = b * a`, where the constant has `m` elements. -/
def powerProg (m n : Nat) : DProg ℝ :=
  .seq (.stmt (.setCon 0 (List.replicate m 1))) (.seq (.stmt (.assign (B 1) (.con 0))) (.rounds n (fun _ => .stmt timesA)))

theorem roundsOf_stmt (k : DVar) (t : ℝ) (q : AV.Stmt ℝ) (n : Nat) : ∀ i E,
    roundsOf k t (fun _ _ => some [.stmt q]) n i E = some (List.replicate n (.stmt q)) := by
  induction n with
  | zero => intro i E; rfl
  | succ n ih =>
    intro i E
    rw [roundsOf]
    simp only [Option.bind_eq_bind, Option.bind_some, ih]
    rfl

theorem happens_power (k : DVar) (t : ℝ) (fuel m n : Nat) (E : Vals ℝ) : happens k t fuel (powerProg m n) E =
    some (.stmt (.setCon 0 (List.replicate m 1)) :: .stmt (.assign (B 1) (.con 0)) :: List.replicate n (.stmt timesA)) := by
  have e1 : ∀ E, happens k t fuel (.rounds n (fun _ => .stmt timesA)) E = some (List.replicate n (.stmt timesA)) :=
    fun E => roundsOf_stmt k t timesA n 0 E
  unfold powerProg
  simp only [happens, Option.bind_eq_bind, Option.bind_some]
  have e2 := fun E => e1 E
  simp only [happens] at e2
  rw [e2]
  rfl

theorem stmtsOf_replicate (q : AV.Stmt ℝ) (n : Nat) : stmtsOf (List.replicate n (.stmt q)) = List.replicate n q := by
  induction n with
  | zero => rfl
  | succ n ih => rw [List.replicate_succ, stmtsOf, ih]; rfl

/-- The values after `n` rounds. -/
theorem devals_times (t : ℝ) (n : Nat) : ∀ (E : Vals ℝ) (l : List ℝ) (w : Nat → ℝ), E.var (B 0) = l → l ≠ [] →
    E.var (B 1) = (List.range l.length).map w → ∀ i, i < l.length →
    ((devals (B 0) t (List.replicate n timesA) E).var (B 1)).getD i 0 = w i * (l.getD i 0) ^ n := by
  induction n with
  | zero =>
    intro E l w h0 hne h1 i hi
    show (E.var (B 1)).getD i 0 = _
    rw [h1, getD_lt _ _ (by simpa using hi)]
    simp
  | succ n ih =>
    intro E l w h0 hne h1 i hi
    have hl : 0 < l.length := List.length_pos_iff.2 hne
    have hlen : E.len (.bin .mul (.var (B 1)) (.var (B 0))) = l.length := by simp [Vals.len, h0, h1]
    have e := ih (deval (B 0) t timesA E) l (fun j => w j * l.getD j 0)
      (by simp [deval, timesA, B, h0])
      hne
      (by
        simp only [deval, timesA, if_true, hlen]
        apply List.map_congr_left
        intro j hj
        have hj' : j < l.length := List.mem_range.1 hj
        simp only [Vals.elem, pick, h0, h1, List.length_map, List.length_range]
        by_cases h11 : l.length = 1
        · have : j = 0 := by omega
          subst this
          rw [if_pos h11, if_pos h11, getD_lt _ _ (by simpa using hl)]
          simp
        · rw [if_neg h11, if_neg h11, getD_lt _ _ (by simpa using hj')]
          simp) i hi
    rw [List.replicate_succ]
    show ((devals (B 0) t (List.replicate n timesA) (deval (B 0) t timesA E)).var (B 1)).getD i 0 = _
    rw [e, pow_succ]
    ring

theorem fits_times (n : Nat) : ∀ (E : Vals ℝ), 1 ≤ (E.var (B 0)).length → (E.var (B 0)).length ≤ 2 ^ 59 →
    (E.var (B 1)).length = (E.var (B 0)).length → FitsRun (B 0) (List.replicate n (.stmt timesA)) E := by
  induction n with
  | zero => intro E _ _ _; trivial
  | succ n ih =>
    intro E h0 h1 h2
    have hlen : E.len (.bin .mul (.var (B 1)) (.var (B 0))) = (E.var (B 0)).length := by simp [Vals.len, h2]
    rw [List.replicate_succ]
    refine ⟨⟨⟨trivial, trivial⟩, ?_, ⟨trivial, trivial⟩, ?_, by rw [hlen]; exact h1, by simp, Or.inl rfl, ?_, ?_⟩, ?_⟩
    · exact ⟨trivial, trivial, by simp, by simp⟩
    · intro v hv
      rw [hlen]
      simp only [leaves, List.singleton_append, List.mem_cons, List.not_mem_nil, or_false] at hv
      rcases hv with rfl | rfl
      · exact ⟨by show (E.var (B 1)).length ≠ 0; omega, Or.inl h2⟩
      · exact ⟨by show (E.var (B 0)).length ≠ 0; omega, Or.inl rfl⟩
    · rintro ⟨c, hc⟩; cases hc
    · intro _; rw [hlen]; exact h2
    · have e0 : (deval (B 0) 0 timesA E).var (B 0) = E.var (B 0) := by simp [deval, timesA, B]
      have e1 : ((deval (B 0) 0 timesA E).var (B 1)).length = (E.var (B 0)).length := by
        simp [deval, timesA, hlen]
      exact ih _ (by rw [e0]; exact h0) (by rw [e0]; exact h1) (by rw [e0, e1])

theorem firstUses_times (n : Nat) : ∀ P : DVar → Prop, ¬ P (B 1) → FirstUses P (List.replicate n timesA) := by
  induction n with
  | zero => intro P _; trivial
  | succ n ih =>
    intro P hP
    rw [List.replicate_succ]
    exact ⟨fun h => absurd h hP, ih _ (fun h => hP h.1)⟩

theorem mem_stmts_times {n : Nat} {q : AV.Stmt ℝ} (h : q ∈ List.replicate n timesA) : StmtMixed q := by
  rw [List.eq_of_mem_replicate h]
  exact ⟨trivial, trivial, by simp⟩

/-- For every vector `a` and every number of rounds `n`, the loop computes the powers `a ^ n` with the derivatives `n * a ^ (n - 1)`. -/
theorem C112_power (l : List ℝ) (h1 : 1 ≤ l.length) (h2 : l.length ≤ 2 ^ 59) (n fuel : Nat) (kind : VKind) :
    ∃ s0 s s' d, initBoth [l] [] (AV.start 0 kind) = (.ok (), s0) ∧ (powerProg l.length n).run DArith.real fuel s0 = some (.ok (), s) ∧
      (s.val (B 1)).Is (l.map (· ^ n)) ∧ AV.getDerivs DArith.real (B 1) s = (.ok d, s') ∧
      d = l.map (fun x => (n : ℝ) * x ^ (n - 1)) := by
  have hne : l ≠ [] := List.length_pos_iff.1 h1
  have hone : ∀ y, handed [l] [] y ≠ [] → y.2 = (B 0).2 → y = B 0 := by
    rintro ⟨c, i⟩ hy hi
    cases c
    · exact Prod.ext rfl hi
    · exact absurd rfl hy
    · exact absurd (by simp [handed]) hy
  set a : List Happens := .stmt (.setCon 0 (List.replicate l.length 1)) :: .stmt (.assign (B 1) (.con 0)) ::
    List.replicate n (.stmt timesA) with ha
  have hst : stmtsOf a = .setCon 0 (List.replicate l.length 1) :: .assign (B 1) (.con 0) :: List.replicate n timesA := by
    rw [ha, stmtsOf, stmtsOf, stmtsOf_replicate]
  -- the values before the loop
  set E : ℝ → Vals ℝ := fun t => deval (B 0) t (.assign (B 1) (.con 0)) (deval (B 0) t (.setCon 0 (List.replicate l.length 1))
    (Vals.given (B 0) t (handed [l] []))) with hE
  have v0 : ∀ t, (E t).var (B 0) = l.map (· + t) := by
    intro t
    simp [hE, deval, Vals.given, handed, B]
  have v1 : ∀ t, (E t).var (B 1) = (List.range (l.map (· + t)).length).map (fun _ => 1) := by
    intro t
    simp [hE, deval, B]
  have vals : ∀ t i, i < l.length → ((after (B 0) t a (Vals.given (B 0) t (handed [l] []))).var (B 1)).getD i 0
      = (l.getD i 0 + t) ^ n := by
    intro t i hi
    have := devals_times t n (E t) (l.map (· + t)) (fun _ => 1) (v0 t) (by simpa using hne) (v1 t) i (by simpa using hi)
    unfold after
    rw [hst]
    show ((devals (B 0) t (List.replicate n timesA) (E t)).var (B 1)).getD i 0 = _
    rw [this, one_mul, getD_lt _ _ (by simpa using hi), getD_lt _ _ hi, List.getElem_map]
  obtain ⟨s0, s, e0, e, G, _, hGt, h⟩ := C112_partial (B 0) kind [l] [] (by
      intro l' hl'
      rw [List.mem_singleton.1 hl']
      exact ⟨h1, h2⟩) (by simp) hone (powerProg l.length n) fuel a
    (happens_power _ _ _ _ _ _)
    (by
      refine ⟨⟨by simpa using h1, by simpa using h2⟩, ⟨trivial, trivial, trivial, ?_, ?_, by simp, Or.inl rfl, ?_, ?_⟩, ?_⟩
      · intro v hv
        simp only [leaves, List.mem_cons, List.not_mem_nil, or_false] at hv
        subst hv
        simp [Vals.leaf, Vals.len, deval, hne]
      · simpa [Vals.len, deval] using h2
      · intro _ h; simp at h
      · intro ho; simp [Occurs, leaves] at ho
      · exact fits_times n _ (by show 1 ≤ ((E 0).var (B 0)).length; rw [v0]; simpa using h1) (by show ((E 0).var (B 0)).length ≤ 2 ^ 59; rw [v0]; simpa using h2)
          (by show ((E 0).var (B 1)).length = ((E 0).var (B 0)).length; rw [v0, v1]; simp))
    (by
      intro q hq
      rw [hst] at hq
      rcases List.mem_cons.1 hq with rfl | hq
      · trivial
      rcases List.mem_cons.1 hq with rfl | hq
      · trivial
      · exact mem_stmts_times hq)
    (by
      rw [hst]
      refine ⟨trivial, fun _ => by simp [Occurs, leaves], firstUses_times n _ (fun h => h.2.1 rfl)⟩)
  have hG0 := hGt 0
  obtain ⟨d, i1, i2, i3, i4⟩ := h (B 1)
  have hlen : ((G 0).var (B 1)).length = l.length := by
    rw [hG0]
    unfold after
    rw [hst]
    show ((devals (B 0) 0 (List.replicate n timesA) (E 0)).var (B 1)).length = _
    have : ∀ n (E : Vals ℝ), (E.var (B 0)).length = l.length → (E.var (B 1)).length = l.length →
        ((devals (B 0) 0 (List.replicate n timesA) E).var (B 1)).length = l.length := by
      intro n
      induction n with
      | zero => intro E _ h; exact h
      | succ n ih =>
        intro E h0 h1
        rw [List.replicate_succ]
        exact ih _ (by simpa [deval, timesA, B] using h0) (by simp [deval, timesA, Vals.len, h0, h1])
    exact this n _ (by rw [v0]; simp) (by rw [v1]; simp)
  have hv : (G 0).var (B 1) = l.map (· ^ n) := by
    apply List.ext_getElem (by rw [hlen]; simp)
    intro i q1 q2
    have := vals 0 i (by simpa using q2)
    rw [← hG0, getD_lt _ _ q1, getD_lt _ _ (by simpa using q2), add_zero] at this
    rw [this, List.getElem_map]
  obtain ⟨s', h5⟩ := i4 (by rw [hv]; simpa using hne)
  refine ⟨s0, s, s', d, e0, e, hv ▸ i1, h5, ?_⟩
  apply List.ext_getElem (by rw [i2, hlen]; simp)
  intro i q1 q2
  have hi : i < l.length := by simpa using q2
  have h6 := i3 i
  have ev : (fun t => ((G t).var (B 1)).getD i 0) = fun t => (l.getD i 0 + t) ^ n := by
    funext t
    rw [hGt, vals t i hi]
  rw [ev] at h6
  have h8 : HasDerivAt (fun t : ℝ => (l.getD i 0 + t) ^ n) (n * (l.getD i 0 + 0) ^ (n - 1) * 1) 0 :=
    ((hasDerivAt_id' (0 : ℝ)).const_add (l.getD i 0)).pow n
  have h9 := h6.unique h8
  rw [getD_lt _ _ q1, getD_lt _ _ hi, add_zero, mul_one] at h9
  rw [h9, List.getElem_map]

example : ∃ s0 s s' d, initBoth [[2, 3]] [] (AV.start 0 .buffer) = (.ok (), s0) ∧
    (powerProg 2 3).run DArith.real 0 s0 = some (.ok (), s) ∧ (s.val (B 1)).Is [8, 27] ∧
    AV.getDerivs DArith.real (B 1) s = (.ok d, s') ∧ d = [12, 27] := by
  obtain ⟨s0, s, s', d, h1, h2, h3, h4, h5⟩ := C112_power [2, 3] (by simp) (by simp) 3 0 .buffer
  refine ⟨s0, s, s', d, h1, h2, ?_, h4, ?_⟩
  · convert h3 using 1
    norm_num
  · rw [h5]; norm_num

/-! ## A loop whose number of rounds depends on the values, and a branch -/

/-- `b = 1; while (b[0] < 5) b = b * a; if (a[0] < b[0]) c = b; else c = a` -/
def mixedProg : DProg ℝ :=
  .seq (.stmt (.setCon 0 [1])) (.seq (.stmt (.assign (B 1) (.con 0)))
    (.seq (.loop (.lt (.var (B 1) 0) (.num 5)) (.stmt timesA))
      (.ite (.lt (.var (B 0) 0) (.var (B 1) 0)) (.stmt (.assign (B 2) (.var (B 1)))) (.stmt (.assign (B 2) (.var (B 0)))))))

/-- What happens for `a = 3`: two rounds, and `c = b`. -/
def mixedRun : List Happens :=
  [.stmt (.setCon 0 [1]), .stmt (.assign (B 1) (.con 0)), .test (.lt (.var (B 1) 0) (.num 5)), .stmt timesA,
    .test (.lt (.var (B 1) 0) (.num 5)), .stmt timesA, .test (.lt (.var (B 1) 0) (.num 5)),
    .test (.lt (.var (B 0) 0) (.var (B 1) 0)), .stmt (.assign (B 2) (.var (B 1)))]

/-- `c` is `a * a` near `a = 3`, with the value 9 and the derivative 6. -/
example : ∃ s0 s s' d, initBoth [[3]] [] (AV.start 0 .buffer) = (.ok (), s0) ∧ mixedProg.run DArith.real 3 s0 = some (.ok (), s) ∧
    (s.val (B 2)).Is [9] ∧ AV.getDerivs DArith.real (B 2) s = (.ok d, s') ∧ d.getD 0 0 = 6 := by
  have hone : ∀ y, handed [[3]] [] y ≠ [] → y.2 = (B 0).2 → y = B 0 := by
    rintro ⟨c, i⟩ hy hi
    cases c
    · exact Prod.ext rfl hi
    · exact absurd rfl hy
    · exact absurd (by simp [handed]) hy
  have hrun : happens (B 0) 0 3 mixedProg (Vals.given (B 0) 0 (handed [[3]] [])) = some mixedRun := by
    norm_num [mixedProg, mixedRun, happens, roundsWhile, after, stmtsOf, devals, deval, Vals.given, handed, Vals.truth?, Vals.read?,
      Vals.len, Vals.elem, pick, timesA, List.range_succ]
  obtain ⟨s0, s, e0, e, G, _, hG, h⟩ := C112_partial (B 0) .buffer [[3]] [] (by simp) (by simp) hone mixedProg 3 mixedRun hrun
    (by
      norm_num [mixedRun, FitsRun, FitsKinds, Sharp, timesA, deval, Vals.given, handed, Vals.read?, Vals.len, Vals.elem, pick,
        List.range_succ, Conform, leaves, Vals.leaf, Piece, Nonzero, Occurs, Steady]
      simp)
    (by simp [mixedRun, stmtsOf, timesA, StmtMixed, Mixed, Truth])
    (by simp [mixedRun, stmtsOf, timesA, FirstUses, FirstUse, stillNew, handed, Occurs, leaves])
  have hv : ∀ t, (G t).var (B 2) = [(3 + t) * (3 + t)] := by
    intro t
    rw [hG]
    simp [mixedRun, after, stmtsOf, timesA, devals, deval, Vals.given, handed, Vals.len, Vals.elem, pick, List.range_succ]
  obtain ⟨d, i1, i2, i3, i4⟩ := h (B 2)
  obtain ⟨s', h5⟩ := i4 (by rw [hv]; simp)
  refine ⟨s0, s, s', d, e0, e, ?_, h5, ?_⟩
  · rw [hv] at i1
    convert i1 using 1
    norm_num
  · have h6 := i3 0
    simp only [hv, List.getD_cons_zero] at h6
    have h7 : HasDerivAt (fun t : ℝ => (3 + t) * (3 + t)) (1 * (3 + 0) + (3 + 0) * 1) 0 :=
      ((hasDerivAt_id' (0 : ℝ)).const_add 3).mul ((hasDerivAt_id' (0 : ℝ)).const_add 3)
    rw [h6.unique h7]
    norm_num

/-- C112 is false: after handing in `x = 4`, `while (1 < x[0]) x = x / 2` stores the value 1 and the derivative 0 instead of 1/4. -/
theorem C112_false : let r := AV.initFrom ratA 0 [[4]] (AV.start 0 .buffer)
    let q := DProg.run ratA 5 (.seq (.stmt (.setCon 0 [2]))
      (.loop (.lt (.num 1) (.var (B 0) 0)) (.stmt (.assign (B 0) (.bin .div (.var (B 0)) (.con 0)))))) r.2
    r.1 = .ok () ∧ q.map (fun s => s.1) = some (.ok ()) ∧ q.map (fun s => (s.2.val (B 0)).get 0) = some (.ok 1) ∧
      q.map (fun s => (AV.getDerivs ratA (B 0) s.2).1) = some (.ok [0]) := by decide +kernel

theorem dprog_seq (k : DVar) (t : ℝ) (fuel : Nat) (p q : DProg ℝ) (E : Vals ℝ) :
    dprog k t fuel (.seq p q) E = (dprog k t fuel p E).bind (dprog k t fuel q) := by
  unfold dprog
  rw [happens]
  cases e : happens k t fuel p E with
  | none => rfl
  | some a =>
    simp only [Option.bind_eq_bind, Option.bind_some, Option.map_some]
    cases happens k t fuel q (after k t a E) with
    | none => rfl
    | some b => simp [after_append]

/-- `if (a[0] <= 0 && 0 <= a[0]) b = 0; else b = a` -/
def kinkProg {T : Type} (zero : T) : DProg T :=
  .seq (.stmt (.setCon 0 [zero])) (.ite (.and (.le (.var (B 0) 0) (.num zero)) (.le (.num zero) (.var (B 0) 0)))
    (.stmt (.assign (B 1) (.con 0))) (.stmt (.assign (B 1) (.var (B 0)))))

/-- C112 is false when a test compares equal numbers, also for a differentiable function: `kinkProg` computes `b = a` for every `a`, but
at `a = 0` the derivative 0 is stored. -/
theorem C112_false_equal :
    (∀ t : ℝ, (dprog (B 0) t 0 (kinkProg 0) (Vals.given (B 0) t (handed [[0]] []))).map (fun E => E.var (B 1)) = some [t]) ∧
    (let r := AV.initFrom ratA 0 [[0]] (AV.start 0 .buffer)
     let q := DProg.run ratA 0 (kinkProg 0) r.2
     r.1 = .ok () ∧ q.map (fun s => s.1) = some (.ok ()) ∧ q.map (fun s => (s.2.val (B 1)).get 0) = some (.ok 0) ∧
      q.map (fun s => (AV.getDerivs ratA (B 1) s.2).1) = some (.ok [0])) := by
  refine ⟨fun t => ?_, by decide +kernel⟩
  have key : ∀ E : Vals ℝ, E.var (B 0) = [t] → E.con 0 = [0] → (dprog (B 0) t 0 (.ite (.and (.le (.var (B 0) 0) (.num 0)) (.le (.num 0)
      (.var (B 0) 0))) (.stmt (.assign (B 1) (.con 0))) (.stmt (.assign (B 1) (.var (B 0))))) E).map (fun E => E.var (B 1)) = some [t] := by
    intro E h0 h1
    rcases lt_trichotomy t 0 with h | h | h
    · simp [dprog, happens, Vals.truth?, Vals.read?, h0, h.le, not_le.2 h, after, stmtsOf, devals, deval]
    · subst h
      simp [dprog, happens, Vals.truth?, Vals.read?, h0, h1, after, stmtsOf, devals, deval]
    · simp [dprog, happens, Vals.truth?, Vals.read?, h0, not_le.2 h, after, stmtsOf, devals, deval]
  have := key (deval (B 0) t (.setCon 0 [0]) (Vals.given (B 0) t (handed [[0]] []))) (by simp [deval, Vals.given, handed]) (by simp [deval])
  rw [← this]
  unfold kinkProg
  rw [dprog_seq]
  rfl

/-- A test of `if` or `while` that reads beyond the end of a vector throws; the program ends there, with the values of before the test. -/
theorem C112_rejects {T : Type} (A : DArith T) (fuel : Nat) (s0 s : AV T) (x : DVar) (i : Nat) (v : T) (before p q later : DProg T)
    (l : List T) (hb : before.run A fuel s0 = some (.ok (), s)) (h : (s.val x).Is l) (hi : l.length ≤ i) :
    ∃ m, (DProg.seq before (.seq (.ite (.lt (.var x i) (.num v)) p q) later)).run A fuel s0 = some (.thr m, s) ∧
      (1 ≤ fuel → (DProg.seq before (.seq (.loop (.lt (.var x i) (.num v)) p) later)).run A fuel s0 = some (.thr m, s)) := by
  have hg : ∃ m, (s.val x).get i = .thr m := by
    unfold Buf.get Buf.check Out.ass
    rw [h.1, if_neg (not_lt.2 hi)]
    by_cases ha : (s.val x).allocated = true
    · rw [if_pos ha]; exact ⟨_, rfl⟩
    · rw [if_neg ha]; exact ⟨_, rfl⟩
  obtain ⟨m, e⟩ := hg
  have : (DCond.lt (.var x i) (.num v)).eval A s = .thr m := by
    show ((s.val x).get i >>= fun a => Out.ok v >>= fun b => pure (A.lt a b)) = _
    rw [e]; rfl
  refine ⟨m, ?_, fun hf => ?_⟩
  · have e1 : (DProg.ite (.lt (.var x i) (.num v)) p q).run A fuel s = some (.thr m, s) := by rw [DProg.run, this]
    rw [DProg.run, hb]
    show (DProg.seq _ later).run A fuel s = _
    rw [DProg.run, e1]; rfl
  · obtain ⟨n, rfl⟩ : ∃ n, fuel = n + 1 := ⟨fuel - 1, by omega⟩
    have e1 : (DProg.loop (.lt (.var x i) (.num v)) p).run A (n + 1) s = some (.thr m, s) := by
      rw [DProg.run, AV.whileLoop, this]
    rw [DProg.run, hb]
    show (DProg.seq _ later).run A (n + 1) s = _
    rw [DProg.run, e1]; rfl

/-- `if (a[1] < 2) {}; b = a` for `a = 4` throws and leaves `b` empty. -/
example : let r := AV.initFrom ratA 0 [[4]] (AV.start 0 .buffer)
    let q := (DProg.seq .skip (.seq (.ite (.lt (.var (B 0) 1) (.num 2)) .skip .skip) (.stmt (.assign (B 1) (.var (B 0)))))).run ratA 1 r.2
    q.map (fun s => s.1) = some (.thr "Error: out of boundaries --> value beyond size of vector") ∧
      q.map (fun s => (s.2.val (B 1)).sz) = some 0 := by decide +kernel

end ETR.Deriv
