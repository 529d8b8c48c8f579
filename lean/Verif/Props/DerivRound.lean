import Verif.Props.RoundError
import Verif.Props.Deriv
import Verif.Lemmas.DerivDual
import Verif.Model.DerivF64

/-! C108: the rounding error of derivatives. -/

namespace ETR.Deriv
open Spec F64

/-- The program with its numbers as real numbers. -/
noncomputable abbrev overReal (prog : List (AV.Stmt ℚ)) : List (AV.Stmt ℝ) := prog.map (AV.Stmt.map (fun q : ℚ => (q : ℝ)))

/-- binary64 numbers. -/
def doubles : Numbers F64 where
  num q := some (fin q)
  neg x := some (F64.neg x)
  op
    | .plus, x, y => some (F64.add x y)
    | .minus, x, y => some (F64.sub x y)
    | .times, x, y => some (F64.mul x y)
    | .divide, x, y => some (F64.div x y)
    | _, _, _ => none

/-- The program with its numbers as doubles. -/
abbrev overF64 (prog : List (AV.Stmt ℚ)) : List (AV.Stmt F64) := prog.map (AV.Stmt.map fin)

theorem lit_zero (pow : F64 → Nat → F64) (sin cos : F64 → F64) : (DArith.f64 pow sin cos).lit 0 = fin 0 := by
  have h : F64.ofInt 0 = fin 0 := by decide +kernel
  have e : (DArith.f64 pow sin cos).lit = F64.ofInt := rfl
  rw [e]
  exact h

theorem lit_one (pow : F64 → Nat → F64) (sin cos : F64 → F64) : (DArith.f64 pow sin cos).lit 1 = fin 1 := by
  have h : F64.ofInt 1 = fin 1 := by decide +kernel
  have e : (DArith.f64 pow sin cos).lit = F64.ofInt := rfl
  rw [e]
  exact h

theorem carries_f64 {α : Type} {N : Numbers α} {R : α → ℚ → Prop} (D : Describes N R) (pow : F64 → Nat → F64)
    (sin cos : F64 → F64) : Carries (DArith.f64 pow sin cos) N fin (fun a z => ∃ q, z = fin q ∧ R a q) := by
  have key : ∀ (o : BinO) (g : F64 → F64 → F64), (∀ x y, o.f (.d x) (.d y) = .ok (.d (g x y))) → ∀ a b c x y, N.op o a b = some c →
      (∃ q, x = fin q ∧ R a q) → (∃ q, y = fin q ∧ R b q) → ∃ q, g x y = fin q ∧ R c q := by
    rintro o g hg a b c _ _ h ⟨u, rfl, hu⟩ ⟨v, rfl, hv⟩
    obtain ⟨z, z1, z2⟩ := D.op o a b c u v h hu hv
    rw [hg] at z1
    simp only [Out.ok.injEq, Scal.d.injEq] at z1
    exact ⟨z, z1, z2⟩
  refine ⟨fun q a h => ⟨q, rfl, D.num q a h⟩, fun a h => ⟨0, lit_zero pow sin cos, D.num 0 a h⟩, fun a h => ⟨1, lit_one pow sin cos, D.num 1 a h⟩,
    key .plus _ (fun _ _ => rfl), key .minus _ (fun _ _ => rfl), key .times _ (fun _ _ => rfl), key .divide _ (fun _ _ => rfl)⟩

theorem carries_real {α : Type} {N : Numbers α} {f : α → ℚ} (hn : ∀ q a, N.num q = some a → f a = q)
    (ho : ∀ o a b c, N.op o a b = some c → opQ o (f a) (f b) = some (f c)) :
    Carries DArith.real N (fun q : ℚ => (q : ℝ)) (fun a r => r = (f a : ℝ)) := by
  refine ⟨fun q a h => by rw [hn q a h], fun a h => ?_, fun a h => ?_, ?_, ?_, ?_, ?_⟩
  · rw [hn 0 a h]
    show ((0 : ℤ) : ℝ) = _
    norm_num
  · rw [hn 1 a h]
    show ((1 : ℤ) : ℝ) = _
    norm_num
  · rintro a b c _ _ h rfl rfl
    have := ho _ _ _ _ h
    simp only [opQ, Option.some.injEq] at this
    rw [← this]
    push_cast
    rfl
  · rintro a b c _ _ h rfl rfl
    have := ho _ _ _ _ h
    simp only [opQ, Option.some.injEq] at this
    rw [← this]
    push_cast
    rfl
  · rintro a b c _ _ h rfl rfl
    have := ho _ _ _ _ h
    simp only [opQ, Option.some.injEq] at this
    rw [← this]
    push_cast
    rfl
  · rintro a b c _ _ h rfl rfl
    have := ho _ _ _ _ h
    simp only [opQ] at this
    split at this
    · cases this
    · simp only [Option.some.injEq] at this
      rw [← this]
      push_cast
      rfl

theorem forall₂_eq_map {β γ : Type} {f : β → γ} {l : List β} {m : List γ} (h : List.Forall₂ (fun a z => z = f a) l m) :
    m = l.map f := by
  induction h with
  | nil => rfl
  | cons h _ ih => rw [h, ih]; rfl

theorem forall₂_fin {β : Type} {R : β → ℚ → Prop} {l : List β} {m : List F64}
    (h : List.Forall₂ (fun a z => ∃ q, z = fin q ∧ R a q) l m) : ∃ n : List ℚ, m = n.map fin ∧ List.Forall₂ R l n := by
  induction h with
  | nil => exact ⟨[], rfl, .nil⟩
  | cons h _ ih =>
    obtain ⟨q, rfl, hq⟩ := h
    obtain ⟨n, rfl, hn⟩ := ih
    exact ⟨q :: n, rfl, .cons hq hn⟩

/-- The exact values and derivatives of a program, over the real numbers. -/
theorem dual_real {α : Type} {N : Numbers α} {f : α → ℚ} (hn : ∀ q a, N.num q = some a → f a = q)
    (ho : ∀ o a b c, N.op o a b = some c → opQ o (f a) (f b) = some (f c)) {k : Nat} {prog : List (AV.Stmt ℚ)} {V : Duals α}
    (hf : FitsAll (B k) (overReal prog) Vals.start) (hV : dualSteps N k prog Duals.start = some V) (x : DVar) :
    (devals (B k) 0 (overReal prog) Vals.start).var x = (V.var x).map (fun a => (f a.1 : ℝ)) ∧
    ∀ i (hi : i < (V.var x).length),
      HasDerivAt (fun t => ((devals (B k) t (overReal prog) Vals.start).var x).getD i 0) (f (V.var x)[i].2 : ℝ) 0 := by
  obtain ⟨s, e, h⟩ := C58_partial k .buffer (overReal prog) hf
  obtain ⟨s', E, D, e', h'⟩ := (DRel.start k .buffer (fun (a : α) (r : ℝ) => r = (f a : ℝ))).run (carries_real hn ho) hV hf
  obtain rfl : s = s' := congrArg Prod.snd (e.symm.trans e')
  obtain ⟨d, h1, h2, h3, h4, _⟩ := h x
  have hv := forall₂_eq_map (f := fun a : α × α => (f a.1 : ℝ)) (h'.varR x)
  have hd := forall₂_eq_map (f := fun a : α × α => (f a.2 : ℝ)) (h'.derR x)
  refine ⟨by rw [h1.inj (h'.val x), hv], fun i hi => ?_⟩
  have := h4 i
  rw [h2.inj (h'.der x), hd, getD_lt _ _ (by simpa using hi), List.getElem_map] at this
  exact this

/-- C108 (partial: `+`, `-`, `*`, division by constants, constants and copies, as in `C58_partial`; the accumulated error bound must show that
nothing overflows).  The program runs in binary64.  Every stored value is within the error bound of the exact value, and every stored
derivative, which is also what `get_derivs` returns, is within the error bound of the derivative of that value with respect to the
independent variable.  The bounds are computed by the rules of `Spec.withError` from the program alone. -/
theorem C108_error_partial (pow : F64 → Nat → F64) (sin cos : F64 → F64) (k : Nat) (kind : VKind) (prog : List (AV.Stmt ℚ))
    (V : Duals (ℚ × ℚ)) (hf : FitsAll (B k) (overReal prog) Vals.start) (hV : dualSteps withError k prog Duals.start = some V) :
    ∃ s, AV.run (DArith.f64 pow sin cos) (overF64 prog) (AV.start k kind) = (.ok (), s) ∧ ∀ x : DVar, ∃ vs ds : List ℚ,
      (s.val x).Is (vs.map fin) ∧ (s.der x).Is (ds.map fin) ∧
      (vs ≠ [] → AV.getDerivs (DArith.f64 pow sin cos) x s = (.ok (ds.map fin), s)) ∧
      (devals (B k) 0 (overReal prog) Vals.start).var x = (V.var x).map (fun a => (a.1.1 : ℝ)) ∧
      (∀ i (hi : i < (V.var x).length),
        HasDerivAt (fun t => ((devals (B k) t (overReal prog) Vals.start).var x).getD i 0) ((V.var x)[i].2.1 : ℝ) 0) ∧
      List.Forall₂ (fun (a : (ℚ × ℚ) × (ℚ × ℚ)) z => |z - a.1.1| ≤ a.1.2) (V.var x) vs ∧
      List.Forall₂ (fun (a : (ℚ × ℚ) × (ℚ × ℚ)) z => |z - a.2.1| ≤ a.2.2) (V.var x) ds := by
  obtain ⟨s, E, D, e, h⟩ := (DRel.start k kind _).run (carries_f64 describes_withError pow sin cos) hV hf
  refine ⟨s, e, fun x => ?_⟩
  obtain ⟨vs, ev, rv⟩ := forall₂_fin (R := fun (a : (ℚ × ℚ) × (ℚ × ℚ)) z => |z - a.1.1| ≤ a.1.2) (h.varR x)
  obtain ⟨ds, ed, rd⟩ := forall₂_fin (R := fun (a : (ℚ × ℚ) × (ℚ × ℚ)) z => |z - a.2.1| ≤ a.2.2) (h.derR x)
  obtain ⟨r1, r2⟩ := dual_real (f := fun a : ℚ × ℚ => a.1) (fun q a h => by cases h; rfl) (fun o a b c h => withError_op h) hf hV x
  refine ⟨vs, ds, by rw [← ev]; exact h.val x, by rw [← ed]; exact h.der x, fun h0 => ?_, r1, r2, rv, rd⟩
  rw [← ed]
  refine h.getDerivs _ (fun hx => h0 ?_)
  rw [hx] at rv
  cases rv
  rfl

/-- C108, exact case: when every value and derivative that occurs is a binary64 number, the binary64 run stores exactly the values and
their derivatives. -/
theorem C108_exact_partial (pow : F64 → Nat → F64) (sin cos : F64 → F64) (k : Nat) (kind : VKind) (prog : List (AV.Stmt ℚ))
    (V : Duals ℚ) (hf : FitsAll (B k) (overReal prog) Vals.start) (hV : dualSteps representable k prog Duals.start = some V) :
    ∃ s, AV.run (DArith.f64 pow sin cos) (overF64 prog) (AV.start k kind) = (.ok (), s) ∧ ∀ x : DVar,
      (s.val x).Is ((V.var x).map (fun a => fin a.1)) ∧ (s.der x).Is ((V.var x).map (fun a => fin a.2)) ∧
      (V.var x ≠ [] → AV.getDerivs (DArith.f64 pow sin cos) x s = (.ok ((V.var x).map (fun a => fin a.2)), s)) ∧
      (devals (B k) 0 (overReal prog) Vals.start).var x = (V.var x).map (fun a => (a.1 : ℝ)) ∧
      ∀ i (hi : i < (V.var x).length),
        HasDerivAt (fun t => ((devals (B k) t (overReal prog) Vals.start).var x).getD i 0) ((V.var x)[i].2 : ℝ) 0 := by
  obtain ⟨s, E, D, e, h⟩ := (DRel.start k kind _).run (carries_f64 describes_representable pow sin cos) hV hf
  refine ⟨s, e, fun x => ?_⟩
  have ev : E.var x = (V.var x).map (fun a => fin a.1) := forall₂_eq_map ((h.varR x).imp (fun a z => by rintro ⟨q, rfl, rfl⟩; rfl))
  have ed : D x = (V.var x).map (fun a => fin a.2) := forall₂_eq_map ((h.derR x).imp (fun a z => by rintro ⟨q, rfl, rfl⟩; rfl))
  obtain ⟨r1, r2⟩ := dual_real (f := id) (fun q a h => by cases h; rfl) (fun o a b c h => representable_op h) hf hV x
  exact ⟨by rw [← ev]; exact h.val x, by rw [← ed]; exact h.der x, fun h0 => by rw [← ed]; exact h.getDerivs _ h0, r1, r2⟩

theorem carries_doubles (pow : F64 → Nat → F64) (sin cos : F64 → F64) :
    Carries (DArith.f64 pow sin cos) doubles fin (fun a z => z = a) := by
  refine ⟨?_, ?_, ?_, ?_, ?_, ?_, ?_⟩
  · intro q a h; cases h; rfl
  · intro a h; cases h; exact lit_zero pow sin cos
  · intro a h; cases h; exact lit_one pow sin cos
  all_goals
    rintro a b c _ _ h rfl rfl
    cases h
    rfl

/-- C108, all cases (NaN and infinities included): the binary64 run stores what the rules for derivatives give when each operation is
rounded; the power function, the sine and the cosine of the C library have no part in it. -/
theorem C108_computes_partial (pow : F64 → Nat → F64) (sin cos : F64 → F64) (k : Nat) (kind : VKind) (prog : List (AV.Stmt ℚ))
    (V : Duals F64) (hf : FitsAll (B k) (overReal prog) Vals.start) (hV : dualSteps doubles k prog Duals.start = some V) :
    ∃ s, AV.run (DArith.f64 pow sin cos) (overF64 prog) (AV.start k kind) = (.ok (), s) ∧ ∀ x : DVar,
      (s.val x).Is ((V.var x).map (·.1)) ∧ (s.der x).Is ((V.var x).map (·.2)) ∧
      (V.var x ≠ [] → AV.getDerivs (DArith.f64 pow sin cos) x s = (.ok ((V.var x).map (·.2)), s)) := by
  obtain ⟨s, E, D, e, h⟩ := (DRel.start k kind _).run (carries_doubles pow sin cos) hV hf
  refine ⟨s, e, fun x => ?_⟩
  have ev : E.var x = (V.var x).map (·.1) := forall₂_eq_map (h.varR x)
  have ed : D x = (V.var x).map (·.2) := forall₂_eq_map (h.derR x)
  exact ⟨by rw [← ev]; exact h.val x, by rw [← ed]; exact h.der x, fun h0 => by rw [← ed]; exact h.getDerivs _ h0⟩

/-- `a = 3; b = a * (1/3) + a / 7` (the constants rounded to doubles), for two elements. -/
def thirds : List (AV.Stmt ℚ) :=
  [.setCon 0 [3, 5], .setCon 1 [6004799503160661 / 2 ^ 54], .setCon 2 [7], .assign (B 0) (.con 0),
    .assign (B 1) (.bin .add (.bin .mul (.var (B 0)) (.con 1)) (.bin .div (.var (B 0)) (.con 2)))]

theorem thirds_fits : FitsAll (B 0) (overReal thirds) Vals.start := by
  simp [thirds, FitsAll, Fits, FitsWeak, deval, Vals.start, Conform, leaves, Vals.leaf, Vals.len, Poly, Nonzero, Occurs,
    AV.Stmt.map, Vals.elem, pick]

/-- The hypotheses of `C108_error_partial` hold, with error bounds for the derivatives below `2^(-51)`. -/
example : FitsAll (B 0) (overReal thirds) Vals.start ∧
    (dualSteps withError 0 thirds Duals.start).map (fun V => (V.var (B 1)).map (fun a => (a.2.1, decide (a.2.2 ≤ 1 / 2 ^ 51)))) =
      some [(6004799503160661 / 2 ^ 54 + 1 / 7, true), (6004799503160661 / 2 ^ 54 + 1 / 7, true)] :=
  ⟨thirds_fits, by decide +kernel⟩

/-- `a = [3, 5]; b = a * a - a / 2`: all results are doubles. -/
def halves : List (AV.Stmt ℚ) :=
  [.setCon 0 [3, 5], .setCon 1 [2], .assign (B 0) (.con 0),
    .assign (B 1) (.bin .sub (.bin .mul (.var (B 0)) (.var (B 0))) (.bin .div (.var (B 0)) (.con 1)))]

theorem halves_fits : FitsAll (B 0) (overReal halves) Vals.start := by
  simp [halves, FitsAll, Fits, FitsWeak, deval, Vals.start, Conform, leaves, Vals.leaf, Vals.len, Poly, Nonzero, Occurs,
    AV.Stmt.map, Vals.elem, pick]

/-- The hypotheses of `C108_exact_partial` hold; the derivatives are 11/2 and 19/2. -/
example : FitsAll (B 0) (overReal halves) Vals.start ∧
    (dualSteps representable 0 halves Duals.start).map (fun V => V.var (B 1)) = some [(15 / 2, 11 / 2), (45 / 2, 19 / 2)] :=
  ⟨halves_fits, by decide +kernel⟩

/-- `a = 1; b = a * 2^53; c = (b + a) - b`. -/
def absorbed : List (AV.Stmt ℚ) :=
  [.setCon 0 [1], .setCon 1 [2 ^ 53], .assign (B 0) (.con 0), .assign (B 1) (.bin .mul (.var (B 0)) (.con 1)),
    .assign (B 2) (.bin .sub (.bin .add (.var (B 1)) (.var (B 0))) (.var (B 1)))]

theorem absorbed_fits : FitsAll (B 0) (overReal absorbed) Vals.start := by
  simp [absorbed, FitsAll, Fits, FitsWeak, deval, Vals.start, Conform, leaves, Vals.leaf, Vals.len, Poly, Nonzero, Occurs,
    AV.Stmt.map]

/-- The hypotheses of `C108_computes_partial` hold. -/
example : FitsAll (B 0) (overReal absorbed) Vals.start ∧
    (dualSteps doubles 0 absorbed Duals.start).map (fun V => V.var (B 2)) = some [(fin 0, fin 0)] :=
  ⟨absorbed_fits, by decide +kernel⟩

/-- C108: there is no bound for the relative error of derivatives.  The derivative of `(b + a) - b` with `b = a * 2^53` is one, the stored
derivative is zero. -/
theorem C108_relative_false (pow : F64 → Nat → F64) (sin cos : F64 → F64) (kind : VKind) :
    ∃ prog s, FitsAll (B 0) (overReal prog) Vals.start ∧
      AV.run (DArith.f64 pow sin cos) (overF64 prog) (AV.start 0 kind) = (.ok (), s) ∧ (s.der (B 2)).Is [fin 0] ∧
      HasDerivAt (fun t => ((devals (B 0) t (overReal prog) Vals.start).var (B 2)).getD 0 0) 1 0 := by
  have e1 : (dualSteps doubles 0 absorbed Duals.start).map (fun V => V.var (B 2)) = some [(fin 0, fin 0)] := by decide +kernel
  have e2 : (dualSteps withError 0 absorbed Duals.start).map (fun V => (V.var (B 2)).map (·.2.1)) = some [1] := by decide +kernel
  rw [Option.map_eq_some_iff] at e1 e2
  obtain ⟨V, v1, v2⟩ := e1
  obtain ⟨W, w1, w2⟩ := e2
  obtain ⟨s, r, h⟩ := C108_computes_partial pow sin cos 0 kind absorbed V absorbed_fits v1
  refine ⟨absorbed, s, absorbed_fits, r, ?_, ?_⟩
  · have := (h (B 2)).2.1
    rw [v2] at this
    exact this
  · have hl : 0 < (W.var (B 2)).length := by
      have := congrArg List.length w2
      simp only [List.length_map, List.length_singleton] at this
      omega
    have := (dual_real (f := fun a : ℚ × ℚ => a.1) (fun q a h => by cases h; rfl) (fun o a b c h => withError_op h)
      absorbed_fits w1 (B 2)).2 0 hl
    have e3 : (W.var (B 2))[0].2.1 = 1 := by
      have := congrArg (fun l : List ℚ => l[0]?) w2
      simpa [hl] using this
    rw [e3] at this
    simpa using this

end ETR.Deriv
