import Verif.Lemmas.DerivReal
import Verif.Spec.DerivControl

/-! Runs of programs with branches and loops keep `DInv`, and take the same way for all small changes of the independent variable. -/

namespace ETR
open Spec Filter Topology

namespace Spec

theorem stmtsOf_append (a b : List Happens) : stmtsOf (a ++ b) = stmtsOf a ++ stmtsOf b := by
  induction a with
  | nil => rfl
  | cons x a ih => cases x <;> simp [stmtsOf, ih]

theorem devals_append (k : DVar) (t : ℝ) (a b : List (AV.Stmt ℝ)) : ∀ E, devals k t (a ++ b) E = devals k t b (devals k t a E) := by
  induction a with
  | nil => intro E; rfl
  | cons p a ih => intro E; exact ih _

theorem after_append (k : DVar) (t : ℝ) (a b : List Happens) (E : Vals ℝ) : after k t (a ++ b) E = after k t b (after k t a E) := by
  unfold after
  rw [stmtsOf_append, devals_append]

theorem fitsRun_append (k : DVar) (a b : List Happens) : ∀ E, FitsRun k (a ++ b) E ↔ FitsRun k a E ∧ FitsRun k b (after k 0 a E) := by
  induction a with
  | nil => intro E; simp [FitsRun, after, stmtsOf, devals]
  | cons x a ih =>
    intro E
    cases x with
    | stmt p =>
      have e : after k 0 (.stmt p :: a) E = after k 0 a (deval k 0 p E) := rfl
      rw [List.cons_append, FitsRun, FitsRun, ih, e, and_assoc]
    | test c =>
      have e : after k 0 (.test c :: a) E = after k 0 a E := rfl
      rw [List.cons_append, FitsRun, FitsRun, ih, e, and_assoc]

end Spec

/-- The variables that are still new after some statements. -/
def newAfter (P : DVar → Prop) : List (AV.Stmt ℝ) → DVar → Prop
  | [] => P
  | p :: ps => newAfter (stillNew P p) ps

theorem newAfter_append (a b : List (AV.Stmt ℝ)) : ∀ P, newAfter P (a ++ b) = newAfter (newAfter P a) b := by
  induction a with
  | nil => intro P; rfl
  | cons p a ih => intro P; exact ih _

theorem firstUses_append (a b : List (AV.Stmt ℝ)) : ∀ P, FirstUses P (a ++ b) ↔ FirstUses P a ∧ FirstUses (newAfter P a) b := by
  induction a with
  | nil => intro P; simp [FirstUses, newAfter]
  | cons p a ih => intro P; rw [List.cons_append, FirstUses, FirstUses, ih, newAfter, and_assoc]

/-- A run that the theorem is about. -/
def GoodRun (k : DVar) (P : DVar → Prop) (a : List Happens) (E : Vals ℝ) : Prop :=
  FitsRun k a E ∧ (∀ p ∈ stmtsOf a, StmtMixed p) ∧ FirstUses P (stmtsOf a)

theorem goodRun_append {k : DVar} {P : DVar → Prop} {a b : List Happens} {E : Vals ℝ} :
    GoodRun k P (a ++ b) E ↔ GoodRun k P a E ∧ GoodRun k (newAfter P (stmtsOf a)) b (after k 0 a E) := by
  unfold GoodRun
  rw [fitsRun_append, stmtsOf_append, firstUses_append]
  simp only [List.mem_append, or_imp, forall_and]
  tauto

namespace DInv
variable {k : DVar} {s : AV ℝ} {F : ℝ → Vals ℝ} {D : DVar → List ℝ} {P : DVar → Prop}

/-- A number in a condition is there for all changes, and depends on them continuously. -/
theorem read (h : DInv k s F D P) {r : DRead ℝ} {v : ℝ} (hv : (F 0).read? r = some v) :
    r.get s = .ok v ∧ ∃ g : ℝ → ℝ, (∀ t, (F t).read? r = some (g t)) ∧ g 0 = v ∧ ContinuousAt g 0 := by
  cases r with
  | var x i =>
    have hv' : ((F 0).var x)[i]? = some v := hv
    obtain ⟨hi, e⟩ := List.getElem?_eq_some_iff.1 hv'
    refine ⟨?_, fun t => ((F t).var x).getD i 0, ?_, ?_, (h.derD x i).continuousAt⟩
    · show (s.val x).get i = _
      rw [(h.val x).2 i hi, e]
    · intro t
      have hi' : i < ((F t).var x).length := by rw [h.valL]; exact hi
      show ((F t).var x)[i]? = some (((F t).var x).getD i 0)
      rw [List.getElem?_eq_getElem hi', getD_lt _ _ hi']
    · show ((F 0).var x).getD i 0 = v
      rw [getD_lt _ _ hi, e]
  | con c i =>
    have hv' : ((F 0).con c)[i]? = some v := hv
    obtain ⟨hi, e⟩ := List.getElem?_eq_some_iff.1 hv'
    refine ⟨?_, fun _ => v, ?_, rfl, continuousAt_const⟩
    · show (s.con c).get i = _
      rw [(h.con c).2 i hi, e]
    · intro t
      show ((F t).con c)[i]? = _
      rw [h.conC, hv']
  | num w =>
    have : w = v := Option.some.inj hv
    subst this
    exact ⟨rfl, fun _ => w, fun _ => rfl, rfl, continuousAt_const⟩

/-- A condition that is not at a point where its result changes. -/
theorem cond (h : DInv k s F D P) (c : DCond ℝ) : ∀ {v : Bool}, (F 0).truth? c = some v → Sharp (F 0) c →
    c.eval DArith.real s = .ok v ∧ ∀ᶠ t in 𝓝 (0 : ℝ), (F t).truth? c = some v := by
  induction c with
  | lt a b =>
    intro v hv hs
    unfold Vals.truth? at hv
    split at hv
    case h_2 => cases hv
    rename_i x y ea eb
    obtain ⟨ga, fa, ha, e1, ca⟩ := h.read ea
    obtain ⟨gb, fb, hb, e2, cb⟩ := h.read eb
    have hne : x ≠ y := fun e => hs (by rw [ea, eb, e])
    have hv' : decide (x < y) = v := Option.some.inj hv
    refine ⟨?_, ?_⟩
    · show (a.get s >>= fun x => b.get s >>= fun y => pure (DArith.real.lt x y)) = _
      rw [ga, gb]
      show Out.ok (decide (x < y)) = _
      rw [hv']
    · have ev : ∀ᶠ t in 𝓝 (0 : ℝ), decide (fa t < fb t) = v := by
        rcases lt_or_gt_of_ne hne with hlt | hgt
        · have := ca.eventually_lt cb (by rw [e1, e2]; exact hlt)
          filter_upwards [this] with t ht
          rw [← hv', decide_eq_true ht, decide_eq_true hlt]
        · have := cb.eventually_lt ca (by rw [e1, e2]; exact hgt)
          filter_upwards [this] with t ht
          rw [← hv', decide_eq_false (not_lt.2 ht.le), decide_eq_false (not_lt.2 hgt.le)]
      filter_upwards [ev] with t ht
      unfold Vals.truth?
      rw [ha, hb]
      exact congrArg some ht
  | le a b =>
    intro v hv hs
    unfold Vals.truth? at hv
    split at hv
    case h_2 => cases hv
    rename_i x y ea eb
    obtain ⟨ga, fa, ha, e1, ca⟩ := h.read ea
    obtain ⟨gb, fb, hb, e2, cb⟩ := h.read eb
    have hne : x ≠ y := fun e => hs (by rw [ea, eb, e])
    have hv' : decide (x ≤ y) = v := Option.some.inj hv
    refine ⟨?_, ?_⟩
    · show (a.get s >>= fun x => b.get s >>= fun y => pure (DArith.real.le x y)) = _
      rw [ga, gb]
      show Out.ok (decide (x ≤ y)) = _
      rw [hv']
    · have ev : ∀ᶠ t in 𝓝 (0 : ℝ), decide (fa t ≤ fb t) = v := by
        rcases lt_or_gt_of_ne hne with hlt | hgt
        · have := ca.eventually_lt cb (by rw [e1, e2]; exact hlt)
          filter_upwards [this] with t ht
          rw [← hv', decide_eq_true ht.le, decide_eq_true hlt.le]
        · have := cb.eventually_lt ca (by rw [e1, e2]; exact hgt)
          filter_upwards [this] with t ht
          rw [← hv', decide_eq_false (not_le.2 ht), decide_eq_false (not_le.2 hgt)]
      filter_upwards [ev] with t ht
      unfold Vals.truth?
      rw [ha, hb]
      exact congrArg some ht
  | not c ih =>
    intro v hv hs
    have hv' : ((F 0).truth? c).map (!·) = some v := hv
    obtain ⟨w, hw, e⟩ := Option.map_eq_some_iff.1 hv'
    obtain ⟨h1, h2⟩ := ih hw hs
    refine ⟨?_, ?_⟩
    · show (c.eval DArith.real s >>= fun v => pure (!v)) = _
      rw [h1, ← e]; rfl
    · filter_upwards [h2] with t ht
      show ((F t).truth? c).map (!·) = _
      rw [ht, ← e]; rfl
  | and c d ihc ihd =>
    intro v hv hs
    obtain ⟨s1, s2⟩ := hs
    unfold Vals.truth? at hv
    have e0 : (DCond.and c d).eval DArith.real s
        = (c.eval DArith.real s >>= fun v => if v then d.eval DArith.real s else pure false) := rfl
    split at hv
    · rename_i e
      obtain ⟨h1, h2⟩ := ihc e s1
      obtain ⟨h3, h4⟩ := ihd hv (s2 e)
      refine ⟨?_, ?_⟩
      · rw [e0, h1]; exact h3
      · filter_upwards [h2, h4] with t ht ht'
        unfold Vals.truth?
        rw [ht]; exact ht'
    · rename_i e
      cases v with
      | true => exact absurd hv e
      | false =>
      obtain ⟨h1, h2⟩ := ihc hv s1
      refine ⟨?_, ?_⟩
      · rw [e0, h1]; rfl
      · filter_upwards [h2] with t ht
        unfold Vals.truth?
        rw [ht]
  | or c d ihc ihd =>
    intro v hv hs
    obtain ⟨s1, s2⟩ := hs
    unfold Vals.truth? at hv
    have e0 : (DCond.or c d).eval DArith.real s
        = (c.eval DArith.real s >>= fun v => if v then pure true else d.eval DArith.real s) := rfl
    split at hv
    · rename_i e
      obtain ⟨h1, h2⟩ := ihc e s1
      obtain ⟨h3, h4⟩ := ihd hv (s2 e)
      refine ⟨?_, ?_⟩
      · rw [e0, h1]; exact h3
      · filter_upwards [h2, h4] with t ht ht'
        unfold Vals.truth?
        rw [ht]; exact ht'
    · rename_i e
      cases v with
      | false => exact absurd hv e
      | true =>
      obtain ⟨h1, h2⟩ := ihc hv s1
      refine ⟨?_, ?_⟩
      · rw [e0, h1]; rfl
      · filter_upwards [h2] with t ht
        unfold Vals.truth?
        rw [ht]

end DInv

/-- `f` does to the state what `g` says that happens, for all small changes. -/
def Follows (k : DVar) (f : AV ℝ → Option (Out Unit × AV ℝ)) (g : ℝ → Vals ℝ → Option (List Happens)) : Prop :=
  ∀ (s : AV ℝ) (F : ℝ → Vals ℝ) (D : DVar → List ℝ) (P : DVar → Prop) (a : List Happens), DInv k s F D P → g 0 (F 0) = some a →
    GoodRun k P a (F 0) → ∃ s' D', f s = some (.ok (), s') ∧ DInv k s' (fun t => after k t a (F t)) D' (newAfter P (stmtsOf a)) ∧
      ∀ᶠ t in 𝓝 (0 : ℝ), g t (F t) = some a

namespace Follows
variable {k : DVar}

theorem skip : Follows k (fun s => some (.ok (), s)) (fun _ _ => some []) := by
  intro s F D P a h e _
  have : a = [] := (Option.some.inj e).symm
  subst this
  exact ⟨s, D, rfl, h, Eventually.of_forall fun _ => rfl⟩

theorem stmt (p : AV.Stmt ℝ) : Follows k (fun s => some (AV.exec DArith.real p s)) (fun _ _ => some [.stmt p]) := by
  intro s F D P a h e hg
  have : a = [.stmt p] := (Option.some.inj e).symm
  subst this
  obtain ⟨g1, g2, g3⟩ := hg
  obtain ⟨s', D', e', h'⟩ := h.exec g1.1 (g2 p (by simp [stmtsOf])) g3.1
  exact ⟨s', D', congrArg some e', h', Eventually.of_forall fun _ => rfl⟩

theorem seq {f f' : AV ℝ → Option (Out Unit × AV ℝ)} {g g' : ℝ → Vals ℝ → Option (List Happens)} (hf : Follows k f g)
    (hf' : Follows k f' g') : Follows k (fun s => AV.goOn f' (f s)) (fun t E => do
        let a ← g t E
        let b ← g' t (after k t a E)
        return a ++ b) := by
  intro s F D P c h e hg
  obtain ⟨a, ea, e1⟩ := Option.bind_eq_some_iff.1 e
  obtain ⟨b, eb, e2⟩ := Option.bind_eq_some_iff.1 e1
  have : c = a ++ b := (Option.some.inj e2).symm
  subst this
  obtain ⟨ga, gb⟩ := goodRun_append.1 hg
  obtain ⟨s1, D1, r1, h1, v1⟩ := hf s F D P a h ea ga
  obtain ⟨s2, D2, r2, h2, v2⟩ := hf' s1 _ D1 _ b h1 eb gb
  refine ⟨s2, D2, ?_, ?_, ?_⟩
  · simp only [r1]; exact r2
  · rw [stmtsOf_append, newAfter_append]
    have : (fun t => after k t (a ++ b) (F t)) = fun t => after k t b (after k t a (F t)) := by
      funext t; exact after_append k t a b _
    rw [this]; exact h2
  · filter_upwards [v1, v2] with t t1 t2
    show (g t (F t) >>= fun a => g' t (after k t a (F t)) >>= fun b => pure (a ++ b)) = _
    rw [t1]
    show (g' t (after k t a (F t)) >>= fun b => pure (a ++ b)) = _
    rw [t2]; rfl

theorem ite (c : DCond ℝ) {f f' : AV ℝ → Option (Out Unit × AV ℝ)} {g g' : ℝ → Vals ℝ → Option (List Happens)} (hf : Follows k f g)
    (hf' : Follows k f' g') : Follows k (fun s => match c.eval DArith.real s with
      | .ok true => f s
      | .ok false => f' s
      | .thr m => some (.thr m, s)
      | .ub u => some (.ub u, s)) (fun t E => E.truth? c >>= fun v =>
        (if v then g t E else g' t E) >>= fun a => pure (.test c :: a)) := by
  intro s F D P d h e hg
  obtain ⟨v, ev, e1⟩ := Option.bind_eq_some_iff.1 e
  obtain ⟨a, ea, e2⟩ := Option.bind_eq_some_iff.1 e1
  have : d = .test c :: a := (Option.some.inj e2).symm
  subst this
  obtain ⟨⟨g0, g1⟩, g2, g3⟩ := hg
  obtain ⟨h1, h2⟩ := h.cond c ev g0
  cases v with
  | true =>
    obtain ⟨s1, D1, r1, i1, v1⟩ := hf s F D P a h ea ⟨g1, g2, g3⟩
    refine ⟨s1, D1, by simp only [h1]; exact r1, i1, ?_⟩
    filter_upwards [h2, v1] with t t1 t2
    simp only [t1]
    show (g t (F t) >>= fun a => pure (.test c :: a)) = _
    rw [t2]; rfl
  | false =>
    obtain ⟨s1, D1, r1, i1, v1⟩ := hf' s F D P a h ea ⟨g1, g2, g3⟩
    refine ⟨s1, D1, by simp only [h1]; exact r1, i1, ?_⟩
    filter_upwards [h2, v1] with t t1 t2
    simp only [t1]
    show (g' t (F t) >>= fun a => pure (.test c :: a)) = _
    rw [t2]; rfl

theorem rounds {f : Nat → AV ℝ → Option (Out Unit × AV ℝ)} {g : Nat → ℝ → Vals ℝ → Option (List Happens)}
    (hf : ∀ i, Follows k (f i) (g i)) (n : Nat) : ∀ i,
    Follows k (AV.forLoop f n i) (fun t => roundsOf k t (fun i => g i t) n i) := by
  induction n with
  | zero => intro i; exact skip
  | succ n ih => intro i; exact (hf i).seq (ih (i + 1))

theorem while' (c : DCond ℝ) {f : AV ℝ → Option (Out Unit × AV ℝ)} {g : ℝ → Vals ℝ → Option (List Happens)}
    (hf : Follows k f g) (n : Nat) :
    Follows k (AV.whileLoop (fun s => c.eval DArith.real s) f n) (fun t => roundsWhile k t c (g t) n) := by
  induction n with
  | zero => intro s F D P a h e; cases e
  | succ n ih =>
    have := ite c (hf.seq ih) (skip (k := k))
    intro s F D P d h e hg
    have key : ∀ t E, roundsWhile k t c (g t) (n + 1) E = (E.truth? c >>= fun v =>
        (if v then (g t E >>= fun a => roundsWhile k t c (g t) n (after k t a E) >>= fun b => pure (a ++ b)) else some []) >>=
          fun a => pure (.test c :: a)) := by
      intro t E
      rw [roundsWhile]
      congr 1
      funext v
      cases v with
      | true =>
        simp only [if_true]
        cases g t E with
        | none => rfl
        | some a =>
          simp only [Option.bind_eq_bind, Option.bind_some]
          cases roundsWhile k t c (g t) n (after k t a E) <;> rfl
      | false => rfl
    obtain ⟨s', D', r, i, v⟩ := this s F D P d h ((key 0 (F 0)).symm.trans e) hg
    refine ⟨s', D', ?_, i, ?_⟩
    · rw [← r]; rfl
    · filter_upwards [v] with t ht
      rw [key]; exact ht

theorem run (fuel : Nat) (p : DProg ℝ) : Follows k (p.run DArith.real fuel) (fun t => happens k t fuel p) := by
  induction p with
  | skip => exact skip
  | stmt p => exact stmt p
  | seq p q hp hq => exact hp.seq hq
  | ite c p q hp hq => exact ite c hp hq
  | rounds n body ih => exact rounds ih n 0
  | loop c body ih => exact while' c ih fuel

end Follows

end ETR
