import Verif.Lemmas.DerivAny
import Verif.Lemmas.Numeric
import Verif.Spec.Dual

/-! Programs over derivative variables in an arithmetic that is described by a kind of numbers. -/

namespace ETR
open Spec
variable {T α : Type}

/-- The kind of numbers `N` describes the arithmetic `A`: `R a z`, the computed number `z` is as `a` says; `inj` is the number in the
program that stands for a rational number. -/
structure Carries (A : DArith T) (N : Numbers α) (inj : ℚ → T) (R : α → T → Prop) : Prop where
  num : ∀ q a, N.num q = some a → R a (inj q)
  zero : ∀ a, N.num 0 = some a → R a (A.lit 0)
  one : ∀ a, N.num 1 = some a → R a (A.lit 1)
  add : ∀ a b c x y, N.op .plus a b = some c → R a x → R b y → R c (A.add x y)
  sub : ∀ a b c x y, N.op .minus a b = some c → R a x → R b y → R c (A.sub x y)
  mul : ∀ a b c x y, N.op .times a b = some c → R a x → R b y → R c (A.mul x y)
  div : ∀ a b c x y, N.op .divide a b = some c → R a x → R b y → R c (A.div x y)

theorem forall₂_cyc {β γ : Type} {R : β → γ → Prop} {l : List β} {m : List γ} (h : List.Forall₂ R l m) {i : Nat} {a : β} {z : γ}
    (ha : cyc l i = some a) : R a (m.getD (i % m.length) z) := by
  have hl := h.length_eq
  unfold cyc at ha
  obtain ⟨hi, e⟩ := List.getElem?_eq_some_iff.1 ha
  rw [← hl, getD_lt _ _ (by omega), ← e]
  exact List.forall₂_iff_get.1 h |>.2 _ hi (by omega)

namespace DExpr

theorem poly_plain {e : DExpr} (h : Poly e) : Plain e := by
  induction e with
  | con c => trivial
  | var x => trivial
  | bin op l r hl hr =>
    cases op <;> simp only [Poly] at h
    case div => obtain ⟨h1, c, rfl⟩ := h; exact ⟨by simp, hl h1, trivial⟩
    all_goals exact ⟨by simp, hl h.1, hr h.2⟩
  | sin e he => exact h.elim

theorem plain_num {e : DExpr} (h : Plain e) : e.Num := by
  induction e with
  | con c => trivial
  | var x => trivial
  | bin op l r hl hr => exact ⟨hl h.2.1, hr h.2.2⟩
  | sin e he => exact ⟨he h, plain_bool (e := e) h⟩

/-- Value and derivative at one index. -/
theorem carries_elem {A : DArith T} {N : Numbers α} {inj : ℚ → T} {R : α → T → Prop} (H : Carries A N inj R) {V : Duals α}
    {E : Vals T} {D : DVar → List T} (hc : ∀ c, List.Forall₂ R (V.con c) (E.con c))
    (hv : ∀ x, List.Forall₂ (fun a z => R a.1 z) (V.var x) (E.var x)) (hd : ∀ x, List.Forall₂ (fun a z => R a.2 z) (V.var x) (D x))
    {e : DExpr} (he : Poly e) (i : Nat) {a : α × α} (h : V.elem N e i = some a) :
    R a.1 (e.gVal A (ptOf A E D i)) ∧ R a.2 (e.gDer A (ptOf A E D i)) := by
  induction e generalizing a with
  | con c =>
    simp only [Duals.elem, Option.bind_eq_bind, Option.bind_eq_some_iff, Option.pure_def, Option.some.injEq] at h
    obtain ⟨u, h1, z, h2, rfl⟩ := h
    exact ⟨forall₂_cyc (hc c) h1, H.zero _ h2⟩
  | var x =>
    exact ⟨forall₂_cyc (hv x) h, forall₂_cyc (hd x) h⟩
  | bin op l r hl hr =>
    have hp := poly_plain he
    have b1 := plain_bool hp.2.1
    have b2 := plain_boolDer hp.2.1
    cases op <;> simp only [Poly] at he
    case add =>
      simp only [Duals.elem, Option.bind_eq_bind, Option.bind_eq_some_iff, Option.pure_def, Option.some.injEq] at h
      obtain ⟨u, h1, w, h2, v, h3, d, h4, rfl⟩ := h
      obtain ⟨u1, u2⟩ := hl he.1 h1
      obtain ⟨w1, w2⟩ := hr he.2 h2
      simp only [gVal, gDer, DArith.op, b1, b2, Bool.false_and, DArith.conv, Bool.false_eq_true, if_false]
      exact ⟨H.add _ _ _ _ _ h3 u1 w1, H.add _ _ _ _ _ h4 u2 w2⟩
    case sub =>
      simp only [Duals.elem, Option.bind_eq_bind, Option.bind_eq_some_iff, Option.pure_def, Option.some.injEq] at h
      obtain ⟨u, h1, w, h2, v, h3, d, h4, rfl⟩ := h
      obtain ⟨u1, u2⟩ := hl he.1 h1
      obtain ⟨w1, w2⟩ := hr he.2 h2
      simp only [gVal, gDer, DArith.op, b1, b2, Bool.false_and, DArith.conv, Bool.false_eq_true, if_false]
      exact ⟨H.sub _ _ _ _ _ h3 u1 w1, H.sub _ _ _ _ _ h4 u2 w2⟩
    case mul =>
      simp only [Duals.elem, Option.bind_eq_bind, Option.bind_eq_some_iff, Option.pure_def, Option.some.injEq] at h
      obtain ⟨u, h1, w, h2, v, h3, p, h4, q, h5, d, h6, rfl⟩ := h
      obtain ⟨u1, u2⟩ := hl he.1 h1
      obtain ⟨w1, w2⟩ := hr he.2 h2
      simp only [gVal, gDer, DArith.op, b1, Bool.false_and, DArith.conv, Bool.false_eq_true, if_false]
      exact ⟨H.mul _ _ _ _ _ h3 u1 w1, H.add _ _ _ _ _ h6 (H.mul _ _ _ _ _ h4 u2 w1) (H.mul _ _ _ _ _ h5 w2 u1)⟩
    case div =>
      obtain ⟨h0, c, rfl⟩ := he
      simp only [Duals.elem, Option.bind_eq_bind, Option.bind_eq_some_iff, Option.pure_def, Option.some.injEq] at h
      obtain ⟨u, h1, w, h2, v, h3, d, h4, rfl⟩ := h
      obtain ⟨u1, u2⟩ := hl h0 h1
      have w1 : R w ((ptOf A E D i).con c) := forall₂_cyc (hc c) h2
      exact ⟨H.div _ _ _ _ _ h3 u1 w1, H.div _ _ _ _ _ h4 u2 w1⟩
  | sin e _ => exact he.elim

end DExpr

/-- The state holds values `E` and derivatives `D` as `V` says; `L` has the same lengths. -/
structure DRel (k : Nat) (R : α → T → Prop) (s : AV T) (V : Duals α) (L : Vals ℝ) (E : Vals T) (D : DVar → List T) : Prop where
  indep : s.indep = k
  con : ∀ c, (s.con c).Is (E.con c)
  conM : ∀ c, (s.con c).mp.im = false
  val : ∀ x, (s.val x).Is (E.var x)
  valM : ∀ x, (s.val x).mp.im = false
  der : ∀ x, (s.der x).Is (D x)
  conR : ∀ c, List.Forall₂ R (V.con c) (E.con c)
  varR : ∀ x, List.Forall₂ (fun a z => R a.1 z) (V.var x) (E.var x)
  derR : ∀ x, List.Forall₂ (fun a z => R a.2 z) (V.var x) (D x)
  conL : ∀ c, (L.con c).length = (V.con c).length
  varL : ∀ x, (L.var x).length = (V.var x).length

namespace DRel
variable {k : Nat} {R : α → T → Prop} {s : AV T} {V : Duals α} {L : Vals ℝ} {E : Vals T} {D : DVar → List T}

theorem im (h : DRel k R s V L E D) (e : DExpr) : e.im s = false := by
  induction e with
  | con c => exact h.conM c
  | var x => exact h.valM x
  | bin op l r hl hr => rw [DExpr.im, hl, hr]; rfl
  | sin e _ => rfl

theorem leafL (h : DRel k R s V L E D) (v : Leaf) : (L.leaf v).length = (E.leaf v).length := by
  cases v with
  | con c => exact (h.conL c).trans (h.conR c).length_eq
  | var x => exact (h.varL x).trans (h.varR x).length_eq

theorem lenL (h : DRel k R s V L E D) (e : DExpr) : L.len e = E.len e ∧ V.len e = E.len e := by
  induction e with
  | con c => exact ⟨h.leafL (.con c), (h.conR c).length_eq⟩
  | var x => exact ⟨h.leafL (.var x), (h.varR x).length_eq⟩
  | bin op l r hl hr => simp only [Vals.len, Duals.len, hl.1, hl.2, hr.1, hr.2, and_self]
  | sin e he => exact he

theorem derL (h : DRel k R s V L E D) (x : DVar) : (D x).length = (E.var x).length := by
  rw [← (h.derR x).length_eq, (h.varR x).length_eq]

theorem shows (h : DRel k R s V L E D) (e : DExpr) : Shows s E D e := by
  intro v _
  cases v with
  | con c => exact h.con c
  | var x => exact ⟨h.val x, h.der x, h.derL x⟩

/-- Change one variable. -/
theorem update (h : DRel k R s V L E D) {x : DVar} {bv bd : Buf T} {m : List (α × α)} {lv : List T} {ld : List T} {L' : Vals ℝ}
    (hv : bv.Is lv) (hm : bv.mp = (s.val x).mp) (hd : bd.Is ld) (rv : List.Forall₂ (fun a z => R a.1 z) m lv)
    (rd : List.Forall₂ (fun a z => R a.2 z) m ld) (hL : ∀ c, L'.con c = L.con c)
    (hL' : ∀ y, (L'.var y).length = if y = x then m.length else (L.var y).length) {s' : AV T}
    (hs' : s' = (s.putVal x bv).putDer x bd) :
    DRel k R s' { V with var := fun y => if y = x then m else V.var y } L'
      { E with var := fun y => if y = x then lv else E.var y } (fun y => if y = x then ld else D y) := by
  subst hs'
  refine ⟨h.indep, h.con, h.conM, ?_, ?_, ?_, h.conR, ?_, ?_, fun c => by rw [hL]; exact h.conL c, ?_⟩
  · intro y
    by_cases hy : y = x
    · subst hy; simpa using hv
    · simpa [hy, AV.val_putVal_ne] using h.val y
  · intro y
    by_cases hy : y = x
    · subst hy; simpa [hm] using h.valM y
    · simpa [hy, AV.val_putVal_ne] using h.valM y
  · intro y
    by_cases hy : y = x
    · subst hy; simpa using hd
    · simpa [hy, AV.der_putDer_ne] using h.der y
  · intro y
    by_cases hy : y = x
    · simpa [hy] using rv
    · simpa [hy] using h.varR y
  · intro y
    by_cases hy : y = x
    · simpa [hy] using rd
    · simpa [hy] using h.derR y
  · intro y
    by_cases hy : y = x
    · simp [hy, hL']
    · simpa [hy, hL'] using h.varL y

theorem exec {A : DArith T} {N : Numbers α} {inj : ℚ → T} (H : Carries A N inj R) (h : DRel k R s V L E D) {p : AV.Stmt ℚ}
    {W : Duals α} (hw : dualStep N k p V = some W) (hf : Fits L (p.map (fun q : ℚ => (q : ℝ)))) :
    ∃ s' E' D', AV.exec A (p.map inj) s = (.ok (), s') ∧
      DRel k R s' W (deval (.buffer, k) 0 (p.map (fun q : ℚ => (q : ℝ))) L) E' D' := by
  cases p with
  | setCon c l =>
    simp only [dualStep, Option.bind_eq_bind, Option.bind_eq_some_iff, Option.pure_def, Option.some.injEq] at hw
    obtain ⟨m, hm, rfl⟩ := hw
    obtain ⟨l1, l2⟩ := hf.1
    simp only [List.length_map] at l1 l2
    obtain ⟨b, e, hb, hmp⟩ := AV.setCon_ok (A := A) (s := s) (c := c) (l := l.map inj) (by simpa using l1) (by simpa using l2)
    have hml : l.length = m.length := by simpa using (allSome_get hm).1
    refine ⟨_, { E with con := fun d => if d = c then l.map inj else E.con d }, D, e,
      ⟨h.indep, ?_, ?_, h.val, h.valM, h.der, ?_, h.varR, h.derR, ?_, h.varL⟩⟩
    · intro d
      by_cases hd : d = c
      · subst hd; simpa using hb
      · simpa [hd, AV.con_putCon_ne] using h.con d
    · intro d
      by_cases hd : d = c
      · subst hd; simpa [hmp] using h.conM d
      · simpa [hd, AV.con_putCon_ne] using h.conM d
    · intro d
      by_cases hd : d = c
      · simp only [hd, if_true]
        rw [List.forall₂_iff_get]
        refine ⟨by simp [hml], fun i h1 h2 => ?_⟩
        have := (allSome_get hm).2 i h1
        have hi : i < l.length := by omega
        simp only [List.getElem?_map, List.getElem?_eq_getElem hi, Option.map_some, Option.some.injEq] at this
        simpa using H.num _ _ this
      · simpa [hd] using h.conR d
    · intro d
      by_cases hd : d = c
      · simp [deval, AV.Stmt.map, hd, hml]
      · simpa [deval, AV.Stmt.map, hd] using h.conL d
  | assign x e =>
    simp only [dualStep, Option.bind_eq_bind, Option.bind_eq_some_iff, Option.pure_def, Option.some.injEq] at hw
    obtain ⟨m, hm, rfl⟩ := hw
    obtain ⟨⟨hpoly, hnz, hconf, hlen, hne, hx, hbuf⟩, hself⟩ := hf
    have hself : Occurs x e → (L.var x).length = L.len e := hself
    obtain ⟨v0, hv0, ev0⟩ := DExpr.size_mem (s := s) (e := e)
    have hsh := h.shows e
    have e1 := (h.lenL e).1
    have e2 := (h.lenL e).2
    have h0 : ∀ v ∈ leaves e, (E.leaf v).length ≠ 0 := fun v hv => by rw [← h.leafL]; exact (hconf v hv).1
    have h1 : 1 ≤ E.len e := by
      rw [← DExpr.len_size hsh, ev0, DExpr.leaf_size hsh hv0]
      have := h0 v0 hv0
      omega
    have h2 : E.len e ≤ 2 ^ 59 := by rw [← e1]; exact hlen
    rcases e with c | y | ⟨op, l, r⟩ | e
    · obtain ⟨bv, bd, ea, hv, hmp, hd⟩ := AV.assignCon_ok (A := A) hx (h.con c) h1 h2
      simp only [newElems, Option.map_eq_some_iff] at hm
      obtain ⟨d, hd1, rfl⟩ := hm
      have hu := h.update (x := x) (m := (V.con c).map fun a => (a, d)) (bv := bv) (bd := bd)
        (L' := deval (.buffer, k) 0 ((AV.Stmt.assign x (.con c)).map (fun q : ℚ => (q : ℝ))) L) hv hmp hd
        (by rw [List.forall₂_map_left_iff]; exact h.conR c)
        (by
          rw [List.forall₂_iff_get]
          refine ⟨by simp [(h.conR c).length_eq], fun i h3 h4 => ?_⟩
          simp only [List.get_eq_getElem, List.getElem_map, List.getElem_replicate, h.indep]
          by_cases hk : x.2 = k
          · rw [if_pos hk] at hd1
            rw [if_pos hk.symm]; exact H.one _ hd1
          · rw [if_neg hk] at hd1
            rw [if_neg (fun e => hk e.symm)]; exact H.zero _ hd1)
        (fun _ => rfl) (fun y => by
          by_cases hy : y = x
          · simp [deval, AV.Stmt.map, hy, h.conL]
          · simp [deval, AV.Stmt.map, hy])
        (s' := (s.putVal x bv).putDer x bd) rfl
      refine ⟨_, _, _, ?_, hu⟩
      show (AV.assignCon A x c >>= fun _ => AV.setDims x (.con c)) s = _
      rw [M.bind_ok ea]
      exact AV.setDims_no (hu.im _)
    · have hy : y ≠ x := fun e => hne (by rw [e])
      obtain ⟨bv, bd, ea, hv, hmp, hd⟩ := AV.assignVar_ok (A := A) (by simp [hx]) hy (h.val y) (h.der y) (h.derL y) h1 h2
      simp only [newElems, Option.some.injEq] at hm
      subst hm
      have hu := h.update (x := x) (bv := bv) (bd := bd)
        (L' := deval (.buffer, k) 0 ((AV.Stmt.assign x (.var y)).map (fun q : ℚ => (q : ℝ))) L) hv hmp hd (h.varR y) (h.derR y)
        (fun _ => rfl) (fun z => by
          by_cases hz : z = x
          · simp [deval, AV.Stmt.map, hz, h.varL]
          · simp [deval, AV.Stmt.map, hz])
        (s' := (s.putVal x bv).putDer x bd) rfl
      refine ⟨_, _, _, ?_, hu⟩
      show (AV.assignVar A x y >>= fun _ => AV.setDims x (.var y)) s = _
      rw [M.bind_ok ea]
      exact AV.setDims_no (hu.im _)
    · have hs0 : ∀ v ∈ leaves (.bin op l r), v.size s ≠ 0 := fun v hv => by rw [DExpr.leaf_size hsh hv]; exact h0 v hv
      have heven : Spec.Even s (.bin op l r) := DExpr.even_of_conform (n := E.len (.bin op l r)) (by omega) (fun v hv => by
        rw [DExpr.leaf_size hsh hv, ← h.leafL, ← e1]
        exact (hconf v hv).2)
      have hn := DExpr.len_size hsh
      obtain ⟨bv, bd, ea, hv, hmp, hd⟩ := AV.assignExpr_ok (A := A) (p := DExpr.ptOf A E D)
        (fv := fun i => (DExpr.bin op l r).gVal A (DExpr.ptOf A E D i)) hx hn h1 h2
        (fun i hi => by
          rw [DExpr.elem_eq_getVal heven (DExpr.plain_num (DExpr.poly_plain hpoly)) hs0 i (by rw [hn]; exact hi)]
          exact DExpr.getVal_ok (DExpr.sees_shows hsh h0 i))
        (fun i _ => DExpr.sees_shows hsh h0 i)
        (by
          intro ho
          have := (h.der x).room (by rw [h.derL]; exact h0 _ ho)
          rw [h.derL, show (E.var x).length = _ from (h.leafL (.var x)).symm.trans ((hself ho).trans e1)] at this
          exact this)
      have hm' : allSome ((List.range (V.len (.bin op l r))).map (V.elem N (.bin op l r))) = some m := hm
      rw [e2] at hm'
      obtain ⟨m1, m2⟩ := allSome_get hm'
      simp only [List.length_map, List.length_range] at m1
      have hel : ∀ i (hi : i < m.length), V.elem N (.bin op l r) i = some m[i] := by
        intro i hi
        have := m2 i hi
        simpa [List.getElem?_range (show i < E.len (.bin op l r) by omega)] using this
      have hu := h.update (x := x) (m := m) (bv := bv) (bd := bd)
        (L' := deval (.buffer, k) 0 ((AV.Stmt.assign x (.bin op l r)).map (fun q : ℚ => (q : ℝ))) L) hv hmp hd
        (by
          rw [List.forall₂_iff_get]
          refine ⟨by simp [m1], fun i h3 h4 => ?_⟩
          simpa using (DExpr.carries_elem H h.conR h.varR h.derR hpoly i (hel i h3)).1)
        (by
          rw [List.forall₂_iff_get]
          refine ⟨by simp [m1], fun i h3 h4 => ?_⟩
          simpa using (DExpr.carries_elem H h.conR h.varR h.derR hpoly i (hel i h3)).2)
        (fun _ => rfl) (fun z => by
          by_cases hz : z = x
          · simp [deval, AV.Stmt.map, hz, e1, m1]
          · simp [deval, AV.Stmt.map, hz])
        (s' := (s.putDer x bd).putVal x bv) rfl
      refine ⟨_, _, _, ?_, hu⟩
      show AV.assign A x (.bin op l r) s = _
      rw [AV.assign_nonleaf rfl, M.bind_ok ea]
      exact AV.setDims_no (hu.im _)
    · exact hpoly.elim

theorem run {A : DArith T} {N : Numbers α} {inj : ℚ → T} (H : Carries A N inj R) {ps : List (AV.Stmt ℚ)} :
    ∀ {s V L E D W}, DRel k R s V L E D → dualSteps N k ps V = some W →
      FitsAll (.buffer, k) (ps.map (AV.Stmt.map (fun q : ℚ => (q : ℝ)))) L →
      ∃ s' E' D', AV.run A (ps.map (AV.Stmt.map inj)) s = (.ok (), s') ∧
        DRel k R s' W (devals (.buffer, k) 0 (ps.map (AV.Stmt.map (fun q : ℚ => (q : ℝ)))) L) E' D' := by
  induction ps with
  | nil =>
    intro s V L E D W h hw _
    cases hw
    exact ⟨s, E, D, rfl, h⟩
  | cons p ps ih =>
    intro s V L E D W h hw hf
    simp only [dualSteps, Option.bind_eq_bind, Option.bind_eq_some_iff] at hw
    obtain ⟨U, h1, h2⟩ := hw
    obtain ⟨f1, f2⟩ := hf
    obtain ⟨s1, E1, D1, r1, i1⟩ := h.exec H h1 f1
    obtain ⟨s2, E2, D2, r2, i2⟩ := ih i1 h2 f2
    exact ⟨s2, E2, D2, by simp only [List.map_cons, AV.run]; rw [M.bind_ok r1]; exact r2, i2⟩

theorem start (k : Nat) (kind : VKind) (R : α → T → Prop) :
    DRel k R (AV.start k kind : AV T) Duals.start Vals.start Vals.start (fun _ => []) :=
  ⟨rfl, fun _ => Buf.is_nil, fun _ => rfl, fun _ => Buf.is_nil, fun _ => rfl, fun _ => Buf.is_nil, fun _ => .nil, fun _ => .nil,
    fun _ => .nil, fun _ => rfl, fun _ => rfl⟩

theorem getDerivs (A : DArith T) (h : DRel k R s V L E D) {x : DVar} (h0 : V.var x ≠ []) :
    AV.getDerivs A x s = (.ok (D x), s) := by
  have hl : (E.var x).length ≠ 0 := by rw [← (h.varR x).length_eq]; simpa using h0
  have hv : ∀ a, a < (D x).length → DExpr.varDeriv A x a s = (.ok ((D x).getD a (A.lit 0)), s) := by
    intro a ha
    refine DExpr.varDeriv_ok (by rw [(h.der x).1, (h.val x).1, h.derL]) ?_
    rw [(h.der x).leaf (by omega), getD_lt _ _ ha]
    simp only [Nat.mod_eq_of_lt ha]
  unfold AV.getDerivs
  have ha : (M.ass ((s.val x).sz > 0) "Size has to be larger than 0" : M (AV T) Unit) s = (.ok (), s) := by
    unfold M.ass
    rw [M.lift_apply, Out.ass_pos (show (s.val x).sz > 0 by rw [(h.val x).1]; omega)]
  rw [M.bind_ok (M.get_apply s), M.bind_ok ha, (h.val x).1]
  have key : ∀ l : List Nat, (∀ i ∈ l, i < (D x).length) →
      l.mapM (fun i => DExpr.varDeriv A x i) s = (.ok (l.map (fun i => (D x).getD i (A.lit 0))), s) := by
    intro l
    induction l with
    | nil => intro _; rfl
    | cons a l ih =>
      intro hl'
      rw [List.mapM_cons, M.bind_ok (hv a (hl' a (by simp))), M.bind_ok (ih (fun i hi => hl' i (by simp [hi])))]
      rfl
  rw [key _ (fun i hi => by rw [h.derL]; exact List.mem_range.1 hi), ← h.derL x]
  congr 2
  refine List.ext_getElem (by simp) ?_
  intro i h1 h2
  rw [List.getElem_map, List.getElem_range, getD_lt _ _ h2]

end DRel
end ETR
