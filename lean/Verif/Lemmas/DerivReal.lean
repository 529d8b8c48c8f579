import Verif.Lemmas.DerivSeed
import Mathlib.Analysis.Calculus.Deriv.Add
import Mathlib.Analysis.Calculus.Deriv.Mul

/-! Programs over derivative variables, read over the real numbers. -/

namespace ETR
open Spec

namespace DExpr

theorem truth_bool {e : DExpr} (h : Piece e) (hm : Mixed e) : e.boolVal = true ↔ Truth e := by
  induction e with
  | con c => simp [boolVal, Truth]
  | var x => simp [boolVal, Truth]
  | bin op l r hl hr =>
    obtain ⟨m1, m2, m3⟩ := hm
    cases op <;> simp only [Piece] at h
    case div => simp [boolVal, Truth, DOp.isCmp]
    case add => rw [boolVal, Truth]; simpa [DOp.isCmp, hl h.1 m1, hr h.2 m2] using m3
    case sub => rw [boolVal, Truth]; simpa [DOp.isCmp, hl h.1 m1, hr h.2 m2] using m3
    case mul => rw [boolVal, Truth]; simp [DOp.isCmp, hl h.1 m1, hr h.2 m2]
    all_goals simp [boolVal, Truth, DOp.isCmp]
  | sin e he => exact h.elim

theorem piece_num {e : DExpr} (h : Piece e) : e.Num := by
  induction e with
  | con c => trivial
  | var x => trivial
  | bin op l r hl hr =>
    cases op <;> simp only [Piece] at h
    case div => obtain ⟨h1, c, rfl⟩ := h; exact ⟨hl h1, trivial⟩
    all_goals exact ⟨hl h.1, hr h.2⟩
  | sin e he => exact h.elim

theorem piece_noSin {e : DExpr} (h : Piece e) : e.NoSin := by
  induction e with
  | con c => trivial
  | var x => trivial
  | bin op l r hl hr =>
    cases op <;> simp only [Piece] at h
    case div => obtain ⟨h1, c, rfl⟩ := h; exact ⟨hl h1, trivial⟩
    all_goals exact ⟨hl h.1, hr h.2⟩
  | sin e he => exact h.elim

theorem truth_boolDer {e : DExpr} (h : Piece e) (hm : Mixed e) (hb : e.boolDer = true) : Truth e := by
  induction e with
  | con c => simp [boolDer] at hb
  | var x => simp [boolDer] at hb
  | bin op l r hl hr =>
    obtain ⟨m1, m2, m3⟩ := hm
    cases op <;> simp only [Piece] at h
    case div => obtain ⟨h1, c, rfl⟩ := h; simp [boolDer, boolVal] at hb
    case mul =>
      simp only [boolDer, Bool.and_eq_true, truth_bool h.1 m1, truth_bool h.2 m2] at hb
      exact Or.inr ⟨rfl, hb⟩
    case add =>
      simp only [boolDer, Bool.and_eq_true] at hb
      exact absurd ⟨hl h.1 m1 hb.1, hr h.2 m2 hb.2⟩ (m3 (by simp))
    case sub =>
      simp only [boolDer, Bool.and_eq_true] at hb
      exact absurd ⟨hl h.1 m1 hb.1, hr h.2 m2 hb.2⟩ (m3 (by simp))
    all_goals exact Or.inl (by simp)
  | sin e he => exact h.elim

/-- The value of a comparison is zero or one. -/
theorem truth_elem (E : Vals ℝ) (i : Nat) {e : DExpr} (h : Truth e) : E.elem e i = 0 ∨ E.elem e i = 1 := by
  induction e with
  | con c => exact h.elim
  | var x => exact h.elim
  | bin op l r hl hr =>
    cases op <;> simp only [Truth] at h
    case mul =>
      obtain ⟨_, h1, h2⟩ := h.resolve_left (by simp)
      rw [Vals.elem]
      rcases hl h1 with e1 | e1 <;> rcases hr h2 with e2 | e2 <;> rw [e1, e2] <;> simp
    case add => simp at h
    case sub => simp at h
    case div => simp at h
    all_goals
      rw [Vals.elem]
      split
      · exact Or.inr rfl
      · exact Or.inl rfl
  | sin e he => exact h.elim

theorem real_conv01 {b : Bool} {x : ℝ} (h : b = true → x = 0 ∨ x = 1) : DArith.real.conv b x = x := by
  cases b with
  | false => rfl
  | true =>
    show (if decide (x ≠ 0) then ((1 : ℤ) : ℝ) else ((0 : ℤ) : ℝ)) = x
    rcases h rfl with rfl | rfl <;> simp

theorem real_ofBool {p : Prop} [Decidable p] {b : Bool} (h : b = true ↔ p) :
    DArith.real.ofBool b = if p then (1 : ℝ) else 0 := by
  show (if b = true then ((1 : ℤ) : ℝ) else ((0 : ℤ) : ℝ)) = _
  by_cases hp : p
  · rw [if_pos (h.2 hp), if_pos hp]; norm_num
  · rw [if_neg (fun hb => hp (h.1 hb)), if_neg hp]; norm_num

theorem real_gVal {E : Vals ℝ} {p : Pt ℝ} {i : Nat} (hc : ∀ c, p.con c = pick (E.con c) i)
    (hv : ∀ x, p.var x = pick (E.var x) i) {e : DExpr} (h : Piece e) (hm : Mixed e) : e.gVal DArith.real p = E.elem e i := by
  induction e with
  | con c => exact hc c
  | var x => exact hv x
  | bin op l r hl hr =>
    have hB := fun (h : Piece l) (h' : Piece r) => (Bool.and_eq_true l.boolVal r.boolVal).trans
      (by rw [truth_bool h hm.1, truth_bool h' hm.2.1])
    obtain ⟨m1, m2, m3⟩ := hm
    cases op <;> simp only [Piece] at h
    case add =>
      rw [gVal, hl h.1 m1, hr h.2 m2]
      exact real_conv01 (fun hb => absurd ((hB h.1 h.2).mp hb) (m3 (by simp)))
    case sub =>
      rw [gVal, hl h.1 m1, hr h.2 m2]
      exact real_conv01 (fun hb => absurd ((hB h.1 h.2).mp hb) (m3 (by simp)))
    case mul =>
      rw [gVal, hl h.1 m1, hr h.2 m2]
      exact real_conv01 (fun hb => truth_elem E i (e := .bin .mul l r) (Or.inr ⟨rfl, (hB h.1 h.2).mp hb⟩))
    case div =>
      obtain ⟨h1, c, rfl⟩ := h
      rw [gVal, hl h1 m1, hr trivial trivial]; rfl
    all_goals
      rw [gVal, hl h.1 m1, hr h.2 m2, Vals.elem]
      exact real_ofBool (by simp [DArith.real, Arith.field])
  | sin e he => exact h.elim

/-- A function that is locally constant has the derivative zero. -/
theorem deriv_locally {P : ℝ → Prop} [∀ t, Decidable (P t)] (h : ∀ᶠ t in nhds 0, P t ↔ P 0) :
    HasDerivAt (fun t => if P t then (1 : ℝ) else 0) 0 0 := by
  refine (hasDerivAt_const (0 : ℝ) (if P 0 then (1 : ℝ) else 0)).congr_of_eventuallyEq ?_
  filter_upwards [h] with t ht
  simp only [ht]

theorem steady_lt {f g : ℝ → ℝ} (hf : ContinuousAt f 0) (hg : ContinuousAt g 0) (h : f 0 ≠ g 0) :
    ∀ᶠ t in nhds 0, (f t < g t ↔ f 0 < g 0) ∧ (f t ≤ g t ↔ f 0 ≤ g 0) := by
  rcases lt_or_gt_of_ne h with h | h
  · filter_upwards [hf.eventually_lt hg h] with t ht
    exact ⟨iff_of_true ht h, iff_of_true ht.le h.le⟩
  · filter_upwards [hg.eventually_lt hf h] with t ht
    exact ⟨iff_of_false (not_lt.2 ht.le) (not_lt.2 h.le), iff_of_false (not_le.2 ht) (not_le.2 h)⟩

/-- The derivative computed by the code is the derivative of the value. -/
theorem real_gDer {F : ℝ → Vals ℝ} {p : Pt ℝ} {i n : Nat} (hi : i < n) (hc : ∀ c, p.con c = pick ((F 0).con c) i)
    (hv : ∀ x, p.var x = pick ((F 0).var x) i) (hcon : ∀ t c, (F t).con c = (F 0).con c)
    (hd : ∀ x, HasDerivAt (fun t => pick ((F t).var x) i) (p.der x) 0) {e : DExpr} (h : Piece e) (hm : Mixed e)
    (hs : Steady (F 0) n e) :
    HasDerivAt (fun t => (F t).elem e i) (e.gDer DArith.real p) 0 ∧ (Truth e → e.gDer DArith.real p = 0) := by
  have val := fun (e : DExpr) (h : Piece e) (h' : Mixed e) => real_gVal (E := F 0) hc hv h h'
  have e0 : (DArith.real.lit 0 : ℝ) = 0 := by
    show ((0 : ℤ) : ℝ) = 0
    norm_num
  induction e with
  | con c =>
    have : (fun t => (F t).elem (.con c) i) = fun _ => pick ((F 0).con c) i := by
      funext t
      show pick ((F t).con c) i = _
      rw [hcon]
    rw [this]
    refine ⟨?_, fun h => h.elim⟩
    show HasDerivAt _ (DArith.real.lit 0) 0
    rw [e0]
    exact hasDerivAt_const _ _
  | var x => exact ⟨hd x, fun h => h.elim⟩
  | bin op l r hl hr =>
    obtain ⟨m1, m2, m3⟩ := hm
    obtain ⟨s1, s2, s3, s4⟩ := hs
    have hD := fun (h : Piece l) (h' : Piece r) (hb : (l.boolDer && r.boolDer) = true) =>
      And.intro (truth_boolDer h m1 ((Bool.and_eq_true _ _).mp hb).1) (truth_boolDer h' m2 ((Bool.and_eq_true _ _).mp hb).2)
    cases op <;> simp only [Piece] at h
    case add =>
      have := (hl h.1 m1 s1).1.add (hr h.2 m2 s2).1
      have e0 : gDer DArith.real p (bin .add l r) = gDer DArith.real p l + gDer DArith.real p r := by
        rw [gDer]; exact real_conv01 (fun hb => absurd (hD h.1 h.2 hb) (m3 (by simp)))
      rw [e0]; exact ⟨this, fun h => by simp [Truth] at h⟩
    case sub =>
      have := (hl h.1 m1 s1).1.sub (hr h.2 m2 s2).1
      have e0 : gDer DArith.real p (bin .sub l r) = gDer DArith.real p l - gDer DArith.real p r := by
        rw [gDer]; exact real_conv01 (fun hb => absurd (hD h.1 h.2 hb) (m3 (by simp)))
      rw [e0]; exact ⟨this, fun h => by simp [Truth] at h⟩
    case mul =>
      have := (hl h.1 m1 s1).1.mul (hr h.2 m2 s2).1
      have zero : Truth l → Truth r → gDer DArith.real p l * gVal DArith.real p r + gDer DArith.real p r * gVal DArith.real p l
          = 0 := by
        intro t1 t2
        rw [(hl h.1 m1 s1).2 t1, (hr h.2 m2 s2).2 t2]; ring
      have e1 : gDer DArith.real p (bin .mul l r)
          = gDer DArith.real p l * gVal DArith.real p r + gDer DArith.real p r * gVal DArith.real p l := by
        rw [gDer]
        refine real_conv01 (fun hb => Or.inl ?_)
        rw [Bool.and_eq_true, truth_bool h.1 m1, truth_bool h.2 m2] at hb
        exact zero hb.1 hb.2
      refine ⟨?_, ?_⟩
      · rw [e1, val l h.1 m1, val r h.2 m2]
        have e2 : gDer DArith.real p l * (F 0).elem r i + gDer DArith.real p r * (F 0).elem l i
            = gDer DArith.real p l * (F 0).elem r i + (F 0).elem l i * gDer DArith.real p r := by ring
        rw [e2]; exact this
      · intro ht
        have := ht.resolve_left (by simp)
        rw [e1]; exact zero this.2.1 this.2.2
    case div =>
      obtain ⟨h1, c, rfl⟩ := h
      have := (hl h1 m1 s1).1.div_const (p.con c)
      have e1 : (fun t => (F t).elem (bin .div l (con c)) i) = fun t => (F t).elem l i / p.con c := by
        funext t
        show (F t).elem l i / pick ((F t).con c) i = _
        rw [hcon, ← hc]
      rw [e1]
      exact ⟨this, fun h => by simp [Truth] at h⟩
    all_goals
      have cl := (hl h.1 m1 s1).1.continuousAt
      have cr := (hr h.2 m2 s2).1.continuousAt
    case lt =>
      have g0 : gDer DArith.real p (bin .lt l r) = 0 := e0
      refine ⟨?_, fun _ => g0⟩
      rw [g0]
      exact deriv_locally ((steady_lt cl cr (s3 (by simp) i hi)).mono (fun t ht => ht.1))
    case gt =>
      have g0 : gDer DArith.real p (bin .gt l r) = 0 := e0
      refine ⟨?_, fun _ => g0⟩
      rw [g0]
      exact deriv_locally ((steady_lt cr cl (s3 (by simp) i hi).symm).mono (fun t ht => ht.1))
    case le =>
      have g0 : gDer DArith.real p (bin .le l r) = 0 := e0
      refine ⟨?_, fun _ => g0⟩
      rw [g0]
      exact deriv_locally ((steady_lt cl cr (s3 (by simp) i hi)).mono (fun t ht => ht.2))
    case ge =>
      have g0 : gDer DArith.real p (bin .ge l r) = 0 := e0
      refine ⟨?_, fun _ => g0⟩
      rw [g0]
      exact deriv_locally ((steady_lt cr cl (s3 (by simp) i hi).symm).mono (fun t ht => ht.2))
    case eq =>
      have g0 : gDer DArith.real p (bin .eq l r) = 0 := e0
      refine ⟨?_, fun _ => g0⟩
      rw [g0]
      exact deriv_locally ((steady_lt (cl.sub cr).abs continuousAt_const (s4 (by simp) i hi)).mono (fun t ht => ht.1))
    case ne =>
      have g0 : gDer DArith.real p (bin .ne l r) = 0 := e0
      refine ⟨?_, fun _ => g0⟩
      rw [g0]
      exact deriv_locally ((steady_lt continuousAt_const (cl.sub cr).abs (s4 (by simp) i hi).symm).mono (fun t ht => ht.1))
  | sin e he => exact h.elim

theorem poly_piece {e : DExpr} (h : Poly e) : Piece e ∧ ¬ Truth e ∧ Mixed e ∧ ∀ (E : Vals ℝ) n, Steady E n e := by
  induction e with
  | con c => exact ⟨trivial, fun h => h.elim, trivial, fun _ _ => trivial⟩
  | var x => exact ⟨trivial, fun h => h.elim, trivial, fun _ _ => trivial⟩
  | bin op l r hl hr =>
    cases op <;> simp only [Poly] at h
    case div =>
      obtain ⟨h1, c, rfl⟩ := h
      have i1 := hl h1
      exact ⟨⟨i1.1, c, rfl⟩, by simp [Truth], ⟨i1.2.2.1, trivial, by simp⟩, fun E n => ⟨i1.2.2.2 E n, trivial, by simp, by simp⟩⟩
    all_goals
      have i1 := hl h.1
      have i2 := hr h.2
      exact ⟨⟨i1.1, i2.1⟩, by simp [Truth, i1.2.1], ⟨i1.2.2.1, i2.2.2.1, fun _ ht => i1.2.1 ht.1⟩,
        fun E n => ⟨i1.2.2.2 E n, i2.2.2.2 E n, by simp, by simp⟩⟩
  | sin e he => exact h.elim

end DExpr

theorem pick_getD {l : List ℝ} {i n : Nat} (h : l.length = n ∨ l.length = 1) (h0 : l.length ≠ 0) (hi : i < n) :
    l[i % l.length]'(Nat.mod_lt _ (Nat.pos_of_ne_zero h0)) = pick l i := by
  unfold pick
  split
  · rename_i h1
    rw [getD_lt _ _ (by omega)]
    simp only [h1, Nat.mod_one]
  · rename_i h1
    have : l.length = n := by tauto
    rw [getD_lt _ _ (by omega)]
    simp only [this, Nat.mod_eq_of_lt hi]

/-- The state of the variables matches the family of values `F`, and the stored derivatives `D` are its derivatives at zero.  The
variables in `P` were given a value, but no derivative. -/
structure DInv (k : DVar) (s : AV ℝ) (F : ℝ → Vals ℝ) (D : DVar → List ℝ) (P : DVar → Prop := fun _ => False) : Prop where
  kind : k.2 = s.indep
  con : ∀ c, (s.con c).Is ((F 0).con c)
  conC : ∀ t c, (F t).con c = (F 0).con c
  conM : ∀ c, (s.con c).mp.im = false
  val : ∀ x, (s.val x).Is ((F 0).var x)
  valL : ∀ t x, ((F t).var x).length = ((F 0).var x).length
  valM : ∀ x, (s.val x).mp.im = false
  der : ∀ x, ¬ P x → (s.der x).Is (D x)
  pend : ∀ x, P x → s.der x = {} ∧ (x.2 = k.2 → x = k) ∧ D x = List.replicate ((F 0).var x).length (if x = k then 1 else 0) ∧
    1 ≤ ((F 0).var x).length ∧ ((F 0).var x).length ≤ 2 ^ 59
  flag : P k → s.derivInit = false
  derL : ∀ x, (D x).length = ((F 0).var x).length
  derD : ∀ x i, HasDerivAt (fun t => ((F t).var x).getD i 0) ((D x).getD i 0) 0

namespace DInv
variable {k : DVar} {s : AV ℝ} {F : ℝ → Vals ℝ} {D : DVar → List ℝ} {P : DVar → Prop}

theorem im (h : DInv k s F D P) (e : DExpr) : e.im s = false := by
  induction e with
  | con c => exact h.conM c
  | var x => exact h.valM x
  | bin op l r hl hr => rw [DExpr.im, hl, hr]; rfl
  | sin e _ => rfl

theorem leafSize (h : DInv k s F D P) (v : Leaf) : v.size s = ((F 0).leaf v).length := by
  cases v with
  | con c => exact (h.con c).1
  | var x => exact (h.val x).1

theorem size (h : DInv k s F D P) (e : DExpr) : e.size s = (F 0).len e := by
  induction e with
  | con c => exact (h.con c).1
  | var x => exact (h.val x).1
  | bin op l r hl hr => rw [DExpr.size, Vals.len, hl, hr]; split <;> omega
  | sin e he => exact he

theorem len (h : DInv k s F D P) (t : ℝ) (e : DExpr) : (F t).len e = (F 0).len e := by
  induction e with
  | con c => rw [Vals.len, Vals.len, h.conC]
  | var x => exact h.valL t x
  | bin op l r hl hr => rw [Vals.len, Vals.len, hl, hr]
  | sin e he => exact he

/-- The operand elements at index `i`. -/
noncomputable def pt (F : ℝ → Vals ℝ) (D : DVar → List ℝ) (i : Nat) : Pt ℝ where
  con c := pick ((F 0).con c) i
  var x := pick ((F 0).var x) i
  der x := pick (D x) i

theorem sees (h : DInv k s F D P) {e : DExpr} (hc : Conform (F 0) e) (hP : ∀ x, Occurs x e → ¬ P x) {i : Nat}
    (hi : i < (F 0).len e) : DExpr.SeesAt s (pt F D i) e i := by
  have hq : ∀ x, Leaf.var x ∈ leaves e → ¬ P x := hP
  refine ⟨?_, ?_, ?_, ?_⟩
  · intro c hm
    obtain ⟨h0, h1⟩ := hc _ hm
    change ((F 0).con c).length ≠ 0 at h0
    rw [(h.con c).leaf h0]
    exact congrArg Out.ok (pick_getD h1 h0 hi)
  · intro x hm
    obtain ⟨h0, h1⟩ := hc _ hm
    change ((F 0).var x).length ≠ 0 at h0
    rw [(h.val x).leaf h0]
    exact congrArg Out.ok (pick_getD h1 h0 hi)
  · intro x hm
    rw [(h.der x (hq x hm)).1, (h.val x).1, h.derL]
  · intro x hm
    obtain ⟨h0, h1⟩ := hc _ hm
    have e : ((F 0).leaf (.var x)).length = (D x).length := (h.derL x).symm
    rw [e] at h0 h1
    rw [(h.der x (hq x hm)).leaf h0]
    exact congrArg Out.ok (pick_getD h1 h0 hi)

theorem pickD (h : DInv k s F D P) (x : DVar) (i : Nat) :
    HasDerivAt (fun t => pick ((F t).var x) i) (pick (D x) i) 0 := by
  by_cases h1 : ((F 0).var x).length = 1
  · have e1 : (fun t => pick ((F t).var x) i) = fun t => ((F t).var x).getD 0 0 := by
      funext t; unfold pick; rw [if_pos (by rw [h.valL, h1])]
    have e2 : pick (D x) i = (D x).getD 0 0 := by unfold pick; rw [if_pos (by rw [h.derL, h1])]
    rw [e1, e2]; exact h.derD x 0
  · have e1 : (fun t => pick ((F t).var x) i) = fun t => ((F t).var x).getD i 0 := by
      funext t; unfold pick; rw [if_neg (by rw [h.valL]; exact h1)]
    have e2 : pick (D x) i = (D x).getD i 0 := by unfold pick; rw [if_neg (by rw [h.derL]; exact h1)]
    rw [e1, e2]; exact h.derD x i

/-- Change one variable. -/
theorem update (h : DInv k s F D P) {x : DVar} {bv bd : Buf ℝ} {G : ℝ → List ℝ} {d : List ℝ} (hv : bv.Is (G 0))
    (hl : ∀ t, (G t).length = (G 0).length) (hm : bv.mp = (s.val x).mp) (hd : bd.Is d) (hdl : d.length = (G 0).length)
    (hD : ∀ i, HasDerivAt (fun t => (G t).getD i 0) (d.getD i 0) 0) {s' : AV ℝ} (hs' : s' = (s.putVal x bv).putDer x bd) :
    DInv k s' (fun t => { F t with var := fun y => if y = x then G t else (F t).var y })
      (fun y => if y = x then d else D y) (fun y => P y ∧ y ≠ x) := by
  subst hs'
  refine ⟨h.kind, h.con, h.conC, h.conM, ?_, ?_, ?_, ?_, ?_, fun hk => h.flag hk.1, ?_, ?_⟩
  · intro y
    by_cases hy : y = x
    · subst hy; simpa using hv
    · simpa [hy, AV.val_putVal_ne] using h.val y
  · intro t y
    by_cases hy : y = x
    · simpa [hy] using hl t
    · simpa [hy] using h.valL t y
  · intro y
    by_cases hy : y = x
    · subst hy; simpa [hm] using h.valM y
    · simpa [hy, AV.val_putVal_ne] using h.valM y
  · intro y hp
    by_cases hy : y = x
    · subst hy; simpa using hd
    · simpa [hy, AV.der_putDer_ne] using h.der y (fun hP => hp ⟨hP, hy⟩)
  · rintro y ⟨hp, hy⟩
    simpa [hy, AV.der_putDer_ne] using h.pend y hp
  · intro y
    by_cases hy : y = x
    · simpa [hy] using hdl
    · simpa [hy] using h.derL y
  · intro y i
    by_cases hy : y = x
    · simpa [hy] using hD i
    · simpa [hy] using h.derD y i

end DInv

theorem hasDerivAt_out {f : ℝ → List ℝ} {l : List ℝ} {n i : Nat} (h1 : ∀ t, (f t).length = n) (h2 : l.length = n)
    (hi : n ≤ i) : HasDerivAt (fun t => (f t).getD i 0) (l.getD i 0) 0 := by
  have e1 : (fun t => (f t).getD i 0) = fun _ => (0 : ℝ) := by
    funext t
    simp only [List.getD, List.getElem?_eq_none (show (f t).length ≤ i by rw [h1]; exact hi), Option.getD_none]
  have e2 : l.getD i 0 = 0 := by
    simp only [List.getD, List.getElem?_eq_none (show l.length ≤ i by omega), Option.getD_none]
  rw [e1, e2]
  exact hasDerivAt_const _ _

namespace DInv
variable {k : DVar} {s : AV ℝ} {F : ℝ → Vals ℝ} {D : DVar → List ℝ} {P : DVar → Prop}

theorem congrP (h : DInv k s F D P) {Q : DVar → Prop} (hq : ∀ y, Q y ↔ P y) : DInv k s F D Q := by
  have : Q = P := by funext y; exact propext (hq y)
  rw [this]; exact h

/-- The first use of the derivative of a variable. -/
theorem seed1 (h : DInv k s F D P) (x : DVar) : DInv k (AV.seed1 DArith.real s x) F D (fun y => P y ∧ y ≠ x) := by
  by_cases hP : P x
  swap
  · rw [AV.seed1_eq (by rw [(h.der x hP).1, (h.val x).1, h.derL])]
    exact h.congrP (fun y => ⟨fun hy => hy.1, fun hy => ⟨hy, fun e => hP (e ▸ hy)⟩⟩)
  obtain ⟨p1, p2, p3, p4, p5⟩ := h.pend x hP
  have hsz := (h.val x).1
  obtain ⟨b, e, hb, hr⟩ := Buf.resize_new (DArith.real.lit 0) (n := (s.val x).sz) (by omega) (by omega)
  obtain ⟨b', e', hr', hb', _⟩ := AV.fill_ok (v := DArith.real.lit 1) hr
  have e1 : (DArith.real.lit 1 : ℝ) = 1 := by show ((1 : ℤ) : ℝ) = 1; norm_num
  have e0 : (DArith.real.lit 0 : ℝ) = 0 := by show ((0 : ℤ) : ℝ) = 0; norm_num
  rw [e0] at hb
  rw [e1] at hb'
  have hkx : (x.2 = s.indep) ↔ x = k := by
    rw [← h.kind]
    exact ⟨p2, fun e => by rw [e]⟩
  have hne : (s.der x).sz ≠ (s.val x).sz := by rw [p1, hsz]; show 0 ≠ _; omega
  have main : ∃ bd : Buf ℝ, bd.Is (D x) ∧ (AV.seed1 DArith.real s x).der = (s.putDer x bd).der ∧
      (P k → k ≠ x → (AV.seed1 DArith.real s x).derivInit = false) := by
    unfold AV.seed1
    rw [if_neg hne, p1, e]
    by_cases hk : x = k
    · have hc : x.2 = s.indep ∧ s.derivInit = false := ⟨hkx.2 hk, h.flag (hk ▸ hP)⟩
      simp only [if_pos hc, e']
      refine ⟨b', ?_, rfl, fun _ hn => absurd hk.symm hn⟩
      rw [p3, if_pos hk, ← hsz]; exact hb'
    · have hc : ¬ (x.2 = s.indep ∧ s.derivInit = false) := fun hc => hk (hkx.1 hc.1)
      simp only [if_neg hc]
      refine ⟨b, ?_, rfl, fun hPk _ => h.flag hPk⟩
      rw [p3, if_neg hk, ← hsz]; exact hb
  obtain ⟨bd, hbd, hder, hfl⟩ := main
  refine ⟨?_, ?_, h.conC, ?_, ?_, h.valL, ?_, ?_, ?_, ?_, h.derL, h.derD⟩
  · rw [AV.seed1_indep]; exact h.kind
  · rw [AV.seed1_con]; exact h.con
  · rw [AV.seed1_con]; exact h.conM
  · rw [AV.seed1_val]; exact h.val
  · rw [AV.seed1_val]; exact h.valM
  · intro y hy
    rw [hder]
    by_cases hyx : y = x
    · subst hyx; simpa using hbd
    · rw [AV.der_putDer_ne _ _ hyx]; exact h.der y (fun hP' => hy ⟨hP', hyx⟩)
  · rintro y ⟨hy, hyx⟩
    rw [hder, AV.der_putDer_ne _ _ hyx]
    exact h.pend y hy
  · rintro ⟨hk, hkx'⟩
    exact hfl hk hkx'

/-- The first use of the derivatives of operands. -/
theorem seeds (h : DInv k s F D P) (L : List Leaf) :
    DInv k (AV.seeds DArith.real s L) F D (fun y => P y ∧ Leaf.var y ∉ L) := by
  induction L generalizing s P with
  | nil => exact h.congrP (fun y => by simp)
  | cons v L ih =>
    cases v with
    | con c => exact (ih h).congrP (fun y => by simp)
    | var x => exact (ih (h.seed1 x)).congrP (fun y => by simp [and_assoc])

theorem exec (h : DInv k s F D P) {p : AV.Stmt ℝ} (hp : FitsKinds k (F 0) p) (hmix : StmtMixed p) (hnew : FirstUse P p) :
    ∃ s' D', AV.exec DArith.real p s = (.ok (), s') ∧ DInv k s' (fun t => deval k t p (F t)) D' (stillNew P p) := by
  cases p with
  | setCon c l =>
    obtain ⟨b, e, hb, hm⟩ := AV.setCon_ok (A := DArith.real) (s := s) (c := c) hp.1 hp.2
    refine ⟨_, D, e, ⟨h.kind, ?_, ?_, ?_, h.val, h.valL, h.valM, h.der, h.pend, h.flag, h.derL, h.derD⟩⟩
    · intro d
      by_cases hd : d = c
      · subst hd; simpa [deval] using hb
      · simpa [deval, hd, AV.con_putCon_ne] using h.con d
    · intro t d
      by_cases hd : d = c
      · simp [deval, hd]
      · simpa [deval, hd] using h.conC t d
    · intro d
      by_cases hd : d = c
      · subst hd; simpa [hm] using h.conM d
      · simpa [hd, AV.con_putCon_ne] using h.conM d
  | assign x e =>
    obtain ⟨hpoly, hst, hnz, hconf, hlen, hne, hx, hk, hp'⟩ := hp
    change Mixed e at hmix
    obtain ⟨v0, hv0, ev0⟩ := DExpr.size_mem (s := s) (e := e)
    have h1 : 1 ≤ (F 0).len e := by
      rw [← h.size, ev0, h.leafSize]
      have := (hconf v0 hv0).1
      omega
    rcases e with c | y | ⟨op, l, r⟩ | e
    · -- a constant
      have hx : x.1 = .buffer := hx.resolve_right (by rintro ⟨_, y, e⟩; cases e)
      obtain ⟨bv, bd, ea, hv, hm, hd⟩ := AV.assignCon_ok (A := DArith.real) hx (h.con c) h1 hlen
      have hkx : (x = k) ↔ s.indep = x.2 := by
        rw [← h.kind]
        constructor
        · intro e; rw [e]
        · intro e; exact hk ⟨c, rfl⟩ e.symm
      have hu := h.update (x := x) (G := fun t => ((F t).con c).map (fun a => a + if x = k then t else 0))
        (d := List.replicate ((F 0).con c).length (if s.indep = x.2 then 1 else 0)) (bv := bv) (bd := bd)
        (by simpa using hv) (fun t => by simp [h.conC]) hm
        (by
          have e1 : (DArith.real.lit 1 : ℝ) = 1 := by show ((1 : ℤ) : ℝ) = 1; norm_num
          have e0 : (DArith.real.lit 0 : ℝ) = 0 := by show ((0 : ℤ) : ℝ) = 0; norm_num
          rw [e1, e0] at hd; exact hd)
        (by simp) (by
          intro i
          by_cases hi : i < ((F 0).con c).length
          · have e1 : (fun t => (((F t).con c).map (fun a => a + if x = k then t else 0)).getD i 0)
                = fun t => ((F 0).con c)[i] + if x = k then t else 0 := by
              funext t
              rw [h.conC t c, getD_lt _ _ (by simpa using hi)]
              simp
            rw [e1, getD_lt _ _ (by simpa using hi), List.getElem_replicate]
            by_cases hk : x = k
            · simp only [if_pos hk, if_pos (hkx.1 hk)]
              exact (hasDerivAt_id' (0 : ℝ)).const_add _
            · simp only [if_neg hk, if_neg (fun e => hk (hkx.2 e))]
              exact hasDerivAt_const _ _
          · exact hasDerivAt_out (n := ((F 0).con c).length) (fun t => by simp [h.conC]) (by simp) (by omega))
        (s' := (s.putVal x bv).putDer x bd) rfl
      refine ⟨_, _, ?_, hu.congrP (fun y => by simp [stillNew, Occurs, leaves])⟩
      show (AV.assignCon DArith.real x c >>= fun _ => AV.setDims x (.con c)) s = _
      rw [M.bind_ok ea]
      exact AV.setDims_no (hu.im _)
    · -- a copy
      have hy : y ≠ x := fun e => hne (by rw [e])
      have hx : x.1 ≠ .borrow := by rcases hx with e | e <;> simp [e]
      have hs := h.seed1 y
      obtain ⟨bv, bd, ea, hv, hm, hd⟩ := AV.assignVar_seed (A := DArith.real) hx hy (h.val y) (hs.der y (by simp)) (h.derL y)
        h1 hlen
      have hu := hs.update (x := x) (G := fun t => (F t).var y) (d := D y) (bv := bv) (bd := bd) hv
        (fun t => h.valL t y) (by rw [AV.seed1_val]; exact hm) hd (h.derL y) (fun i => h.derD y i)
        (s' := ((AV.seed1 DArith.real s y).putVal x bv).putDer x bd) rfl
      refine ⟨_, _, ?_, hu.congrP (fun z => ?_)⟩
      · show (AV.assignVar DArith.real x y >>= fun _ => AV.setDims x (.var y)) s = _
        rw [M.bind_ok ea]
        exact AV.setDims_no (hu.im _)
      · simp only [stillNew, Occurs, leaves, List.mem_singleton, Leaf.var.injEq]
        tauto
    · -- an expression
      have hx : x.1 = .buffer := hx.resolve_right (by rintro ⟨_, y, e⟩; cases e)
      have hs := h.seeds (leaves (.bin op l r))
      have hnP : ∀ y, Occurs y (.bin op l r) → ¬ (P y ∧ Leaf.var y ∉ leaves (.bin op l r)) := fun y hy hq => hq.2 hy
      have heven : Spec.Even s (.bin op l r) := DExpr.even_of_conform (n := (F 0).len (.bin op l r)) (by omega) (by
        intro v hv
        rw [h.leafSize]; exact (hconf v hv).2)
      have hsees := fun i (hi : i < (F 0).len (.bin op l r)) => hs.sees hconf hnP hi
      have hval : ∀ i, i < (F 0).len (.bin op l r) →
          DExpr.elem DArith.real s (.bin op l r) i = .ok ((F 0).elem (.bin op l r) i) := by
        intro i hi
        rw [DExpr.elem_eq_getVal heven (DExpr.piece_num hpoly) (fun v hv => by rw [h.leafSize]; exact (hconf v hv).1) i
            (by rw [h.size]; exact hi),
          DExpr.getVal_congr (s := s) (s' := AV.seeds DArith.real s (leaves (.bin op l r))) (by simp) (by simp),
          DExpr.getVal_ok (hsees i hi), DExpr.real_gVal (E := F 0) (fun _ => rfl) (fun _ => rfl) hpoly hmix]
      have hroom : Occurs x (.bin op l r) → (s.der x).Room ((F 0).len (.bin op l r)) := by
        intro ho
        have hd := h.der x (fun hP => hnew hP ho)
        have := hd.room (by rw [h.derL, hp' ho]; omega)
        rw [h.derL, hp' ho] at this
        exact this
      obtain ⟨bv, bd, ea, hv, hm, hd⟩ := AV.assignExpr_ok (A := DArith.real) (p := pt F D)
        (fv := (F 0).elem (.bin op l r)) hx (hs.size _) h1 hlen
        (by
          intro i hi
          rw [DExpr.elem_congr (s := AV.seeds DArith.real s (leaves (.bin op l r))) (s' := s) (by simp) (by simp)]
          exact hval i hi)
        hsees
        (by
          intro ho
          have hd := hs.der x (hnP x ho)
          have := hd.room (by rw [h.derL, hp' ho]; omega)
          rw [h.derL, hp' ho] at this
          exact this)
      have hu := hs.update (x := x) (G := fun t => (List.range ((F t).len (.bin op l r))).map ((F t).elem (.bin op l r)))
        (d := (List.range ((F 0).len (.bin op l r))).map (fun i => DExpr.gDer DArith.real (pt F D i) (.bin op l r)))
        (bv := bv) (bd := bd) hv (fun t => by simp [h.len t]) hm hd (by simp) (by
          intro i
          by_cases hi : i < (F 0).len (.bin op l r)
          · have e1 : (fun t => ((List.range ((F t).len (.bin op l r))).map ((F t).elem (.bin op l r))).getD i 0)
                = fun t => (F t).elem (.bin op l r) i := by
              funext t
              rw [h.len t, getD_lt _ _ (by simpa using hi)]
              simp
            rw [e1, getD_lt _ _ (by simpa using hi)]
            simp only [List.getElem_map, List.getElem_range]
            exact (DExpr.real_gDer hi (fun _ => rfl) (fun _ => rfl) h.conC (fun x => h.pickD x i) hpoly hmix hst).1
          · exact hasDerivAt_out (n := (F 0).len (.bin op l r)) (fun t => by simp [h.len t]) (by simp) (by omega))
        (s' := ((AV.seeds DArith.real s (leaves (.bin op l r))).putDer x bd).putVal x bv) rfl
      refine ⟨_, _, ?_, hu.congrP (fun z => ?_)⟩
      · show (AV.assignExpr DArith.real x (.bin op l r) >>= fun _ => AV.setDims x (.bin op l r)) s = _
        have hsd := AV.assignExpr_seeds (A := DArith.real) (s := s) (x := x) (p := pt F D 0) (e := .bin op l r)
          (fv := (F 0).elem (.bin op l r)) (DExpr.piece_noSin hpoly)
          (by
            intro y hy
            have := hconf _ hy
            simp only [Vals.leaf] at this
            rw [(h.val y).1]
            omega)
          (by rw [h.size]; exact h1) (by rw [h.size]; exact hlen) (by rw [h.size]; exact hval) (hsees 0 (by omega))
          (by
            by_cases ho : Occurs x (.bin op l r)
            · refine Or.inr ⟨by rw [h.size]; exact hroom ho, by rw [h.size, (h.val x).1]; exact hp' ho⟩
            · exact Or.inl ho)
        rw [M.bind_ok (hsd.trans ea)]
        exact AV.setDims_no (hu.im _)
      · simp only [stillNew, Occurs]
        tauto
    · exact hpoly.elim

theorem runKinds {ps : List (AV.Stmt ℝ)} (h : DInv k s F D P) (hp : FitsKindsAll k ps (F 0)) (hm : ∀ p ∈ ps, StmtMixed p)
    (hn : FirstUses P ps) :
    ∃ s' D' Q, AV.run DArith.real ps s = (.ok (), s') ∧ DInv k s' (fun t => devals k t ps (F t)) D' Q ∧ ∀ y, Q y → P y := by
  induction ps generalizing s F D P with
  | nil => exact ⟨s, D, P, rfl, h, fun _ hy => hy⟩
  | cons p ps ih =>
    obtain ⟨s1, D1, e1, h1⟩ := h.exec hp.1 (hm p (by simp)) hn.1
    obtain ⟨s2, D2, Q, e2, h2, h3⟩ := ih h1 hp.2 (fun q hq => hm q (by simp [hq])) hn.2
    refine ⟨s2, D2, Q, by rw [AV.run, M.bind_ok e1, e2], h2, ?_⟩
    intro y hy
    have := h3 y hy
    cases p with
    | setCon c l => exact this
    | assign x e => exact this.1

theorem fitsKinds (hk : k.1 = .buffer) {ps : List (AV.Stmt ℝ)} {E : Vals ℝ} (h : FitsPieceAll k ps E) : FitsKindsAll k ps E := by
  induction ps generalizing E with
  | nil => trivial
  | cons p ps ih =>
    refine ⟨?_, ih h.2⟩
    cases p with
    | setCon c l => exact h.1
    | assign x e =>
      obtain ⟨h1, h2, h3, h4, h5, h6, h7, _, h9⟩ := h.1
      exact ⟨h1, h2, h3, h4, h5, h6, Or.inl h7, fun _ e => Prod.ext (h7.trans hk.symm) e, h9⟩

theorem runNew {ps : List (AV.Stmt ℝ)} (h : DInv k s F D P) (hk : k.1 = .buffer) (hp : FitsPieceAll k ps (F 0))
    (hm : ∀ p ∈ ps, StmtMixed p) (hn : FirstUses P ps) :
    ∃ s' D' Q, AV.run DArith.real ps s = (.ok (), s') ∧ DInv k s' (fun t => devals k t ps (F t)) D' Q ∧ ∀ y, Q y → P y :=
  h.runKinds (fitsKinds hk hp) hm hn

theorem firstUses_none {Q : DVar → Prop} (hQ : ∀ y, ¬ Q y) (ps : List (AV.Stmt ℝ)) : FirstUses Q ps := by
  induction ps generalizing Q with
  | nil => trivial
  | cons p ps ih =>
    refine ⟨?_, ih (fun y hy => ?_)⟩
    · cases p with
      | setCon c l => trivial
      | assign x e => exact fun h => absurd h (hQ x)
    · cases p with
      | setCon c l => exact hQ y hy
      | assign x e => exact hQ y hy.1

theorem runPiece {ps : List (AV.Stmt ℝ)} (h : DInv k s F D) (hk : k.1 = .buffer) (hp : FitsPieceAll k ps (F 0)) (hm : ∀ p ∈ ps, StmtMixed p) :
    ∃ s' D', AV.run DArith.real ps s = (.ok (), s') ∧ DInv k s' (fun t => devals k t ps (F t)) D' := by
  obtain ⟨s', D', Q, e, h', hQ⟩ := h.runNew hk hp hm (firstUses_none (fun _ h => h) ps)
  exact ⟨s', D', e, h'.congrP (fun y => ⟨fun h => h.elim, fun h => hQ y h⟩)⟩

theorem fitsPiece {p : AV.Stmt ℝ} {E : Vals ℝ} (h : Fits E p) : FitsPiece E p ∧ StmtMixed p := by
  cases p with
  | setCon c l => exact ⟨h.1, trivial⟩
  | assign x e =>
    obtain ⟨⟨h1, h2, h3, h4, h5, h6, h7⟩, h8⟩ := h
    have := DExpr.poly_piece h1
    exact ⟨⟨this.1, this.2.2.2 _ _, h2, h3, h4, h5, h6, h7, h8⟩, this.2.2.1⟩

theorem fitsPieceAll {ps : List (AV.Stmt ℝ)} {E : Vals ℝ} (h : FitsAll k ps E) :
    FitsPieceAll k ps E ∧ ∀ p ∈ ps, StmtMixed p := by
  induction ps generalizing E with
  | nil => exact ⟨trivial, by simp⟩
  | cons p ps ih =>
    have h1 := fitsPiece h.1
    have h2 := ih h.2
    exact ⟨⟨h1.1, h2.1⟩, by simpa using ⟨h1.2, h2.2⟩⟩

theorem run {ps : List (AV.Stmt ℝ)} (h : DInv k s F D) (hk : k.1 = .buffer) (hp : FitsAll k ps (F 0)) :
    ∃ s' D', AV.run DArith.real ps s = (.ok (), s') ∧ DInv k s' (fun t => devals k t ps (F t)) D' :=
  h.runPiece hk (fitsPieceAll hp).1 (fitsPieceAll hp).2

theorem start (n : Nat) (kind : VKind) : DInv (.buffer, n) (AV.start n kind) (fun _ => Vals.start) (fun _ => []) :=
  ⟨rfl, fun _ => Buf.is_nil, fun _ _ => rfl, fun _ => rfl, fun _ => Buf.is_nil, fun _ _ => rfl, fun _ => rfl,
    fun _ _ => Buf.is_nil, fun _ h => h.elim, fun h => h.elim, fun _ => rfl, fun _ _ => hasDerivAt_const _ _⟩

theorem getDerivs (h : DInv k s F D P) {x : DVar} (h0 : (F 0).var x ≠ []) :
    AV.getDerivs DArith.real x s = (.ok (D x), AV.seed1 DArith.real s x) := by
  have hl : ((F 0).var x).length ≠ 0 := by simpa using h0
  have hs := h.seed1 x
  have hd := hs.der x (by simp)
  have hsz : 1 ≤ (s.val x).sz := by rw [(h.val x).1]; omega
  have hv : ∀ a, a < (D x).length → DExpr.varDeriv DArith.real x a (AV.seed1 DArith.real s x)
      = (.ok ((D x).getD a 0), AV.seed1 DArith.real s x) := by
    intro a ha
    refine DExpr.varDeriv_ok (by rw [hd.1, AV.seed1_val, (h.val x).1, h.derL]) ?_
    rw [hd.leaf (by omega), getD_lt _ _ ha]
    simp only [Nat.mod_eq_of_lt ha]
  have hv0 : ∀ a, a < (D x).length → DExpr.varDeriv DArith.real x a s
      = (.ok ((D x).getD a 0), AV.seed1 DArith.real s x) := by
    intro a ha
    by_cases hP : P x
    · have hb := (h.pend x hP).2.2.2.2
      rw [AV.varDeriv_seed hsz (by rw [(h.val x).1]; exact hb), hd.leaf (by omega), getD_lt _ _ ha]
      simp only [Nat.mod_eq_of_lt ha]
    · have e1 : AV.seed1 DArith.real s x = s := AV.seed1_eq (by rw [(h.der x hP).1, (h.val x).1, h.derL])
      have := hv a ha
      rw [e1] at this ⊢
      exact this
  unfold AV.getDerivs
  have ha : (M.ass ((s.val x).sz > 0) "Size has to be larger than 0" : M (AV ℝ) Unit) s = (.ok (), s) := by
    unfold M.ass
    rw [M.lift_apply, Out.ass_pos (show (s.val x).sz > 0 by omega)]
  rw [M.bind_ok (M.get_apply s), M.bind_ok ha, (h.val x).1]
  have key : ∀ l : List Nat, (∀ i ∈ l, i < (D x).length) →
      l.mapM (fun i => DExpr.varDeriv DArith.real x i) (AV.seed1 DArith.real s x)
        = (.ok (l.map (fun i => (D x).getD i 0)), AV.seed1 DArith.real s x) := by
    intro l
    induction l with
    | nil => intro _; rfl
    | cons a l ih =>
      intro hl'
      rw [List.mapM_cons, M.bind_ok (hv a (hl' a (by simp))), M.bind_ok (ih (fun i hi => hl' i (by simp [hi])))]
      rfl
  have key0 : ∀ l : List Nat, l ≠ [] → (∀ i ∈ l, i < (D x).length) →
      l.mapM (fun i => DExpr.varDeriv DArith.real x i) s
        = (.ok (l.map (fun i => (D x).getD i 0)), AV.seed1 DArith.real s x) := by
    intro l hne hl'
    cases l with
    | nil => exact absurd rfl hne
    | cons a l =>
      rw [List.mapM_cons, M.bind_ok (hv0 a (hl' a (by simp))), M.bind_ok (key l (fun i hi => hl' i (by simp [hi])))]
      rfl
  rw [key0 _ (by simpa using hl) (fun i hi => by rw [h.derL]; exact List.mem_range.1 hi), ← h.derL x]
  congr 2
  refine List.ext_getElem (by simp) ?_
  intro i h1 h2
  rw [List.getElem_map, List.getElem_range, getD_lt _ _ h2]

/-- When the derivative is there, `get_derivs` changes nothing. -/
theorem getDerivs_same (h : DInv k s F D P) {x : DVar} (hP : ¬ P x) (h0 : (F 0).var x ≠ []) :
    AV.getDerivs DArith.real x s = (.ok (D x), s) := by
  rw [h.getDerivs h0, AV.seed1_eq (by rw [(h.der x hP).1, (h.val x).1, h.derL])]

end DInv
end ETR
