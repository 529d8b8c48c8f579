import Verif.Lemmas.DerivPiece
import Verif.Props.Deriv

/-! # Piecewise functions written with comparisons (C94) -/

namespace ETR.Deriv
open Spec

/-- C94 for programs in which no sum and no difference has comparisons on both sides, and no variable that is read by its own new
value changes its length.  The program runs, the stored values are the values over the real numbers, where a comparison is one or
zero, and each element of the stored derivative is the derivative of that element, if no comparison is at a point where its
result changes.

Missing: sums and differences of comparisons (`C94_false`, characterised in `C94_sum_characterised`), and assignments in which a
variable that is read by its own new value changes its length (`C58_false`). -/
theorem C94_partial (k : Nat) (kind : VKind) (prog : List (AV.Stmt ℝ)) (h : FitsPieceAll (B k) prog Vals.start)
    (hm : ∀ p ∈ prog, StmtMixed p) :
    ∃ s, AV.run DArith.real prog (AV.start k kind) = (.ok (), s) ∧ ∀ x : DVar, ∃ d : List ℝ,
      (s.val x).Is ((devals (B k) 0 prog Vals.start).var x) ∧ (s.der x).Is d ∧
      d.length = ((devals (B k) 0 prog Vals.start).var x).length ∧
      (∀ i, HasDerivAt (fun t => ((devals (B k) t prog Vals.start).var x).getD i 0) (d.getD i 0) 0) ∧
      ((devals (B k) 0 prog Vals.start).var x ≠ [] → AV.getDerivs DArith.real x s = (.ok d, s)) := by
  obtain ⟨s, D, e, hi⟩ := (DInv.start k kind).runPiece rfl (ps := prog) h hm
  exact ⟨s, e, fun x => ⟨D x, hi.val x, hi.der x (fun h => h), hi.derL x, hi.derD x, hi.getDerivs_same (fun h => h)⟩⟩

/-- The sum of two comparisons (or products of comparisons) is not their number but whether one of them holds, and the difference is
whether exactly one of them holds; after any program. -/
theorem C94_sum_characterised (k : Nat) (kind : VKind) (prog : List (AV.Stmt ℝ)) (h : FitsPieceAll (B k) prog Vals.start)
    (hm : ∀ p ∈ prog, StmtMixed p) {x : DVar} {op : DOp} {l r : DExpr} (ho : op = .add ∨ op = .sub)
    (hf : FitsPiece (devals (B k) 0 prog Vals.start) (.assign x (.bin op l r))) (ml : Mixed l) (mr : Mixed r)
    (tl : Truth l) (tr : Truth r) :
    ∃ s, AV.run DArith.real (prog ++ [.assign x (.bin op l r)]) (AV.start k kind) = (.ok (), s) ∧
      (s.val x).Is ((List.range ((devals (B k) 0 prog Vals.start).len (.bin op l r))).map (fun i =>
        let a := (devals (B k) 0 prog Vals.start).elem l i = 1
        let b := (devals (B k) 0 prog Vals.start).elem r i = 1
        open Classical in if op = .add then (if a ∨ b then (1 : ℝ) else 0) else if (a ↔ b) then 0 else 1)) := by
  obtain ⟨s, D, e, hi⟩ := (DInv.start k kind).runPiece rfl (ps := prog) h hm
  obtain ⟨hp, hst, hnz, hconf, hlen, hne, hx, hbuf, hself⟩ := hf
  obtain ⟨s', e', hv⟩ := hi.assign_val hp hconf hlen hx hself
  refine ⟨s', ?_, ?_⟩
  · rw [AV.run_append _ _ e, AV.run, M.bind_ok (show AV.exec DArith.real (.assign x (.bin op l r)) s = (.ok (), s') from e')]
    rfl
  · convert hv using 2
    funext i
    have hP : Piece l ∧ Piece r := by
      rcases ho with rfl | rfl <;> exact hp
    have vl := DExpr.real_gVal (E := devals (B k) 0 prog Vals.start) (p := DInv.pt (fun t => devals (B k) t prog Vals.start) D i)
      (i := i) (fun _ => rfl) (fun _ => rfl) hP.1 ml
    have vr := DExpr.real_gVal (E := devals (B k) 0 prog Vals.start) (p := DInv.pt (fun t => devals (B k) t prog Vals.start) D i)
      (i := i) (fun _ => rfl) (fun _ => rfl) hP.2 mr
    have bl := (DExpr.truth_bool hP.1 ml).2 tl
    have br := (DExpr.truth_bool hP.2 mr).2 tr
    rcases ho with rfl | rfl
    · rw [DExpr.gVal, vl, vr, bl, br]
      show _ = (if decide (_ + _ ≠ (0 : ℝ)) then ((1 : ℤ) : ℝ) else ((0 : ℤ) : ℝ))
      rcases DExpr.truth_elem (devals (B k) 0 prog Vals.start) i tl with e1 | e1 <;>
      rcases DExpr.truth_elem (devals (B k) 0 prog Vals.start) i tr with e2 | e2 <;> simp [e1, e2]
    · rw [DExpr.gVal, vl, vr, bl, br]
      show _ = (if decide (_ - _ ≠ (0 : ℝ)) then ((1 : ℤ) : ℝ) else ((0 : ℤ) : ℝ))
      rcases DExpr.truth_elem (devals (B k) 0 prog Vals.start) i tl with e1 | e1 <;>
      rcases DExpr.truth_elem (devals (B k) 0 prog Vals.start) i tr with e2 | e2 <;> simp [e1, e2]

/-- `a = c0; b = c1` with `a` the independent variable. -/
noncomputable def prog94 : List (AV.Stmt ℝ) :=
  [.setCon 0 [3, 9], .setCon 1 [5], .assign (B 0) (.con 0), .assign (B 1) (.con 1)]

/-- `c = (a < b) * (a * a) + (a >= b) * a`. -/
noncomputable def stmt94 : AV.Stmt ℝ :=
  .assign (B 2) (.bin .add (.bin .mul (.bin .lt (.var (B 0)) (.var (B 1))) (.bin .mul (.var (B 0)) (.var (B 0))))
    (.bin .mul (.bin .ge (.var (B 0)) (.var (B 1))) (.var (B 0))))

theorem prog94_fits : FitsPieceAll (B 0) prog94 Vals.start ∧ ∀ p ∈ prog94, StmtMixed p := by
  refine ⟨?_, ?_⟩
  · simp [prog94, FitsPieceAll, FitsPiece, deval, Vals.start, Conform, leaves, Vals.leaf, Vals.len, Piece, Nonzero, Occurs, Steady]
  · simp [prog94, StmtMixed, Mixed]

theorem stmt94_fits : FitsPieceAll (B 0) (prog94 ++ [stmt94]) Vals.start ∧ ∀ p ∈ prog94 ++ [stmt94], StmtMixed p := by
  refine ⟨?_, ?_⟩
  · simp [prog94, stmt94, FitsPieceAll, FitsPiece, deval, Vals.start, Conform, leaves, Vals.leaf, Vals.len, Piece, Nonzero, Occurs,
      Steady, Vals.elem, pick]
    intro i hi
    rcases (show i = 0 ∨ i = 1 by omega) with rfl | rfl <;> norm_num
  · simp [prog94, stmt94, StmtMixed, Mixed, Truth]

/-- The stored derivative of `c` is 6 (of `a * a` at 3) and 1 (of `a` at 9). -/
example : ∃ s d, AV.run DArith.real (prog94 ++ [stmt94]) (AV.start 0 .buffer) = (.ok (), s) ∧ (s.val (B 2)).Is [9, 9] ∧
    (s.der (B 2)).Is d ∧ d.getD 0 0 = 6 := by
  obtain ⟨s, e, h⟩ := C94_partial 0 .buffer _ stmt94_fits.1 stmt94_fits.2
  obtain ⟨d, h1, h2, _, h4, _⟩ := h (B 2)
  refine ⟨s, d, e, ?_, h2, ?_⟩
  · convert h1 using 1
    simp [prog94, stmt94, devals, deval, Vals.start, Vals.len, Vals.elem, pick, List.range_succ]
    norm_num
  have h6 : HasDerivAt (fun t : ℝ => (3 + t) * (3 + t)) (1 * (3 + 0) + (3 + 0) * 1) 0 :=
    ((hasDerivAt_id' (0 : ℝ)).const_add 3).mul ((hasDerivAt_id' (0 : ℝ)).const_add 3)
  have h7 : HasDerivAt (fun t => ((devals (B 0) t (prog94 ++ [stmt94]) Vals.start).var (B 2)).getD 0 0)
      (1 * (3 + 0) + (3 + 0) * 1) 0 := by
    refine h6.congr_of_eventuallyEq ?_
    have : ∀ᶠ t : ℝ in nhds 0, t < 1 := eventually_lt_nhds (by norm_num)
    filter_upwards [this] with t ht
    have h3 : 3 + t < 5 := by linarith
    simp [prog94, stmt94, devals, deval, Vals.start, Vals.len, Vals.elem, pick, List.range_succ, h3, not_le.2 h3]
  rw [(h4 0).unique h7]
  norm_num

/-- C94 is false for sums of comparisons: with `a = 3` and `b = 5` the sum `(a < b) + (a <= b)` is stored as 1, not as 2. -/
theorem C94_false : ∃ prog : List (AV.Stmt ℝ), FitsPieceAll (B 0) prog Vals.start ∧
    (devals (B 0) 0 prog Vals.start).var (B 2) = [2] ∧
    ∃ s, AV.run DArith.real prog (AV.start 0 .buffer) = (.ok (), s) ∧ (s.val (B 2)).Is [1] := by
  let prog0 : List (AV.Stmt ℝ) := [.setCon 0 [3], .setCon 1 [5], .assign (B 0) (.con 0), .assign (B 1) (.con 1)]
  let e : DExpr := .bin .add (.bin .lt (.var (B 0)) (.var (B 1))) (.bin .le (.var (B 0)) (.var (B 1)))
  have f0 : FitsPieceAll (B 0) prog0 Vals.start := by
    simp [prog0, FitsPieceAll, FitsPiece, deval, Vals.start, Conform, leaves, Vals.leaf, Vals.len, Piece, Nonzero, Occurs, Steady]
  have f1 : FitsPieceAll (B 0) (prog0 ++ [.assign (B 2) e]) Vals.start := by
    simp [prog0, e, FitsPieceAll, FitsPiece, deval, Vals.start, Conform, leaves, Vals.leaf, Vals.len, Piece, Nonzero, Occurs, Steady,
      Vals.elem, pick]
  have f2 : FitsPiece (devals (B 0) 0 prog0 Vals.start) (.assign (B 2) e) := by
    simp [prog0, e, FitsPiece, devals, deval, Vals.start, Conform, leaves, Vals.leaf, Vals.len, Piece, Nonzero, Occurs, Steady,
      Vals.elem, pick]
  refine ⟨prog0 ++ [.assign (B 2) e], f1, ?_, ?_⟩
  · simp [prog0, e, devals, deval, Vals.start, Vals.len, Vals.elem, pick]
    norm_num
  · obtain ⟨s, e1, h⟩ := C94_sum_characterised 0 .buffer prog0 f0 (by simp [prog0, StmtMixed, Mixed]) (Or.inl rfl) f2
      (by simp [Mixed]) (by simp [Mixed]) (by simp [Truth]) (by simp [Truth])
    refine ⟨s, e1, ?_⟩
    convert h using 1
    simp [prog0, devals, deval, Vals.start, Vals.len, Vals.elem, pick]
    norm_num

end ETR.Deriv
