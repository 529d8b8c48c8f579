import Verif.Lemmas.DerivReal

/-! Sums and differences of comparisons in programs over derivative variables. -/

namespace ETR
open Spec

namespace DInv
variable {k : DVar} {s : AV ℝ} {F : ℝ → Vals ℝ} {D : DVar → List ℝ}

/-- Assignment of an expression without `sinus` stores what `getVal` computes from the operand elements. -/
theorem assign_val (h : DInv k s F D) {x : DVar} {op : DOp} {l r : DExpr} (hp : Piece (.bin op l r))
    (hconf : Conform (F 0) (.bin op l r)) (hlen : (F 0).len (.bin op l r) ≤ 2 ^ 59) (hx : x.1 = .buffer)
    (hp' : Occurs x (.bin op l r) → ((F 0).var x).length = (F 0).len (.bin op l r)) :
    ∃ s', AV.assign DArith.real x (.bin op l r) s = (.ok (), s') ∧
      (s'.val x).Is ((List.range ((F 0).len (.bin op l r))).map
        (fun i => DExpr.gVal DArith.real (pt F D i) (.bin op l r))) := by
  obtain ⟨v0, hv0, ev0⟩ := DExpr.size_mem (s := s) (e := .bin op l r)
  have h1 : 1 ≤ (F 0).len (.bin op l r) := by
    rw [← h.size, ev0, h.leafSize]
    have := (hconf v0 hv0).1
    omega
  have heven : Spec.Even s (.bin op l r) := DExpr.even_of_conform (n := (F 0).len (.bin op l r)) (by omega) (by
    intro v hv
    rw [h.leafSize]; exact (hconf v hv).2)
  obtain ⟨bv, bd, ea, hv, hm, hd⟩ := AV.assignExpr_ok (A := DArith.real) (p := pt F D)
    (fv := fun i => DExpr.gVal DArith.real (pt F D i) (.bin op l r)) hx (h.size _) h1 hlen
    (by
      intro i hi
      rw [DExpr.elem_eq_getVal heven (DExpr.piece_num hp) (fun v hv => by rw [h.leafSize]; exact (hconf v hv).1) i
        (by rw [h.size]; exact hi), DExpr.getVal_ok (h.sees hconf (fun _ _ h => h) hi)])
    (fun i hi => h.sees hconf (fun _ _ h => h) hi)
    (by
      intro ho
      have := (h.der x (fun h => h)).room (by rw [h.derL, hp' ho]; omega)
      rw [h.derL, hp' ho] at this
      exact this)
  refine ⟨(s.putDer x bd).putVal x bv, ?_, by simpa using hv⟩
  show (AV.assignExpr DArith.real x (.bin op l r) >>= fun _ => AV.setDims x (.bin op l r)) s = _
  rw [M.bind_ok ea]
  refine AV.setDims_no ?_
  have him : ∀ e : DExpr, e.im ((s.putDer x bd).putVal x bv) = false := by
    intro e
    induction e with
    | con c => exact h.conM c
    | var y =>
      show (((s.putDer x bd).putVal x bv).val y).mp.im = false
      by_cases hy : y = x
      · subst hy; simpa [hm] using h.valM y
      · simpa [hy, AV.val_putVal_ne] using h.valM y
    | bin op l r hl hr => rw [DExpr.im, hl, hr]; rfl
    | sin e _ => rfl
  exact him _

end DInv

theorem AV.run_append {T : Type} {A : DArith T} (ps qs : List (AV.Stmt T)) {t t' : AV T}
    (h : AV.run A ps t = (.ok (), t')) : AV.run A (ps ++ qs) t = AV.run A qs t' := by
  induction ps generalizing t with
  | nil => cases h; rfl
  | cons p ps ih =>
    rw [AV.run] at h
    rw [List.cons_append, AV.run]
    rcases hp : AV.exec A p t with ⟨o, t1⟩
    cases o with
    | ok u => rw [M.bind_ok hp] at h ⊢; exact ih h
    | thr m => rw [M.bind_thr hp] at h; cases h
    | ub k => rw [M.bind_ub hp] at h; cases h

end ETR
