import Verif.Model.Condition
import Verif.Props.Typed
import Verif.Props.Helper

/-! C110: conditions with more than one element. -/

namespace ETR
open Spec F64

namespace Spec

/-- A named vector of logicals, or a logical value: not a comparison, another operation or a selection. -/
def plainLogical : TForm → Bool
  | .leaf .bool _ => true
  | .scal (.b _) => true
  | _ => false

end Spec

theorem retTy_bool_iff (e : TForm) : e.retTy = .bool ↔ plainLogical e = true := by
  cases e with
  | leaf t x => cases t <;> simp [TForm.retTy, plainLogical]
  | scal v => cases v <;> simp [TForm.retTy, plainLogical, Scal.ty]
  | _ => simp [TForm.retTy, plainLogical]

theorem ckI32_intOk {n k : Int} (h : ckI32 n = .ok k) : InI32 k := by
  unfold ckI32 at h
  split at h
  · rename_i h1; cases h; exact h1
  · cases h

theorem arith_intOk {fi : Int → Int → Int} {fd : F64 → F64 → F64} {l r v : Scal} (h : Trait.arith fi fd l r = .ok v) : IntOk v := by
  unfold Trait.arith at h
  split at h
  · rw [Out.bind_eq_ok] at h
    obtain ⟨z, h1, h2⟩ := h
    simp only [Out.pure_eq, Out.ok.injEq] at h2
    subst h2
    split
    · exact IntOk.b _
    · intro n hn
      cases hn
      exact ckI32_intOk h1
  · cases h
    exact IntOk.d _

theorem BinO.intOk (o : BinO) {l r v : Scal} (h : o.f l r = .ok v) : IntOk v := by
  cases o with
  | plus => exact arith_intOk h
  | minus => exact arith_intOk h
  | times => exact arith_intOk h
  | divide => cases h; exact IntOk.d _
  | lt => cases h; exact IntOk.b _
  | le => cases h; exact IntOk.b _
  | gt => cases h; exact IntOk.b _
  | ge => cases h; exact IntOk.b _
  | eq =>
    simp only [BinO.f, Out.bind_eq_ok] at h
    obtain ⟨_, _, h⟩ := h
    cases h
    exact IntOk.b _
  | ne =>
    simp only [BinO.f, Out.bind_eq_ok] at h
    obtain ⟨_, _, h⟩ := h
    cases h
    exact IntOk.b _

theorem UnO.intOk (o : UnO) {a v : Scal} (h : o.f a = .ok v) : IntOk v := by
  cases o with
  | fn g => cases h; exact IntOk.d _
  | neg =>
    simp only [UnO.f, Out.bind_eq_ok] at h
    obtain ⟨_, _, h⟩ := h
    cases h
    exact IntOk.d _

/-- Integers that are read from an expression are 32-bit integers. -/
theorem TForm.el_intOk {env : Env Scal} (e : TForm) (ht : TypedIn env e) {i : Nat} {v : Scal} (h : e.toExpr.el env i = .ok v) :
    IntOk v := by
  induction e generalizing i v with
  | leaf t x => exact (ht i v h).2
  | scal w => cases h; exact ht
  | un o e _ =>
    simp only [toExpr, Expr.el, Out.bind_eq_ok] at h
    obtain ⟨_, _, _, _, h⟩ := h
    exact o.intOk h
  | bin o l r _ _ =>
    simp only [toExpr, Expr.el, Out.bind_eq_ok] at h
    obtain ⟨_, _, _, _, _, _, _, _, h⟩ := h
    exact o.intOk h
  | sub e ind mp ih =>
    simp only [toExpr, Expr.el, Out.bind_eq_ok] at h
    obtain ⟨_, _, _, _, h⟩ := h
    exact ih ht h

/-- The conversion to `bool` tells whether the number is zero. -/
theorem truth_toD {v : Scal} (h : IntOk v) : v.truth = decide (v.toD ≠ fin 0) := by
  cases v with
  | b v => rw [toD_b]; cases v <;> simp [Scal.truth]
  | i n =>
    rw [(h.toD_int (v := .i n) rfl).1]
    simp [Scal.truth]
  | d x =>
    rcases x with _ | a | q
    · rfl
    · rfl
    · simp [Scal.truth, Scal.toD, F64.toBool]

/-- The element, converted to `RetType`. -/
theorem conv_to_retTy {env : Env Scal} (e : TForm) (ht : TypedIn env e) {i : Nat} {v : Scal} (h : e.toExpr.el env i = .ok v) :
    ∃ w, (e.conv v).to e.retTy = .ok w ∧ w.toD = v.toD ∧ IntOk w := by
  have hv := e.el_intOk ht h
  by_cases hr : e.retTy = .double
  · exact ⟨.d v.toD, by rw [hr]; show Out.ok (Scal.d (e.conv v).toD) = _; rw [TForm.conv_toD], rfl, IntOk.d _⟩
  · have : e.conv v = v ∧ v.ty = e.retTy := by
      cases e with
      | leaf t x => exact ⟨rfl, (ht i v h).1⟩
      | scal w => cases h; exact ⟨rfl, rfl⟩
      | _ => exact absurd rfl hr
    rw [this.1, ← this.2, TForm.to_self]
    exact ⟨v, rfl, rfl, hv⟩

/-- C110, characterised: what a condition does for all formulas and all vectors.  The first element decides (everything but zero is
true, also NaN).  The message is printed for more than one element if the condition is a named vector of logicals, and never if it is a
comparison, another operation or a selection. -/
theorem C110_characterised {env : Env Scal} (e : TForm) (ht : TypedIn env e) {a : Scal} {l : List Scal} (hr : Reads env e.toExpr (a :: l))
    (ws : List String) : e.condition env ws =
      (.ok (decide (a.toD ≠ fin 0)), if plainLogical e = true ∧ l ≠ [] then ws ++ [ifMsg] else ws) := by
  obtain ⟨w, h1, h2, h3⟩ := conv_to_retTy e ht (hr.2 0 (by simp))
  simp only [List.getElem_cons_zero] at h1 h2
  unfold TForm.condition
  rw [M.bind_ok (C70_first_partial hr _ ws), M.bind_ok (M.lift_apply _ _ |>.trans (by rw [h1])), M.pure_apply, truth_toD h3, h2]
  simp only [decide_eq_true_eq, retTy_bool_iff]

/-- C110 (partial: vectors of logicals).  A condition that is a named vector of logicals prints the message exactly if it has more than one
element, and its first element decides. -/
theorem C110_partial {env : Env Scal} (x : Nat) {v : Bool} {l : List Bool} (hr : Reads env (.leaf x) ((v :: l).map Scal.b))
    (ht : ∀ i w, env.get x i = .ok w → ∃ u, w = .b u) (ws : List String) :
    (TForm.leaf .bool x).condition env ws = (.ok v, if l.length + 1 > 1 then ws ++ [ifMsg] else ws) := by
  rw [C110_characterised (TForm.leaf .bool x) (fun i w h => by obtain ⟨u, rfl⟩ := ht i w h; exact ⟨rfl, IntOk.b u⟩) hr]
  congr 1
  · rw [toD_b]; cases v <;> simp
  · simp [plainLogical, List.length_pos_iff]

/-- Two vectors of doubles, `(1, 5)` and `(2, 3)`, and a vector of logicals, `(true, false)`. -/
def condEnv : Env Scal where
  size _ := 2
  get
    | 0, 0 => .ok (.d (fin 1))
    | 0, 1 => .ok (.d (fin 5))
    | 1, 0 => .ok (.d (fin 2))
    | 1, 1 => .ok (.d (fin 3))
    | 2, 0 => .ok (.b true)
    | 2, 1 => .ok (.b false)
    | _, _ => .thr "Error: out of boundaries --> value beyond size of vector"
  mp _ := {}

/-- C110 is false for comparisons: `if (v < w)` for vectors with two elements decides by the first elements without a message, although
the message exists for this case (`RetType` of a comparison is `double`, so that the branch with the message is not compiled). -/
theorem C110_false : (TForm.bin .lt (.leaf .double 0) (.leaf .double 1)).toExpr.size condEnv = 2 ∧
    (TForm.bin .lt (.leaf .double 0) (.leaf .double 1)).condition condEnv [] = (.ok true, []) ∧
    (TForm.bin .gt (.leaf .double 0) (.leaf .double 1)).condition condEnv [] = (.ok false, []) ∧
    (TForm.sub (.leaf .bool 2) [0, 1] {}).condition condEnv [] = (.ok true, []) := by decide +kernel

/-- C110: a condition that is not a number counts as true. -/
theorem C110_false_nan (env : Env Scal) (ws : List String) :
    (TForm.bin .divide (.scal (.d (fin 0))) (.scal (.d (fin 0)))).condition env ws = (.ok true, ws) := rfl

/-- The message, and none for one element. -/
example : (TForm.leaf .bool 2).condition condEnv [] = (.ok true, [ifMsg]) := by decide +kernel

/-- The theorem applied to the vector of logicals. -/
example : (TForm.leaf .bool 2).condition condEnv ["a"] = (.ok true, ["a", ifMsg]) :=
  C110_partial (env := condEnv) 2 (v := true) (l := [false]) ⟨rfl, fun i hi => by
    rcases i with _ | _ | i
    · rfl
    · rfl
    · simp at hi; omega⟩ (fun i w h => by
    rcases i with _ | _ | i
    · cases h; exact ⟨_, rfl⟩
    · cases h; exact ⟨_, rfl⟩
    · cases h) ["a"]

theorem condEnv_typed : TypedIn condEnv (.bin .lt (.leaf .double 0) (.leaf .double 1)) := by
  constructor <;> intro i v h <;> rcases i with _ | _ | i <;> cases h <;> exact ⟨rfl, IntOk.d _⟩

/-- The theorem applied to the comparison. -/
example (ws : List String) : (TForm.bin .lt (.leaf .double 0) (.leaf .double 1)).condition condEnv ws = (.ok true, ws) := by
  have h : Reads condEnv (TForm.bin .lt (.leaf .double 0) (.leaf .double 1)).toExpr [.b true, .b false] := ⟨by decide, fun i hi => by
    rcases i with _ | _ | i
    · exact (by decide +kernel : Expr.el condEnv (TForm.bin .lt (.leaf .double 0) (.leaf .double 1)).toExpr 0 = .ok (.b true))
    · exact (by decide +kernel : Expr.el condEnv (TForm.bin .lt (.leaf .double 0) (.leaf .double 1)).toExpr 1 = .ok (.b false))
    · simp at hi; omega⟩
  rw [C110_characterised _ condEnv_typed h ws, toD_b]
  simp [plainLogical]

end ETR
