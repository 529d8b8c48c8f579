import Verif.Spec.Control
import Verif.Lemmas.Cells

/-! # Single steps of naive semantics -/

namespace ETR
namespace Spec
variable {V : Type} {p : PState V} {x : Nat} {l : List V} {k : Kind}

theorem lists_of_vars (h : p.vars x = some ⟨l, k⟩) : p.lists x = some l := by simp [PState.lists, h]

theorem eval_leaf (h : p.vars x = some ⟨l, k⟩) (hl : l ≠ []) : eval p.lists (.leaf x) = some l := by
  simp [eval, lists_of_vars h, nonEmpty, hl]

theorem eval_sub1 (h : p.vars x = some ⟨l, k⟩) {j : Nat} (hj : j < l.length) (mp : MP) :
    eval p.lists (.sub (.leaf x) [j] mp) = some [l[j]] := by
  have hl : l ≠ [] := by rintro rfl; simp at hj
  simp only [eval, lists_of_vars h, Option.bind_eq_bind, Option.bind_some, nonEmpty, if_neg hl]
  rw [if_pos ⟨by simp, by simp; omega⟩]
  simp [List.getElem?_eq_getElem hj]

theorem eval_bin1 {ρ : Nat → Option (List V)} {f : V → V → Out V} {a b : Expr V} {u v w : V} (ha : eval ρ a = some [u])
    (hb : eval ρ b = some [v]) (hf : f u v = .ok w) : eval ρ (.bin f a b) = some [w] := by
  simp [eval, ha, hb, zipRecycled, hf, val, List.range_succ]

theorem index_int (h : p.vars x = some ⟨l, k⟩) {i : Int} (h1 : 1 ≤ i) (h2 : i ≤ l.length) (h3 : l.length < 2 ^ 31) :
    indexPos p (.leaf x) (.int i) = some [(i - 1).toNat] := by
  have hl : l ≠ [] := by rintro rfl; simp at h2; omega
  simp only [indexPos, cells_eval _ (eval_leaf h hl), Option.bind_eq_bind, Option.bind_some, List.length_map]
  rw [if_pos ⟨rfl, h3⟩]
  simp only [positions, pos1]
  rw [if_pos ⟨h1, by omega⟩]
  rfl

theorem index_dbl (h : p.vars x = some ⟨l, k⟩) {i : Int} (h1 : 1 ≤ i) (h2 : i ≤ l.length) (h3 : l.length < 2 ^ 31) :
    indexPos p (.leaf x) (.dbl (.fin i)) = some [(i - 1).toNat] := by
  have hl : l ≠ [] := by rintro rfl; simp at h2; omega
  simp only [indexPos, cells_eval _ (eval_leaf h hl), Option.bind_eq_bind, Option.bind_some, List.length_map]
  rw [if_pos ⟨rfl, h3⟩]
  simp only [positions, posD, pos1, Int.floor_intCast]
  rw [if_pos ⟨h1, by omega⟩]
  rfl

theorem step_set1 {zero : V} (h : p.vars x = some ⟨l, k⟩) {j : Nat} (hj : j < l.length) (v : V) :
    step zero p (.subAssignScalar x [j] v) = some (p.put x (some ⟨l.set j v, k⟩)) := by
  simp only [step, stepOwn, h, Option.bind_eq_bind, Option.bind_some]
  rw [if_pos (by simp; omega)]
  simp [writeAll, hj]

theorem step_sub1 {zero : V} (h : p.vars x = some ⟨l, k⟩) {j : Nat} (hj : j < l.length) {e : Expr V} {v : V} {same : Bool}
    (he : eval p.lists e = some [v]) :
    step zero p (.subAssign .ok same x [j] e) = some { p.put x (some ⟨l.set j v, k⟩) with next := p.next + 1 } := by
  simp only [step, stepOwn, h, he, Option.bind_eq_bind, Option.bind_some]
  simp only [List.mapM_cons, List.mapM_nil, val, Option.pure_def, Option.bind_eq_bind, Option.bind_some, lim]
  rw [if_pos (by simp)]
  simp only [Option.bind_some]
  rw [if_pos (by simp; omega)]
  simp [writeAll, hj]

theorem step_assign1 {zero : V} (h : p.vars x = some ⟨l, .std⟩) {e : Expr V} {v : V} (he : eval p.lists e = some [v]) :
    step zero p (.assign .ok x e) = some (p.put x (some ⟨[v], .std⟩)) := by
  simp only [step, stepOwn, h, he, Option.bind_eq_bind, Option.bind_some]
  simp [val, lim, Kind.assigned]

theorem step_assignScalar {zero : V} (h : p.vars x = some ⟨l, k⟩) (v : V) :
    step zero p (.assignScalar x v) = some (p.put x (some ⟨[v], k.resized⟩)) := by
  simp [step, stepOwn, h]

@[simp] theorem put_vars_same (p : PState V) (x : Nat) (v : Option (Var V)) : (p.put x v).vars x = v := by simp [PState.put]
theorem put_vars_ne (p : PState V) {x y : Nat} (h : y ≠ x) (v : Option (Var V)) : (p.put x v).vars y = p.vars y := by simp [PState.put, h]
@[simp] theorem put_next (p : PState V) (x : Nat) (v : Option (Var V)) : (p.put x v).next = p.next := rfl

end Spec
end ETR
