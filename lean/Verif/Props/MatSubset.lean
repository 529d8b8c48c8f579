import Verif.Lemmas.MachWrite
import Verif.Lemmas.MatSubset
import Verif.Props.SubAssign

/-! Matrix subsetting: C36, C37, C38 (matrices), C39, C40, C41. -/

namespace ETR
open Spec

variable {V : Type}

/-- `e` is a matrix with `nr` rows and `nc` columns and the elements `l`, column by column. -/
structure IsMat (env : Env V) (e : Expr V) (nr nc : Nat) (l : List V) : Prop where
  den : Denotes env e l
  im : e.im env = true
  hnr : e.nr env = .ok nr
  hnc : e.nc env = .ok nc
  len : l.length = nr * nc

theorem cells_lt {nr nc : Nat} {rows cols : List Nat} (hr : ∀ r ∈ rows, r < nr) (hc : ∀ c ∈ cols, c < nc) :
    ∀ j ∈ cells nr rows cols, j < nr * nc := by
  intro j hj
  simp only [cells, List.mem_flatMap, List.mem_map] at hj
  obtain ⟨c, h1, r, h2, rfl⟩ := hj
  exact cell_lt (hc _ h1) (hr _ h2)

theorem cells_length (nr : Nat) (rows cols : List Nat) :
    (cells nr rows cols).length = rows.length * cols.length := by
  unfold cells
  induction cols with
  | nil => simp
  | cons c cs ih => rw [List.flatMap_cons, List.length_append, ih]; simp [Nat.mul_succ, Nat.add_comm]

/-- The cell in row `i` and column `j` of the subset. -/
theorem cells_get (nr : Nat) (rows : List Nat) : ∀ (cols : List Nat) (i j : Nat) (hi : i < rows.length)
    (hj : j < cols.length), (cells nr rows cols)[j * rows.length + i]? = some (cols[j] * nr + rows[i])
  | [], _, _, _, hj => by simp at hj
  | c :: cs, i, 0, hi, _ => by
    simp only [cells, List.flatMap_cons, Nat.zero_mul, Nat.zero_add]
    rw [List.getElem?_append_left (by simpa using hi)]
    simp [hi]
  | c :: cs, i, j + 1, hi, hj => by
    have ih := cells_get nr rows cs i j hi (by simpa using hj)
    simp only [cells, List.flatMap_cons] at ih ⊢
    rw [List.getElem?_append_right (by simp [Nat.succ_mul]; omega)]
    simp only [List.length_map, List.getElem_cons_succ]
    rw [show (j + 1) * rows.length + i - rows.length = j * rows.length + i by
      rw [Nat.succ_mul]; omega]
    exact ih

/-- Reading a subset with given indices that are in range and not more than there are elements. -/
theorem sub_gather {env : Env V} {e : Expr V} {l : List V} (he : Denotes env e l) {r : List Nat}
    (hlt : ∀ j ∈ r, j < l.length) (hle : r.length ≤ l.length) (mp : MP) :
    ∃ l', Denotes env (.sub e r mp) l' ∧ Gather l r l' := by
  refine ⟨r.attach.map (fun j => l[j.1]'(hlt j.1 j.2)), ⟨by simp [Expr.size], ?_⟩, ?_⟩
  · intro i hi
    have hi' : i < r.length := by simpa using hi
    have h0 : l.length ≠ 0 := by omega
    simp only [Expr.el, he.1, modz, if_neg h0, Nat.mod_eq_of_lt (by omega : i < l.length), Out.ok_bind,
      getL, List.getElem?_eq_getElem hi']
    rw [he.2 _ (hlt _ (List.getElem_mem hi'))]
    simp
  · unfold Gather
    rw [List.map_map]
    conv_rhs => rw [← List.attach_map_subtype_val r, List.map_map]
    apply List.map_congr_left
    intro a _
    simp [List.getElem?_eq_getElem (hlt a.1 a.2)]

theorem subsetM_of_calc {env : Env V} {e : Expr V} {nr nc : Nat} {l : List V} (hm : IsMat env e nr nc l)
    {r c : Index} {ws ws' : List String} {im : MatInd}
    (h : calcIndMatrix ⟨l.length, nr, nc, e.dmp env⟩ r c ws = (.ok im, ws')) :
    subsetM env e r c ws = (.ok (.sub e im.1 im.2), ws') := by
  unfold subsetM
  rw [M.bind_ok (M.ass_pos hm.im _), hm.hnr, M.bind_ok (m := M.lift (.ok nr)) (a := nr) rfl, hm.hnc,
    M.bind_ok (m := M.lift (.ok nc)) (a := nc) rfl, hm.den.1, M.bind_ok h]
  rfl

theorem subsetM_ok {env : Env V} {e : Expr V} {nr nc : Nat} {l : List V} (hm : IsMat env e nr nc l)
    (hlim : l.length < 2 ^ 31) {r c : Index} (pr : r.Pass) (pc : c.Pass) {rows cols : List Nat}
    (hr : positions nr r = some rows) (hc : positions nc c = some cols) (ha : Addressed r c)
    (mr : MaskFits nr r c) (mc : MaskFits nc c r) (ws : List String) :
    ∃ ws', subsetM env e r c ws = (.ok (.sub e (cells nr rows cols)
      (codeShape ⟨l.length, nr, nc, e.dmp env⟩ r c rows.length cols.length)), ws') := by
  obtain ⟨ws', h⟩ := calcIndMatrix_ok (d := ⟨l.length, nr, nc, e.dmp env⟩) hm.len
    (by have := hm.len; simpa [← this] using hlim) pr pc hr hc ha mr mc ws
  exact ⟨ws', subsetM_of_calc hm h⟩

/-! ## C36 -/

/-- C36, the elements.  For all combinations of index kinds but those of `Addressed` (C37, C38) and masks
that would have to be recycled (C40): `m(r, c)` has exactly the elements of the addressed cells, in
column-major order.  `m` is a named matrix, a temporary, a subset or an expression.  Also missing: more
addressed cells than the matrix has (`C36_false_repeated`). -/
theorem C36_elements_partial {env : Env V} {e : Expr V} {nr nc : Nat} {l : List V}
    (hm : IsMat env e nr nc l) (hlim : l.length < 2 ^ 31) {r c : Index} (pr : r.Pass) (pc : c.Pass)
    {rows cols : List Nat} (hr : positions nr r = some rows) (hc : positions nc c = some cols)
    (ha : Addressed r c) (mr : MaskFits nr r c) (mc : MaskFits nc c r)
    (hle : rows.length * cols.length ≤ l.length) (ws : List String) :
    ∃ e' ws' l', subsetM env e r c ws = (.ok e', ws') ∧ Denotes env e' l' ∧
      l'.length = rows.length * cols.length ∧
      ∀ i j (hi : i < rows.length) (hj : j < cols.length),
        l'[j * rows.length + i]? = l[cols[j] * nr + rows[i]]? := by
  obtain ⟨ws', h⟩ := subsetM_ok hm hlim pr pc hr hc ha mr mc ws
  obtain ⟨l', d, g⟩ := sub_gather hm.den (r := cells nr rows cols)
    (by rw [hm.len]; exact cells_lt (positions_lt hr) (positions_lt hc))
    (by rw [cells_length]; exact hle) (codeShape ⟨l.length, nr, nc, e.dmp env⟩ r c rows.length cols.length)
  refine ⟨_, ws', l', h, d, ?_, fun i j hi hj => ?_⟩
  · have := congrArg List.length g
    simpa [cells_length] using this
  · have h1 := cells_get nr rows cols i j hi hj
    have h2 := congrArg (fun t => t[j * rows.length + i]?) g
    simp only [List.getElem?_map, h1, Option.map_some] at h2
    have hlt : j * rows.length + i < l'.length := by
      have : l'.length = rows.length * cols.length := by
        have := congrArg List.length g
        simpa [cells_length] using this
      rw [this]; exact cell_lt hj hi
    rw [List.getElem?_eq_getElem hlt] at h2 ⊢
    simpa using h2

/-- The expression is an operation, not a vector or a subset. -/
def Spec.IsOperation : Expr V → Prop
  | .un _ _ => True
  | .bin _ _ _ => True
  | _ => False

theorem IsMat.dmp {env : Env V} {e : Expr V} {nr nc : Nat} {l : List V} (hm : IsMat env e nr nc l) (h : ¬ Spec.IsOperation e) :
    e.dmp env = ⟨true, nr, nc⟩ := by
  have key : ∀ m : MP, m.im = true → (Out.ok m.nr : Out Nat) = .ok nr → (Out.ok m.nc : Out Nat) = .ok nc → m = ⟨true, nr, nc⟩ := by
    rintro ⟨a, b, c⟩ rfl h2 h3
    simp only [Out.ok.injEq] at h2 h3
    subst h2 h3
    rfl
  obtain ⟨_, h1, h2, h3, _⟩ := hm
  cases e with
  | leaf x => exact key _ h1 h2 h3
  | rvec v mp => exact key _ h1 h2 h3
  | sub a i mp => exact key _ h1 h2 h3
  | scal v => simp [Expr.im] at h1
  | un f a => exact absurd trivial h
  | bin f a b => exact absurd trivial h

/-- C36, the dimensions: if the result is two-dimensional it has the dimensions number of rows by number
of columns.  Missing: a logical row mask with numeric columns (`C36_false_shape`) and `m(TRUE, TRUE)` on
expressions (`C36_false_expression`). -/
theorem C36_shape_partial {env : Env V} {e : Expr V} {nr nc : Nat} {l : List V}
    (hm : IsMat env e nr nc l) (hlim : l.length < 2 ^ 31) {r c : Index} (pr : r.Pass) (pc : c.Pass)
    {rows cols : List Nat} (hr : positions nr r = some rows) (hc : positions nc c = some cols)
    (ha : Addressed r c) (mr : MaskFits nr r c) (mc : MaskFits nc c r)
    (hnot : ∀ m, r = .vlgl m → (∀ t, c ≠ .vint t) ∧ (∀ t, c ≠ .vdbl t))
    (hexp : ¬ Spec.IsOperation e ∨ (∀ b, r ≠ .lgl b) ∨ (∀ b, c ≠ .lgl b)) (ws : List String) :
    ∃ e' ws', subsetM env e r c ws = (.ok e', ws') ∧
      e'.im env = (keepsDim r && keepsDim c) ∧
      (e'.im env = true → e'.nr env = .ok rows.length ∧ e'.nc env = .ok cols.length) := by
  obtain ⟨ws', h⟩ := subsetM_ok hm hlim pr pc hr hc ha mr mc ws
  refine ⟨_, ws', h, ?_⟩
  have hs : codeShape ⟨l.length, nr, nc, e.dmp env⟩ r c rows.length cols.length
      = subShape r c rows.length cols.length := by
    cases r <;> cases c <;> first
      | rfl
      | (rename_i a b
         rcases hexp with h' | h' | h'
         · have h' := hm.dmp h'
           obtain ⟨rfl, rfl, _⟩ := positions_range hr
           obtain ⟨rfl, rfl, _⟩ := positions_range hc
           simp only [codeShape, subShape, keepsDim, h', List.length_range]
           rfl
         · exact absurd rfl (h' a)
         · exact absurd rfl (h' b))
      | exact absurd rfl ((hnot _ rfl).1 _)
      | exact absurd rfl ((hnot _ rfl).2 _)
  rw [hs]
  cases hk : (keepsDim r && keepsDim c)
  · have : subShape r c rows.length cols.length = ⟨false, 0, 0⟩ := by unfold subShape; rw [hk]; rfl
    rw [this]
    exact ⟨rfl, fun h => by simp [Expr.im] at h⟩
  · have : subShape r c rows.length cols.length = ⟨true, rows.length, cols.length⟩ := by
      unfold subShape; rw [hk]; rfl
    rw [this]
    exact ⟨rfl, fun _ => ⟨rfl, rfl⟩⟩

/-- A 2 x 3 matrix. -/
def mat23 : Env Int := listEnv [[11, 21, 12, 22, 13, 23]] [⟨true, 2, 3⟩]

theorem mat23_isMat : IsMat mat23 (.leaf 0) 2 3 [11, 21, 12, 22, 13, 23] :=
  ⟨⟨by decide, by decide⟩, by decide, by decide, by decide, by decide⟩

/-- The hypotheses for `m(c(2, 1), c(3, 1))` and for `m(2, c(TRUE, FALSE))`, where the mask is recycled. -/
example : positions 2 (.vint [.i 2, .i 1]) = some [1, 0] ∧
    positions 3 (.vdbl [.fin 3, .fin (3 / 2)]) = some [2, 0] ∧
    positions 2 (.int 2) = some [1] ∧ positions 3 (.vlgl [true, false]) = some [0, 2] ∧
    MaskFits 3 (.vlgl [true, false]) (.int 2) ∧ ¬ Spec.IsOperation (Expr.leaf (V := Int) 0) := by
  refine ⟨by decide, by decide +kernel, by decide, by decide, by simp [MaskFits, keepsDim], id⟩

/-- C36 is false for the dimensions of `m(mask, cols)` with numeric columns. -/
theorem C36_false_shape :
    calcIndMatrix ⟨6, 2, 3, ⟨true, 2, 3⟩⟩ (.vlgl [true, true]) (.vint [.i 1, .i 2]) []
      = (.ok ([0, 1, 2, 3], ⟨false, 0, 0⟩), []) := by
  decide +kernel

/-- C36 is false for `(m + 0)(TRUE, TRUE)`, the dimensions are lost, and for `(-m)(1, 1)`, which is
rejected. -/
theorem C36_false_expression :
    (∃ ind, subsetM mat23 (.bin (fun a b => .ok (a + b)) (.leaf 0) (.scal 0)) (.lgl true) (.lgl true) []
      = (.ok (.sub (.bin (fun a b => .ok (a + b)) (.leaf 0) (.scal 0)) ind ⟨false, 0, 0⟩), [])) ∧
    subsetM mat23 (.un (fun a => .ok (-a)) (.leaf 0)) (.int 1) (.int 1) []
      = (.thr "incorrect number of dimensions", []) :=
  ⟨⟨_, rfl⟩, rfl⟩

/-- C36 is false if more cells are addressed than the matrix has: `m(c(1, 1, 1, 1, 1, 1, 2), 1)` ends with
the first element. -/
theorem C36_false_repeated :
    ∃ e', subsetM mat23 (.leaf 0) (.vint [.i 1, .i 1, .i 1, .i 1, .i 1, .i 1, .i 2]) (.int 1) [] = (.ok e', []) ∧
      e'.el mat23 6 = .ok 11 ∧ Expr.el mat23 (.leaf 0) 1 = .ok 21 :=
  ⟨.sub (.leaf 0) [0, 0, 0, 0, 0, 0, 1] noMat, rfl, by decide, by decide⟩

/-! ## C37 two doubles -/

/-- What `m(r, c)` with two doubles addresses: position `c - nr + (r - 1)` instead of
`(c - 1) * nr + (r - 1)`. -/
theorem C37_characterised {n nr nc : Nat} (dmp : MP) (hnr : nr < 2 ^ 31) (hnc : nc < 2 ^ 31) {x y : F64}
    {r c : Nat} (hr : posD nr x = some r) (hc : posD nc y = some c) (ws : List String) :
    ∃ ws', calcIndMatrix ⟨n, nr, nc, dmp⟩ (.dbl x) (.dbl y) ws
      = (.ok ([wrap64 ((c : Int) + 1 - nr + r)], ⟨false, 0, 0⟩), ws') := by
  obtain ⟨_, _, _, h1⟩ := posD_some hr
  obtain ⟨_, _, _, h2⟩ := posD_some hc
  obtain ⟨w1, e1⟩ := convertSizeD_ok hr (by omega) ws
  obtain ⟨w2, e2⟩ := convertSizeD_ok hc (by omega) w1
  refine ⟨w2, ?_⟩
  simp only [calcIndMatrix, calcDbl]
  rw [M.bind_ok e1, M.bind_ok (resizeInd_ok (le_refl _) w1), M.bind_ok e2, pred64_pos (by omega) (by omega)]
  simp only [Nat.add_sub_cancel]
  push_cast
  rfl

/-- C37 holds exactly for matrices with one row. -/
theorem C37_one_row_partial {n nr nc : Nat} (dmp : MP) (hlim : nr * nc < 2 ^ 31) {x y : F64}
    {r c : Nat} (hr : posD nr x = some r) (hc : posD nc y = some c) (ws : List String) :
    (∃ ws', calcIndMatrix ⟨n, nr, nc, dmp⟩ (.dbl x) (.dbl y) ws = (.ok ([c * nr + r], ⟨false, 0, 0⟩), ws'))
      ↔ nr = 1 := by
  obtain ⟨_, _, _, h1⟩ := posD_some hr
  obtain ⟨_, _, _, h2⟩ := posD_some hc
  have h4 := dim_lt (nr := nr) (nc := nc) (by omega) hlim
  have h5 := dim_lt (nr := nc) (nc := nr) (by omega) (by rw [Nat.mul_comm]; exact hlim)
  obtain ⟨w, e⟩ := C37_characterised (n := n) dmp h4 h5 hr hc ws
  have hcl := cell_lt h2 h1
  constructor
  · rintro ⟨w', e'⟩
    rw [e] at e'
    simp only [Prod.mk.injEq, Out.ok.injEq, List.cons.injEq, and_true] at e'
    have hw := e'.1
    by_cases hneg : 0 ≤ (c : Int) + 1 - nr + r
    · rw [wrap64_of_nonneg hneg (by omega)] at hw
      have : (c : Int) + 1 - nr = c * nr := by
        have : (((c : Int) + 1 - nr + r).toNat : Int) = ((c * nr + r : Nat) : Int) := by rw [hw]
        push_cast at this
        omega
      have h6 : ((c : Int) + 1) * (nr - 1) = 0 := by
        have : ((c : Int) + 1) * (nr - 1) = c * nr - c - 1 + nr := by ring
        rw [this]; omega
      rcases Int.mul_eq_zero.mp h6 with h | h <;> omega
    · have := wrap64_of_neg (n := (c : Int) + 1 - nr + r) (by omega) (by omega)
      omega
  · rintro rfl
    refine ⟨w, ?_⟩
    rw [e]
    have : wrap64 ((c : Int) + 1 - (1 : Nat) + r) = c * 1 + r := by
      rw [wrap64_of_nonneg (by omega) (by omega)]; omega
    rw [this]

/-- C37 is false: `m(1.0, 2.0)` of a 2 x 3 matrix is the element in row 1 and column 1. -/
theorem C37_false :
    ∃ e', subsetM mat23 (.leaf 0) (.dbl (.fin 1)) (.dbl (.fin 2)) [] = (.ok e', []) ∧
      e'.el mat23 0 = .ok 11 ∧ positions 2 (.dbl (.fin 1)) = some [0] ∧
      positions 3 (.dbl (.fin 2)) = some [1] ∧ Expr.el mat23 (.leaf 0) (1 * 2 + 0) = .ok 12 := by
  have h : calcIndMatrix ⟨6, 2, 3, ⟨true, 2, 3⟩⟩ (.dbl (.fin 1)) (.dbl (.fin 2)) [] = (.ok ([0], noMat), []) := by
    decide +kernel
  refine ⟨.sub (.leaf 0) [0] noMat, ?_, by decide, by norm_num [positions, posD, pos1],
    by norm_num [positions, posD, pos1], by decide⟩
  exact subsetM_of_calc mat23_isMat h

/-! ## C38 fractional indices -/

namespace Spec
/-- The index argument with every double replaced by its integer part. -/
def truncated : Index → Index
  | .dbl (.fin q) => .int ⌊q⌋
  | .vdbl l => .vint (l.map (fun x => match x with
    | .fin q => .i ⌊q⌋
    | x => .d x))
  | idx => idx
end Spec

theorem positions_truncated {n : Nat} {idx : Index} {r : List Nat} (h : positions n idx = some r) :
    positions n (truncated idx) = some r := by
  cases idx with
  | dbl x =>
    cases x with
    | fin q => exact h
    | nan => exact h
    | inf s => exact h
  | vdbl l =>
    obtain ⟨e, h0⟩ := positions_entries h
    refine entries_positions ?_ h0
    rw [← e]
    simp only [truncated, Index.entries, List.map_map]
    apply List.map_congr_left
    intro x _
    cases x <;> rfl
  | lgl b => exact h
  | int k => exact h
  | vlgl l => exact h
  | vint l => exact h

theorem pass_truncated {n : Nat} (hn : n < 2 ^ 31) {idx : Index} {r : List Nat} (hp : idx.Pass)
    (h : positions n idx = some r) : (truncated idx).Pass := by
  cases idx with
  | dbl x =>
    cases x with
    | fin q =>
      obtain ⟨j, _, hj⟩ := positions_dbl h
      obtain ⟨q', hq, hf, h2⟩ := posD_some hj
      cases hq
      show InI32 _
      rw [hf]; unfold InI32; omega
    | nan => trivial
    | inf s => trivial
  | vdbl l =>
    obtain ⟨e, h0⟩ := positions_entries h
    have R := forall₂_map (p := posD n) (l := l) e
    intro x hx
    simp only [List.mem_map] at hx
    obtain ⟨y, hy, rfl⟩ := hx
    obtain ⟨i, hi, rfl⟩ := List.mem_iff_getElem.mp hy
    obtain ⟨hl, hg⟩ := List.forall₂_iff_get.mp R
    obtain ⟨q, hq, hf, h2⟩ := posD_some (hg i hi (by omega)).2
    simp only [List.get_eq_getElem] at hq
    rw [hq]
    show InI32 _
    rw [hf]; unfold InI32; omega
  | lgl b => exact hp
  | int k => exact hp
  | vlgl l => exact hp
  | vint l => exact hp

/-- C38 for matrices: every combination but two doubles (C37) and a vector of doubles with a fractional
column (`C38_false_column`); truncating the indices first gives the same cells and the same shape. -/
theorem C38_matrix_partial {d : MatDim} (hn : d.n = d.nr * d.nc) (hlim : d.nr * d.nc < 2 ^ 31) {r c : Index}
    (pr : r.Pass) (pc : c.Pass) {rows cols : List Nat} (hr : positions d.nr r = some rows)
    (hc : positions d.nc c = some cols) (ha : Addressed r c) (mr : MaskFits d.nr r c)
    (mc : MaskFits d.nc c r) (ws : List String) :
    ∃ res ws1 ws2, calcIndMatrix d r c ws = (.ok res, ws1) ∧
      calcIndMatrix d (truncated r) (truncated c) ws = (.ok res, ws2) := by
  have hnr := positions_pos hr
  have hnc := positions_pos hc
  have h4 := dim_lt (nr := d.nr) (nc := d.nc) (by omega) hlim
  have h5 := dim_lt (nr := d.nc) (nc := d.nr) (by omega) (by rw [Nat.mul_comm]; exact hlim)
  obtain ⟨w1, e1⟩ := calcIndMatrix_ok hn hlim pr pc hr hc ha mr mc ws
  have kt : ∀ {n : Nat} {idx : Index} {r : List Nat}, positions n idx = some r →
      keepsDim (truncated idx) = keepsDim idx ∧ ∀ x, truncated idx ≠ .dbl x := by
    intro n idx r h
    cases idx with
    | dbl x =>
      obtain ⟨j, _, hj⟩ := positions_dbl h
      obtain ⟨q', rfl, _⟩ := posD_some hj
      exact ⟨rfl, by intro x; simp [truncated]⟩
    | _ => exact ⟨rfl, by intro x; simp [truncated]⟩
  have mt : ∀ {n : Nat} {idx other : Index}, keepsDim (truncated other) = keepsDim other →
      MaskFits n idx other → MaskFits n (truncated idx) (truncated other) := by
    intro n idx other hk h
    cases idx with
    | dbl x => cases x <;> exact h
    | vlgl l =>
      show (if keepsDim (truncated other) then _ else _)
      rw [hk]; exact h
    | _ => exact h
  have ha' : Addressed (truncated r) (truncated c) := by
    have h1 := (kt hr).2
    have h2 := (kt hc).2
    generalize truncated r = r' at h1
    generalize truncated c = c' at h2
    cases r' <;> cases c' <;> first | trivial | exact absurd rfl (h2 _)
  obtain ⟨w2, e2⟩ := calcIndMatrix_ok hn hlim (pass_truncated h4 pr hr) (pass_truncated h5 pc hc)
    (positions_truncated hr) (positions_truncated hc) ha' (mt (kt hc).1 mr) (mt (kt hr).1 mc) ws
  refine ⟨_, w1, w2, e1, ?_⟩
  rw [e2]
  congr 3
  have kr := (kt hr).1
  have kc := (kt hc).1
  cases r with
  | dbl x =>
    obtain ⟨j, _, hj⟩ := positions_dbl hr
    obtain ⟨q', rfl, _⟩ := posD_some hj
    cases c with
    | dbl x =>
      obtain ⟨j, _, hj⟩ := positions_dbl hc
      obtain ⟨q', rfl, _⟩ := posD_some hj
      rfl
    | _ => rfl
  | _ =>
    cases c with
    | dbl x =>
      obtain ⟨j, _, hj⟩ := positions_dbl hc
      obtain ⟨q', rfl, _⟩ := posD_some hj
      rfl
    | _ => rfl

/-- C38 is false for a vector of doubles with a fractional column: `m(c(1.0), 2.5)` of a 2 x 3 matrix
addresses position 3 (row 2, column 2), `m(c(1.0), 2)` position 2 (row 1, column 2). -/
theorem C38_false_column :
    calcIndMatrix ⟨6, 2, 3, ⟨true, 2, 3⟩⟩ (.vdbl [.fin 1]) (.dbl (.fin (5 / 2))) [] = (.ok ([3], noMat), []) ∧
    calcIndMatrix ⟨6, 2, 3, ⟨true, 2, 3⟩⟩ (.vdbl [.fin 1]) (.int 2) [] = (.ok ([2], noMat), []) ∧
    truncated (.dbl (.fin (5 / 2))) = .int 2 := by
  refine ⟨by decide +kernel, by decide +kernel, ?_⟩
  simp only [truncated]
  norm_num

/-! ## C39 each index against its own dimension -/

/-- What is checked for two `int`s: only that the position `(c - 1) * nr + (r - 1)` lies in the matrix, when
the element is read.  (`m` a named matrix or a temporary.) -/
theorem C39_characterised {env : Env V} {e : Expr V} {nr nc : Nat} {l : List V} (hm : IsMat env e nr nc l)
    (hck : CheckedEl env e l) (hpos : 1 ≤ l.length) (hlim : l.length < 2 ^ 31) {r c : Int} (hr : InI32 r)
    (hc : InI32 c) (hc' : c ≠ -2147483648) (ws : List String) :
    ∃ e', subsetM env e (.int r) (.int c) ws = (.ok e', ws) ∧ e'.size env = 1 ∧
      (∀ k : Nat, (c - 1) * nr + (r - 1) = (k : Int) → ∀ h : k < l.length, e'.el env 0 = .ok l[k]) ∧
      ((¬ ∃ k : Nat, (c - 1) * nr + (r - 1) = (k : Int) ∧ k < l.length) → ∃ m, e'.el env 0 = .thr m) := by
  unfold InI32 at hr hc
  have hlen := hm.len
  have hnc0 : 0 < nc := by
    rcases Nat.eq_zero_or_pos nc with h | h
    · subst h; omega
    · exact h
  have hnr := dim_lt (nr := nr) (nc := nc) hnc0 (by omega)
  have hcalc : calcIndMatrix ⟨l.length, nr, nc, e.dmp env⟩ (.int r) (.int c) ws
      = (.ok ([wrap64 ((c - 1) * nr + rowOfInt r)], noMat), ws) := by
    simp only [calcIndMatrix, calcInt, grid]
    have : Out.all ([c].flatMap fun j => List.map (fun i => colI nr j i) [rowOfInt r])
        = .ok [wrap64 ((c - 1) * nr + rowOfInt r)] := by
      simp only [List.flatMap_cons, List.flatMap_nil, List.append_nil, List.map_cons, List.map_nil, colI]
      rw [ckI32_ok (by unfold InI32; omega)]
      rfl
    rw [this]
    rfl
  refine ⟨_, subsetM_of_calc hm hcalc, rfl, ?_, ?_⟩
  all_goals
    have hmod : modz 0 (e.size env) = .ok 0 := by
      rw [hck.1.1]; unfold modz; rw [if_neg (by omega)]; simp
    have hw : wrap64 ((c - 1) * nr + rowOfInt r) = wrap64 ((c - 1) * nr + (r - 1)) := by
      unfold rowOfInt pred64 wrap64 two64
      omega
    simp only [Expr.el, hmod, Out.ok_bind, getL, List.getElem?_cons_zero, hw]
  · intro k hk h
    rw [hk, wrap64_of_nonneg (by omega) (by omega)]
    exact hck.1.2 _ h
  · intro hno
    apply hck.2
    by_contra hlt
    apply hno
    have hb1 : (c - 1) * nr ≤ 2 ^ 31 * 2 ^ 31 := by
      by_cases h0 : 0 ≤ c - 1
      · exact mul_le_mul (by omega) (by omega) (by omega) (by norm_num)
      · have : (c - 1) * nr ≤ 0 := mul_nonpos_of_nonpos_of_nonneg (by omega) (by omega)
        omega
    have hb2 : -(2 ^ 31 * 2 ^ 31) ≤ (c - 1) * nr := by
      by_cases h0 : 0 ≤ c - 1
      · have : 0 ≤ (c - 1) * nr := mul_nonneg h0 (by omega)
        omega
      · have : (1 - c) * nr ≤ 2 ^ 31 * 2 ^ 31 := mul_le_mul (by omega) (by omega) (by omega) (by norm_num)
        have e : (c - 1) * nr = -((1 - c) * nr) := by ring
        omega
    by_cases hz : 0 ≤ (c - 1) * nr + (r - 1)
    · rw [wrap64_of_nonneg hz (by omega)] at hlt
      exact ⟨_, (Int.toNat_of_nonneg hz).symm, by omega⟩
    · have := wrap64_of_neg (n := (c - 1) * nr + (r - 1)) (by omega) (by omega)
      omega

/-- C39 for the column: a row in range with a column out of range is rejected. -/
theorem C39_column_partial {env : Env V} {e : Expr V} {nr nc : Nat} {l : List V} (hm : IsMat env e nr nc l)
    (hck : CheckedEl env e l) (hpos : 1 ≤ l.length) (hlim : l.length < 2 ^ 31) {r c : Int} (hr1 : 1 ≤ r)
    (hr2 : r ≤ nr) (hc : InI32 c) (hc' : c ≠ -2147483648) (hbad : ¬ (1 ≤ c ∧ c ≤ nc)) (ws : List String) :
    ∃ e' m, subsetM env e (.int r) (.int c) ws = (.ok e', ws) ∧ e'.el env 0 = .thr m := by
  have hlen := hm.len
  have hnc0 : 0 < nc := by
    rcases Nat.eq_zero_or_pos nc with h | h
    · subst h; omega
    · exact h
  have hnr := dim_lt (nr := nr) (nc := nc) hnc0 (by omega)
  obtain ⟨e', a, _, _, b⟩ := C39_characterised hm hck hpos hlim (r := r) (c := c)
    (by unfold InI32; omega) hc hc' ws
  obtain ⟨m, hm'⟩ := b (by
    rintro ⟨k, hk, hkl⟩
    apply hbad
    constructor
    · by_contra h
      have : (c - 1) * nr ≤ (-1) * nr := mul_le_mul_of_nonneg_right (by omega) (by omega)
      omega
    · by_contra h
      have : (nc : Int) * nr ≤ (c - 1) * nr := mul_le_mul_of_nonneg_right (by omega) (by omega)
      have e : (l.length : Int) = nc * nr := by rw [hlen]; push_cast; ring
      omega)
  exact ⟨e', m, a, hm'⟩

/-- C39 is false: `m(3, 1)` of a 2 x 3 matrix is the element in row 1 and column 2. -/
theorem C39_false :
    ∃ e', subsetM mat23 (.leaf 0) (.int 3) (.int 1) [] = (.ok e', []) ∧ e'.el mat23 0 = .ok 12 ∧
      positions 2 (.int 3) = none :=
  ⟨.sub (.leaf 0) [2] noMat, rfl, by decide, by decide⟩

/-- The hypotheses of `C39_column_partial` hold for `m(2, 4)`. -/
example : IsMat mat23 (.leaf 0) 2 3 [11, 21, 12, 22, 13, 23] ∧
    CheckedEl mat23 (.leaf 0) [11, 21, 12, 22, 13, 23] ∧ ¬ ((1 : Int) ≤ 4 ∧ (4 : Int) ≤ (3 : Nat)) := by
  refine ⟨mat23_isMat, ⟨mat23_isMat.den, fun j hj => ?_⟩, by decide⟩
  exact ⟨"Error: out of boundaries --> value beyond size of vector", by
    simp only [Expr.el, mat23, listEnv, getL]
    rw [List.getElem?_eq_none (by simpa using hj)]⟩

/-- A number or a vector of numbers. -/
def Index.numeric : Index → Prop
  | .lgl _ => False
  | .vlgl _ => False
  | _ => True

/-- The number of columns is not used if the column index is numeric. -/
theorem calcIndMatrix_nc (n nr nc : Nat) (dmp : MP) (n' nc' : Nat) (r : Index) {c : Index} (hc : c.numeric) :
    calcIndMatrix ⟨n, nr, nc, dmp⟩ r c = calcIndMatrix ⟨n', nr, nc', dmp⟩ r c := by
  cases c <;> first | exact hc.elim | (cases r <;> rfl)

/-- C39 for columns, all kinds of indices: if all rows lie within the matrix and one of the columns (given as a number or a vector of
numbers) lies behind the last one, then reading `m(r, c)` throws (`m` a named matrix or a temporary, not more cells than the matrix
has, C36).  So does every assignment `x = m(r, c)`. -/
theorem C39_columns_partial {env : Env V} {e : Expr V} {nr nc : Nat} {l : List V} (hm : IsMat env e nr nc l)
    (hck : CheckedEl env e l) {r c : Index} (pr : r.Pass) (pc : c.Pass) (hnum : c.numeric) {N : Nat} (hN : nr * N < 2 ^ 31)
    {rows cols : List Nat} (hr : positions nr r = some rows) (hc : positions N c = some cols) (hbad : ∃ j ∈ cols, nc ≤ j)
    (ha : Addressed r c) (mr : MaskFits nr r c) (hle : rows.length * cols.length ≤ l.length) (ws : List String) :
    ∃ e' ws', subsetM env e r c ws = (.ok e', ws') ∧ ∃ i, i < e'.size env ∧ ∃ m, e'.el env i = .thr m := by
  have mc : MaskFits N c r := by cases c <;> first | exact hnum.elim | trivial
  obtain ⟨ws', h⟩ := calcIndMatrix_ok (d := ⟨nr * N, nr, N, e.dmp env⟩) rfl hN pr pc hr hc ha mr mc ws
  rw [calcIndMatrix_nc _ _ _ _ l.length nc _ hnum] at h
  refine ⟨_, ws', subsetM_of_calc hm h, ?_⟩
  obtain ⟨j, hj, hjc⟩ := hbad
  obtain ⟨k, hk, rfl⟩ := List.getElem_of_mem hj
  have hr0 : 0 < rows.length := List.length_pos_iff.mpr (positions_entries hr).2
  have hlt : k * rows.length + 0 < (cells nr rows cols).length := by
    rw [cells_length]
    have := cell_lt (nr := rows.length) (nc := cols.length) hk hr0
    omega
  refine ⟨k * rows.length + 0, hlt, ?_⟩
  have hget := cells_get nr rows cols 0 k hr0 hk
  have hmod : modz (k * rows.length + 0) (e.size env) = .ok (k * rows.length + 0) := by
    rw [cells_length] at hlt
    rw [hck.1.1]; unfold modz; rw [if_neg (by omega), Nat.mod_eq_of_lt (by omega)]
  simp only [Expr.el, hmod, Out.ok_bind, getL, hget]
  apply hck.2
  rw [hm.len, Nat.mul_comm]
  exact (Nat.mul_le_mul_right nr hjc).trans (Nat.le_add_right _ _)

/-- `m(c(1, 2), c(3, 4))` of a 2 x 3 matrix. -/
example : ∃ e' ws', subsetM mat23 (.leaf 0) (.vint [.i 1, .i 2]) (.vint [.i 3, .i 4]) [] = (.ok e', ws') ∧
    ∃ i, i < e'.size mat23 ∧ ∃ m, e'.el mat23 i = .thr m :=
  C39_columns_partial mat23_isMat ⟨mat23_isMat.den, fun j hj => ⟨"Error: out of boundaries --> value beyond size of vector", by
    simp only [Expr.el, mat23, listEnv, getL]
    rw [List.getElem?_eq_none (by simpa using hj)]⟩⟩ (r := .vint [.i 1, .i 2]) (c := .vint [.i 3, .i 4])
    (by simp [Index.Pass, Scal.Pass, InI32]) (by simp [Index.Pass, Scal.Pass, InI32])
    trivial (N := 5) (by decide) (rows := [0, 1]) (cols := [2, 3]) (by decide) (by decide) ⟨3, by decide, by decide⟩ trivial trivial (by decide) []

/-! ## C40 masks -/

/-- C40 where the other index is a single number: the mask is recycled. -/
theorem C40_recycled_partial {env : Env V} {e : Expr V} {nr nc : Nat} {l : List V} (hm : IsMat env e nr nc l)
    (hlim : l.length < 2 ^ 31) {mask : List Bool} (hlen : mask.length ≤ nr) {k : Nat} (h1 : 1 ≤ k) (h2 : k ≤ nc)
    (hsome : posM nr mask ≠ []) (ws : List String) :
    ∃ e' ws', subsetM env e (.vlgl mask) (.int k) ws = (.ok e', ws') ∧
      ∃ l', Denotes env e' l' ∧ l'.map some
        = ((List.range nr).filter (fun i => mask[i % mask.length]? = some true)).map
            (fun i => l[(k - 1) * nr + i]?) := by
  have hr : positions nr (.vlgl mask) = some (posM nr mask) := by simp only [positions, if_neg hsome]
  have hc : positions nc (.int k) = some [k - 1] := by
    have : (1 : Int) ≤ k ∧ (k : Int) ≤ nc := by omega
    simp only [positions, pos1, if_pos this, Option.map_some, Option.some.injEq, List.cons.injEq, and_true]
    omega
  have hl := hm.len
  have hnr := positions_pos hr
  have hnc := dim_lt (nr := nc) (nc := nr) hnr (by rw [Nat.mul_comm]; omega)
  obtain ⟨ws', h⟩ := subsetM_ok hm hlim (r := .vlgl mask) (c := .int k) trivial
    (by show InI32 _; unfold InI32; omega) hr hc trivial hlen trivial ws
  have hle : (posM nr mask).length ≤ nr := by
    unfold posM
    exact (List.length_filter_le _ _).trans (by simp)
  obtain ⟨l', d, g⟩ := sub_gather hm.den (r := cells nr (posM nr mask) [k - 1])
    (by rw [hm.len]; exact cells_lt (positions_lt hr) (positions_lt hc))
    (by
      rw [cells_length]
      have : nr * 1 ≤ nr * nc := Nat.mul_le_mul_left _ (by omega)
      simp only [List.length_cons, List.length_nil]; omega) _
  refine ⟨_, ws', h, l', d, ?_⟩
  unfold Gather at g
  rw [g, cells_single, List.map_map]
  rfl

/-- C40 where the other index keeps the dimension and the mask has the length of the dimension, for rows and
columns: the mask selects the rows (columns) that are TRUE. -/
theorem C40_full_length_partial {env : Env V} {e : Expr V} {nr nc : Nat} {l : List V}
    (hm : IsMat env e nr nc l) (hlim : l.length < 2 ^ 31) {rm cm : List Bool} (hr : rm.length = nr)
    (hc : cm.length = nc) (h1 : posM nr rm ≠ []) (h2 : posM nc cm ≠ []) (ws : List String) :
    ∃ e' ws' l', subsetM env e (.vlgl rm) (.vlgl cm) ws = (.ok e', ws') ∧ Denotes env e' l' ∧
      l'.length = (posM nr rm).length * (posM nc cm).length ∧
      ∀ i j (hi : i < (posM nr rm).length) (hj : j < (posM nc cm).length),
        l'[j * (posM nr rm).length + i]? = l[(posM nc cm)[j] * nr + (posM nr rm)[i]]? := by
  have hle : ∀ n m, (posM n m).length ≤ n := by
    intro n m
    unfold posM
    exact (List.length_filter_le _ _).trans (by simp)
  exact C36_elements_partial hm hlim (r := .vlgl rm) (c := .vlgl cm) trivial trivial
    (by simp only [positions, if_neg h1]) (by simp only [positions, if_neg h2]) trivial
    (by simp [MaskFits, keepsDim, hr]) (by simp [MaskFits, keepsDim, hc])
    (by rw [hm.len]; exact Nat.mul_le_mul (hle _ _) (hle _ _)) ws

/-- C40 is false for masks shorter than the dimension (not recycled: of 3 columns the mask `TRUE` selects
only the first), for longer ones (a column is selected twice), and with a single number a longer mask
is rejected. -/
theorem C40_false :
    calcIndMatrix ⟨6, 2, 3, ⟨true, 2, 3⟩⟩ (.lgl true) (.vlgl [true]) [] = (.ok ([0, 1], ⟨true, 2, 1⟩), []) ∧
    posM 3 [true] = [0, 1, 2] ∧
    calcIndMatrix ⟨6, 2, 3, ⟨true, 2, 3⟩⟩ (.lgl true) (.vlgl [true, false, false, true]) []
      = (.ok ([0, 1, 0, 1], ⟨true, 2, 2⟩), []) ∧
    posM 3 [true, false, false, true] = [0] ∧
    calcIndMatrix ⟨6, 2, 3, ⟨true, 2, 3⟩⟩ (.int 1) (.vlgl [true, false, false, true]) []
      = (.thr "Error in matrix: logical subscript too long", []) := by
  refine ⟨by decide +kernel, by decide, by decide +kernel, by decide, by decide +kernel⟩

example : IsMat mat23 (.leaf 0) 2 3 [11, 21, 12, 22, 13, 23] ∧ posM 2 [true] = [0, 1] ∧ posM 2 [false, true] = [1] ∧
    posM 3 [true, false, true] = [0, 2] := ⟨mat23_isMat, by decide, by decide, by decide⟩

/-! ## C41 assignment -/

theorem cells_nodup {nr : Nat} {rows cols : List Nat} (hr : ∀ r ∈ rows, r < nr) (dr : rows.Nodup)
    (dc : cols.Nodup) : (cells nr rows cols).Nodup := by
  induction cols with
  | nil => exact List.nodup_nil
  | cons c cs ih =>
    rw [List.nodup_cons] at dc
    unfold cells at ih ⊢
    rw [List.flatMap_cons, List.nodup_append]
    refine ⟨?_, ih dc.2, ?_⟩
    · exact (List.nodup_map_iff (fun a b h => by simpa using h)).mpr dr
    · intro a ha b hb hab
      subst hab
      simp only [List.mem_map, List.mem_flatMap] at ha hb
      obtain ⟨r, hr1, rfl⟩ := ha
      obtain ⟨c', hc', r', hr', h⟩ := hb
      apply dc.1
      have h1 := hr _ hr1
      have h2 := hr _ hr'
      have e1 : (c' * nr + r') / nr = c' := by
        rw [Nat.mul_comm, Nat.mul_add_div (by omega), Nat.div_eq_of_lt h2, Nat.add_zero]
      have e2 : (c * nr + r) / nr = c := by
        rw [Nat.mul_comm, Nat.mul_add_div (by omega), Nat.div_eq_of_lt h1, Nat.add_zero]
      rw [h, e2] at e1
      rw [e1]; exact hc'

theorem nodup_length_le {n : Nat} {l : List Nat} (hd : l.Nodup) (h : ∀ j ∈ l, j < n) : l.length ≤ n := by
  have := List.Subperm.length_le (List.subperm_of_subset hd (fun j hj => List.mem_range.mpr (h j hj)))
  simpa using this

namespace Mach

/-- C41, for matrices that own or borrow their memory.  `w` are the elements of `m` before the assignment, `L` those of
the right-hand side.  Afterwards the cell in row `rows[i]` and column `cols[j]` holds `L[j * nrows + i]`,
all other cells and the shape are unchanged, and reading `m(r, c)` again gives `L`. -/
theorem C41_partial {zero : V} {s : Mach V} (r : Reach zero s) {x : Nat} (hx : x < s.n)
    {w : List V} (sh : ShowsVar s x w) {nr nc : Nat} (hmp : s.env.mp x = ⟨true, nr, nc⟩)
    (hw : w.length = nr * nc) (hlim : nr * nc < 2 ^ 30) {ri ci : Index} (pr : ri.Pass) (pc : ci.Pass)
    {rows cols : List Nat} (hr : positions nr ri = some rows) (hc : positions nc ci = some cols)
    (dr : rows.Nodup) (dc : cols.Nodup) (ha : Addressed ri ci) (mr : MaskFits nr ri ci)
    (mc : MaskFits nc ci ri) {conv : V → Out V} {same : Bool} {e : Expr V} {L : List V}
    (hlen : L.length = rows.length * cols.length) (hsz : e.size s.env = L.length)
    (hel : ∀ i (hi : i < L.length), (e.el s.env i >>= conv) = .ok L[i]) (ws : List String) :
    ∃ ind mp ws' s' w', subsetM s.env (.leaf x) ri ci ws = (.ok (.sub (.leaf x) ind mp), ws') ∧
      exec zero (.subAssign conv same x ind e) s = (.ok (), s') ∧ ShowsVar s' x w' ∧
      w'.length = w.length ∧ s'.env.mp x = ⟨true, nr, nc⟩ ∧
      (∀ i j (hi : i < rows.length) (hj : j < cols.length),
        w'[cols[j] * nr + rows[i]]? = L[j * rows.length + i]?) ∧
      (∀ i j, i < nr → j < nc → (i ∉ rows ∨ j ∉ cols) → w'[j * nr + i]? = w[j * nr + i]?) ∧
      (∀ y, y < s.n → y ≠ x → (Shares s x y → s.bor x = true ∧ s.bor y = true) ∧ (¬ Shares s x y → SameVar s s' y)) ∧
      ∃ e' ws'', subsetM s'.env (.leaf x) ri ci ws' = (.ok e', ws'') ∧ Denotes s'.env e' L := by
  have isMat : IsMat s.env (.leaf x) nr nc w := ⟨⟨sh.1, sh.2⟩, by simp [Expr.im, hmp], by simp [Expr.nr, hmp],
    by simp [Expr.nc, hmp], hw⟩
  obtain ⟨ws', h⟩ := subsetM_ok isMat (by omega) pr pc hr hc ha mr mc ws
  have hrl := positions_lt hr
  have hcl := positions_lt hc
  have hlt : ∀ j ∈ cells nr rows cols, j < w.length := by rw [hw]; exact cells_lt hrl hcl
  have hnd := cells_nodup hrl dr dc
  have hle := nodup_length_le hnd hlt
  have hcl' := cells_length nr rows cols
  have hL : L ≠ [] := by
    rintro rfl
    have h1 := List.length_pos_iff.mpr (positions_entries hr).2
    have h2 := List.length_pos_iff.mpr (positions_entries hc).2
    have := Nat.mul_pos h1 h2
    simp only [List.length_nil] at hlen; omega
  obtain ⟨s', e1, sh1, m1, o1⟩ := r.inv.subAssign_any (zero := zero) (same := same) hx sh hle
    (hlen.trans hcl'.symm) hsz hel hL (by omega) hlt
  have W := written_writes (w := w) (ind := cells nr rows cols) (L := L) (hlen.trans hcl'.symm) hlt
  generalize writes w (cells nr rows cols) L = w' at sh1 W
  have hcell : ∀ k (hk : k < (cells nr rows cols).length), w'[(cells nr rows cols)[k]]? = L[k]? := by
    intro k hk
    have h1 := hlt _ (List.getElem_mem hk)
    have hk' : k < L.length := by omega
    rw [List.getElem?_eq_getElem (by rw [W.len]; exact h1), List.getElem?_eq_getElem hk',
      W.last k hk hk' (by rw [W.len]; exact h1) (by
        intro m hm hkm he
        have := (List.Nodup.getElem_inj_iff hnd).mp he
        omega)]
  have hmp' : s'.env.mp x = ⟨true, nr, nc⟩ := m1.trans hmp
  refine ⟨_, _, ws', s', w', h, e1, sh1, W.len, hmp', ?_, ?_, fun y hy hyx => ⟨r.inv.shares_borrowed hyx, o1 y hy⟩, ?_⟩
  · intro i j hi hj
    have h1 := cells_get nr rows cols i j hi hj
    obtain ⟨hk, h2⟩ := List.getElem?_eq_some_iff.mp h1
    rw [← h2]
    exact hcell _ hk
  · intro i j hi hj hn
    have h1 : j * nr + i < w.length := by rw [hw]; exact cell_lt hj hi
    rw [List.getElem?_eq_getElem (by rw [W.len]; exact h1), List.getElem?_eq_getElem h1, W.other _ h1]
    intro hm
    simp only [cells, List.mem_flatMap, List.mem_map] at hm
    obtain ⟨c', hc', r', hr', he⟩ := hm
    have h2 := hrl _ hr'
    have e1 : (c' * nr + r') / nr = c' := by
      rw [Nat.mul_comm, Nat.mul_add_div (by omega), Nat.div_eq_of_lt h2, Nat.add_zero]
    have e2 : (j * nr + i) / nr = j := by
      rw [Nat.mul_comm, Nat.mul_add_div (by omega), Nat.div_eq_of_lt hi, Nat.add_zero]
    have hj' : c' = j := by rw [he, e2] at e1; exact e1.symm
    subst hj'
    have : r' = i := by omega
    subst this
    rcases hn with h | h
    · exact h hr'
    · exact h hc'
  · have isMat' : IsMat s'.env (.leaf x) nr nc w' := ⟨⟨sh1.1, sh1.2⟩, by simp [Expr.im, hmp'],
      by simp [Expr.nr, hmp'], by simp [Expr.nc, hmp'], W.len.trans hw⟩
    obtain ⟨ws'', h'⟩ := subsetM_ok isMat' (by rw [W.len]; omega) pr pc hr hc ha mr mc ws'
    refine ⟨_, ws'', h', ?_⟩
    obtain ⟨l', d, g⟩ := sub_gather isMat'.den (r := cells nr rows cols) (by rw [W.len]; exact hlt)
      (by rw [W.len]; exact hle) (codeShape ⟨w'.length, nr, nc, Expr.dmp s'.env (.leaf x)⟩ ri ci rows.length cols.length)
    have : l' = L := by
      unfold Gather at g
      have h1 : l'.length = (cells nr rows cols).length := by simpa using congrArg List.length g
      apply List.ext_getElem (by omega)
      intro k hk1 hk2
      have h2 := congrArg (fun t => t[k]?) g
      have hk3 : k < (cells nr rows cols).length := by omega
      simp only [List.getElem?_map, List.getElem?_eq_getElem hk1, List.getElem?_eq_getElem hk3,
        Option.map_some] at h2
      rw [hcell k hk3, List.getElem?_eq_getElem hk2] at h2
      simpa using h2
    rw [← this]; exact d

/-- A reachable state with a 2 x 3 matrix, and `m(c(2, 1), 3) = (5, 6)` in it. -/
example : ∃ s, Reach (0 : Int) s ∧ 0 < s.n ∧ s.bor 0 = false ∧ ShowsVar s 0 [1, 1, 1, 1, 1, 1] ∧
    s.env.mp 0 = ⟨true, 2, 3⟩ ∧ positions 2 (.vint [.i 2, .i 1]) = some [1, 0] ∧
    positions 3 (.int 3) = some [2] ∧
    (exec 0 (.subAssign .ok true 0 (cells 2 [1, 0] [2]) (.rvec [5, 6] {})) s).2.env.get 0 5 = .ok 5 :=
  ⟨_, ⟨[.declMatVal 2 3 1], .cons (by show _ ≤ _; decide) trivial, Prod.ext (by decide +kernel) rfl⟩,
    by decide +kernel, by decide +kernel, ⟨by decide +kernel, by decide +kernel⟩, by decide +kernel,
    by decide, by decide, by decide +kernel⟩

/-! ### The theorems applied to a matrix with two rows and three columns -/

theorem mat23_checked : CheckedEl mat23 (.leaf 0) [11, 21, 12, 22, 13, 23] :=
  ⟨mat23_isMat.den, fun j hj => ⟨"Error: out of boundaries --> value beyond size of vector", by
    simp only [Expr.el, mat23, listEnv, getL]
    rw [List.getElem?_eq_none (by simpa using hj)]⟩⟩

/-- `m(c(2, 1), c(3, 1))`. -/
example : ∃ e' ws' l', subsetM mat23 (.leaf 0) (.vint [.i 2, .i 1]) (.vint [.i 3, .i 1]) [] = (.ok e', ws') ∧ Denotes mat23 e' l' ∧
    l'.length = 4 ∧ l'[2]? = some 21 := by
  obtain ⟨e', ws', l', h1, h2, h3, h4⟩ := C36_elements_partial mat23_isMat (by decide) (r := .vint [.i 2, .i 1]) (c := .vint [.i 3, .i 1])
    (by simp [Index.Pass, Scal.Pass, InI32]) (by simp [Index.Pass, Scal.Pass, InI32]) (rows := [1, 0]) (cols := [2, 0]) (by decide) (by decide)
    trivial trivial trivial (by decide) []
  exact ⟨e', ws', l', h1, h2, h3, h4 0 1 (by decide) (by decide)⟩

example : ∃ e' ws', subsetM mat23 (.leaf 0) (.vint [.i 2, .i 1]) (.vint [.i 3, .i 1]) [] = (.ok e', ws') ∧ e'.im mat23 = true := by
  obtain ⟨e', ws', h1, h2, _⟩ := C36_shape_partial mat23_isMat (by decide) (r := .vint [.i 2, .i 1]) (c := .vint [.i 3, .i 1])
    (by simp [Index.Pass, Scal.Pass, InI32]) (by simp [Index.Pass, Scal.Pass, InI32]) (rows := [1, 0]) (cols := [2, 0]) (by decide) (by decide)
    trivial trivial trivial (fun m h => by cases h) (.inl id) []
  exact ⟨e', ws', h1, h2⟩

/-- `m(1.0, 3.0)` of a matrix with one row and five columns, and `m(2.0, 3.0)` of one with two rows. -/
example : (∃ ws', calcIndMatrix ⟨5, 1, 5, {}⟩ (.dbl (.fin 1)) (.dbl (.fin 3)) [] = (.ok ([2], ⟨false, 0, 0⟩), ws')) ∧
    ∃ ws', calcIndMatrix ⟨10, 2, 5, {}⟩ (.dbl (.fin 2)) (.dbl (.fin 3)) [] = (.ok ([wrap64 2], ⟨false, 0, 0⟩), ws') :=
  ⟨(C37_one_row_partial (n := 5) {} (by decide) (r := 0) (c := 2) (by decide +kernel) (by decide +kernel) []).mpr rfl,
    C37_characterised (n := 10) (nr := 2) (nc := 5) {} (by decide) (by decide) (r := 1) (c := 2) (by decide +kernel) (by decide +kernel) []⟩

example : ∃ res ws1 ws2, calcIndMatrix ⟨6, 2, 3, {}⟩ (.vdbl [.fin (5 / 2), .fin 1]) (.vint [.i 3, .i 1]) [] = (.ok res, ws1) ∧
    calcIndMatrix ⟨6, 2, 3, {}⟩ (truncated (.vdbl [.fin (5 / 2), .fin 1])) (truncated (.vint [.i 3, .i 1])) [] = (.ok res, ws2) :=
  C38_matrix_partial (d := ⟨6, 2, 3, {}⟩) rfl (by decide) (r := .vdbl [.fin (5 / 2), .fin 1]) (c := .vint [.i 3, .i 1])
    (by simp [Index.Pass]) (by simp [Index.Pass, Scal.Pass, InI32])
    (rows := [1, 0]) (cols := [2, 0]) (by decide +kernel) (by decide) trivial trivial trivial []

/-- `m(3, 1)` is `m(1, 2)`, and `m(2, 4)` throws when it is read. -/
example : ∃ e', subsetM mat23 (.leaf 0) (.int 3) (.int 1) [] = (.ok e', []) ∧ e'.el mat23 0 = .ok 12 := by
  obtain ⟨e', h1, _, h2, _⟩ := C39_characterised mat23_isMat mat23_checked (by decide) (by decide) (r := 3) (c := 1) (by decide) (by decide)
    (by decide) []
  exact ⟨e', h1, h2 2 (by decide) (by decide)⟩

example : ∃ e' m, subsetM mat23 (.leaf 0) (.int 2) (.int 4) [] = (.ok e', []) ∧ e'.el mat23 0 = .thr m :=
  C39_column_partial mat23_isMat mat23_checked (by decide) (by decide) (by decide) (by decide) (by decide) (by decide) (by decide) []

/-- `m(TRUE, 2)` and `m(c(FALSE, TRUE), c(TRUE, FALSE, TRUE))`. -/
example : ∃ e' ws', subsetM mat23 (.leaf 0) (.vlgl [true]) (.int 2) [] = (.ok e', ws') ∧
    ∃ l', Denotes mat23 e' l' ∧ l'.map some = [some 12, some 22] :=
  C40_recycled_partial mat23_isMat (by decide) (mask := [true]) (by decide) (k := 2) (by decide) (by decide) (by decide) []

example : ∃ e' ws' l', subsetM mat23 (.leaf 0) (.vlgl [false, true]) (.vlgl [true, false, true]) [] = (.ok e', ws') ∧ Denotes mat23 e' l' ∧
    l'[1]? = some 23 := by
  obtain ⟨e', ws', l', h1, h2, _, h3⟩ := C40_full_length_partial mat23_isMat (by decide) (rm := [false, true]) (cm := [true, false, true]) rfl rfl
    (by decide) (by decide) []
  exact ⟨e', ws', l', h1, h2, h3 0 1 (by decide) (by decide)⟩

end Mach
end ETR
