import Verif.Lemmas.Subset
import Verif.Lemmas.MachSub
import Verif.Props.Expr

/-! Vector subsetting: C29, C30, C31, C32, C33, C34, C35, C38 (vectors), C43, C44. -/

namespace ETR
open Spec

variable {V : Type}

/-- Reading a subset whose indices denote the positions `r`, not more than the object has elements:
the subset has exactly the addressed elements.  For every kind of subsetted object (named vector,
temporary, arithmetic expression, subset). -/
theorem subset_gather {env : Env V} {e : Expr V} {l : List V} (he : Denotes env e l)
    (hn : l.length < 2 ^ 31) {idx : Index} (hp : idx.Pass) {r : List Nat}
    (hr : positions l.length idx = some r) (hle : r.length ≤ l.length) (ws : List String) :
    ∃ e' ws' l', subset env e idx ws = (.ok e', ws') ∧ Denotes env e' l' ∧ Gather l r l' := by
  obtain ⟨ws', h⟩ := calcIndVector_ok hn hp hr ws
  have hlt := positions_lt hr
  refine ⟨.sub e r {}, ws', r.attach.map (fun j => l[j.1]'(hlt j.1 j.2)), ?_, ⟨?_, ?_⟩, ?_⟩
  · unfold subset; rw [he.1, M.bind_ok h]; rfl
  · simp [Expr.size]
  · intro i hi
    have hi' : i < r.length := by simpa using hi
    have h0 : l.length ≠ 0 := by omega
    simp only [Expr.el, he.1, modz, if_neg h0, Nat.mod_eq_of_lt (by omega : i < l.length), Out.ok_bind,
      getL, List.getElem?_eq_getElem hi']
    rw [he.2 _ (hlt _ (List.getElem_mem hi'))]
    simp
  · unfold Gather
    rw [List.map_map]
    conv_rhs => rw [← List.attach_map_subtype_val r, List.map_map]
    apply List.map_congr_left
    intro a _
    simp [List.getElem?_eq_getElem (hlt a.1 a.2)]

/-! ## C29 scalar index -/

/-- C29, reading.  `v(k)` for an `int` `k` with `1 <= k <= length(v)` has one element, the `k`-th.  `v` is
a named vector, a temporary, a subset or an arithmetic expression with the elements `l`. -/
theorem C29_read_int {env : Env V} {e : Expr V} {l : List V} (he : Denotes env e l)
    (hn : l.length < 2 ^ 31) {k : Nat} (h1 : 1 ≤ k) (h2 : k ≤ l.length) (ws : List String) :
    ∃ e' ws', subset env e (.int k) ws = (.ok e', ws') ∧ Denotes env e' [l[k - 1]] := by
  have hr : positions l.length (.int k) = some [k - 1] := by
    have : (1 : Int) ≤ k ∧ (k : Int) ≤ l.length := by omega
    simp only [positions, pos1, if_pos this, Option.map_some, Option.some.injEq, List.cons.injEq,
      and_true]
    omega
  obtain ⟨e', ws', l', a, b, c⟩ := subset_gather he hn (idx := .int k)
    (by show InI32 _; unfold InI32; omega) hr (by simp; omega) ws
  refine ⟨e', ws', a, ?_⟩
  have hk : k - 1 < l.length := by omega
  unfold Gather at c
  simp only [List.map_cons, List.map_nil, List.getElem?_eq_getElem hk] at c
  match l', c with
  | [v], c => simp at c; rw [← c]; exact b
  | _ :: _ :: _, c => simp at c

/-- C29, reading.  `v(x)` for a double `x` whose integer part is `k`, `1 <= k <= length(v)`. -/
theorem C29_read_double {env : Env V} {e : Expr V} {l : List V} (he : Denotes env e l)
    (hn : l.length < 2 ^ 31) {q : ℚ} {k : Nat} (hk : ⌊q⌋ = (k : Int)) (h1 : 1 ≤ k)
    (h2 : k ≤ l.length) (ws : List String) :
    ∃ e' ws', subset env e (.dbl (.fin q)) ws = (.ok e', ws') ∧ Denotes env e' [l[k - 1]] := by
  have hr : positions l.length (.dbl (.fin q)) = some [k - 1] := by
    have : (1 : Int) ≤ k ∧ (k : Int) ≤ l.length := by omega
    simp only [positions, posD, hk, pos1, if_pos this, Option.map_some, Option.some.injEq,
      List.cons.injEq, and_true]
    omega
  obtain ⟨e', ws', l', a, b, c⟩ := subset_gather he hn (idx := .dbl (.fin q)) trivial hr
    (by simp; omega) ws
  refine ⟨e', ws', a, ?_⟩
  have hk : k - 1 < l.length := by omega
  unfold Gather at c
  simp only [List.map_cons, List.map_nil, List.getElem?_eq_getElem hk] at c
  match l', c with
  | [v], c => simp at c; rw [← c]; exact b
  | _ :: _ :: _, c => simp at c

/-- Third element of a four-element vector: by `int`, by a double with decimal places (which is
announced by a warning). -/
example : let env := listEnv [[10, 20, 30, (40 : Int)]]
    Denotes env (.leaf 0) [10, 20, 30, 40] ∧ ⌊(7 / 2 : ℚ)⌋ = ((3 : Nat) : Int) ∧
    (subset env (.leaf 0) (.int 3) []).2 = [] ∧
    (subset env (.leaf 0) (.dbl (.fin (7 / 2))) []).2 = [fracMsg] :=
  ⟨⟨by decide, by decide⟩, by norm_num, by decide +kernel, by decide +kernel⟩

/-- Objects whose element access is checked: named vectors and temporaries. -/
def CheckedEl (env : Env V) (e : Expr V) (l : List V) : Prop :=
  Denotes env e l ∧ ∀ j, l.length ≤ j → ∃ m, e.el env j = .thr m

theorem checked_rvec (env : Env V) (l : List V) (mp : MP) : CheckedEl env (.rvec l mp) l := by
  refine ⟨⟨rfl, fun i hi => by simp [Expr.el, getL, hi]⟩, fun j hj => ?_⟩
  exact ⟨"Error: out of boundaries --> value beyond size of vector",
    by simp only [Expr.el, getL, List.getElem?_eq_none hj]⟩

theorem checked_named {s : Mach V} {x : Nat} {l : List V} (h : Mach.ShowsVar s x l) :
    CheckedEl s.env (.leaf x) l := by
  refine ⟨⟨h.1, h.2⟩, fun j hj => ?_⟩
  have hz : (s.st (x, false)).sz = l.length := h.1
  show ∃ m, (s.st (x, false)).get s.heap j = .thr m
  unfold Store.get Store.checkIdx
  by_cases ha : (s.st (x, false)).allocated = true
  · rw [Out.ass_pos ha, Out.ass_neg (by omega : ¬ j < (s.st (x, false)).sz)]
    exact ⟨_, rfl⟩
  · rw [Out.ass_neg ha]
    exact ⟨_, rfl⟩

theorem Addr.get {n : Nat} {ps : List (Option Nat)} {ind : List Nat} (h : Addr n ps ind) :
    ps.length = ind.length ∧ ∀ k (h1 : k < ps.length) (h2 : k < ind.length),
      ps[k] = some ind[k] ∨ ps[k] = none ∧ n ≤ ind[k] :=
  ⟨h.length_eq, fun _ h1 h2 => List.Forall₂.get h h1 h2⟩

/-- An index argument that does not denote positions is rejected: by an error when the subset is
formed, or by an error when one of its elements is read.  For named vectors and temporaries, index
vectors that are not longer than the vector, and index values whose evaluation is defined. -/
theorem C35_rejected_partial {env : Env V} {e : Expr V} {l : List V} (he : CheckedEl env e l)
    (hn : l.length ≤ 2 ^ 62) {idx : Index} (hp : idx.Pass) (hu : idx.NoUB)
    (hbad : positions l.length idx = none) (hlen : (idx.entries l.length).length ≤ l.length)
    (ws : List String) :
    (∃ m ws', subset env e idx ws = (.thr m, ws')) ∨
    ∃ e' ws', subset env e idx ws = (.ok e', ws') ∧ ReadThrows env e' := by
  rcases calcIndVector_spec hn hp hu ws with ⟨m, ws', h, _⟩ | ⟨ind, ws', h, ha, hne⟩
  · left; refine ⟨m, ws', ?_⟩
    unfold subset; rw [he.1.1, M.bind_thr h]
  · right
    refine ⟨.sub e ind {}, ws', by unfold subset; rw [he.1.1, M.bind_ok h]; rfl, ?_⟩
    obtain ⟨hl, hg⟩ := ha.get
    have : ∃ k, ∃ h1 : k < ind.length, l.length ≤ ind[k] := by
      by_contra hc
      push Not at hc
      have : idx.entries l.length = ind.map some := by
        apply List.ext_getElem (by simpa using hl)
        intro k h1 h2
        have h2' : k < ind.length := by simpa using h2
        rcases hg k h1 h2' with h | ⟨_, h⟩
        · simpa using h
        · have := hc k h2'; omega
      rw [entries_positions this hne] at hbad
      simp at hbad
    obtain ⟨k, h1, h2⟩ := this
    obtain ⟨m, hm⟩ := he.2 _ h2
    refine ⟨k, h1, m, ?_⟩
    have hkl : k < l.length := by omega
    have h0 : l.length ≠ 0 := by omega
    simp only [Expr.el, he.1.1, modz, if_neg h0, Nat.mod_eq_of_lt hkl, Out.ok_bind, getL,
      List.getElem?_eq_getElem h1]
    exact hm

/-- A scalar index out of range is rejected, for non-empty vectors. -/
theorem C29_reject_partial {env : Env V} {e : Expr V} {l : List V} (he : CheckedEl env e l)
    (hn : l.length ≤ 2 ^ 62) (hpos : 1 ≤ l.length) (idx : Index)
    (hk : (∃ k : Int, idx = .int k ∧ InI32 k ∧ k ≠ -2147483648 ∧ ¬ (1 ≤ k ∧ k ≤ l.length)) ∨
      (∃ q : ℚ, idx = .dbl (.fin q) ∧ -2147483649 < q ∧ q < 2147483648 ∧
        ¬ (1 ≤ ⌊q⌋ ∧ ⌊q⌋ ≤ l.length))) (ws : List String) :
    (∃ m ws', subset env e idx ws = (.thr m, ws')) ∨
    ∃ e' ws', subset env e idx ws = (.ok e', ws') ∧ ReadThrows env e' := by
  rcases hk with ⟨k, rfl, h1, h2, h3⟩ | ⟨q, rfl, h1, h2, h3⟩
  · exact C35_rejected_partial (idx := .int k) he hn h1 h2 (by simp only [positions, pos1, if_neg h3]; rfl)
      (by simp [Index.entries]; omega) ws
  · exact C35_rejected_partial (idx := .dbl (.fin q)) he hn trivial ⟨h1, h2⟩
      (by simp only [positions, posD, pos1, if_neg h3]; rfl) (by simp [Index.entries]; omega) ws

/-- What is missing from C29: the evaluation of some out-of-range indices has undefined behaviour
(`INT_MIN`, NaN, infinities and doubles outside the range of `int`), and on a vector with
`2^31` or more elements also that of the valid double index `2^31`. -/
theorem C29_false_undefined :
    (∀ n ws, ∃ k, (calcIndVector n (.int (-2147483648)) ws).1 = .ub k) ∧
    (∀ n ws, ∃ k, (calcIndVector n (.dbl .nan) ws).1 = .ub k) ∧
    (∀ n ws, ∃ k, (calcIndVector n (.dbl (.fin (2 ^ 31))) ws).1 = .ub k) ∧
    (∀ n ws, ∃ k, (calcIndVector n (.dbl (.fin (-3000000000))) ws).1 = .ub k) := by
  refine ⟨fun n ws => ⟨.intOverflow, rfl⟩, fun n ws => ⟨.badConv, rfl⟩, fun n ws => ?_, fun n ws => ?_⟩
  · refine ⟨.badConv, ?_⟩
    have : isDoubleInt (.fin (2 ^ 31)) = .ub .badConv := by decide +kernel
    rw [calcIndVector, M.bind_ok (resizeInd_ok (le_refl _) ws)]
    unfold convertSizeSubsettingD
    rw [this]; rfl
  · refine ⟨.badConv, ?_⟩
    have : isDoubleInt (.fin (-3000000000)) = .ub .badConv := by decide +kernel
    rw [calcIndVector, M.bind_ok (resizeInd_ok (le_refl _) ws)]
    unfold convertSizeSubsettingD
    rw [this]; rfl

/-- On an empty vector reading `v(1)` divides by zero. -/
theorem C35_false_empty (env : Env V) (ws : List String) :
    ∃ e, subset env (.rvec [] {}) (.int 1) ws = (.ok e, ws) ∧ e.size env = 1 ∧
      e.el env 0 = .ub .modZero := ⟨.sub (.rvec [] {}) [0] {}, rfl, rfl, rfl⟩

/-! ## C30 logical scalar index -/

/-- C30: `v(TRUE)` denotes all elements in order. -/
theorem C30_true {env : Env V} {e : Expr V} {l : List V} (he : Denotes env e l)
    (hn : l.length < 2 ^ 31) (hpos : 1 ≤ l.length) (ws : List String) :
    ∃ e', subset env e (.lgl true) ws = (.ok e', ws) ∧ Denotes env e' l := by
  refine ⟨.sub e (List.range l.length) {}, ?_, by simp [Expr.size], ?_⟩
  · unfold subset
    have : calcIndVector l.length (.lgl true) ws = (.ok (List.range l.length), ws) := by
      simp only [calcIndVector, if_true]
      exact M.bind_ok (resizeInd_ok hpos ws)
    rw [he.1, M.bind_ok this]; rfl
  · intro i hi
    simp only [Expr.el, he.1, modz, if_neg (by omega : ¬ l.length = 0), Nat.mod_eq_of_lt hi,
      Out.ok_bind, getL, List.getElem?_range hi]
    exact he.2 i hi

/-- C30: `v(FALSE)` is rejected. -/
theorem C30_false_rejected (env : Env V) (e : Expr V) (ws : List String) :
    ∃ m, subset env e (.lgl false) ws = (.thr m, ws) := ⟨_, rfl⟩

example : Denotes (listEnv [[1, 2, (3 : Int)]]) (.leaf 0) [1, 2, 3] := ⟨by decide, by decide⟩

/-! ## C31 index vectors -/

/-- C31 for index vectors that are not longer than the vector: `v(idx)` has the length of `idx` and its
`k`-th element is the element with the (1-based) number `idx[k]`. -/
theorem C31_partial {env : Env V} {e : Expr V} {l : List V} (he : Denotes env e l)
    (hn : l.length < 2 ^ 31) {ks : List Nat} (hne : ks ≠ []) (hle : ks.length ≤ l.length)
    (hk : ∀ k ∈ ks, 1 ≤ k ∧ k ≤ l.length) (ws : List String) :
    ∃ e' ws' l', subset env e (.vint (ks.map (fun k : Nat => .i (k : Int)))) ws = (.ok e', ws') ∧
      Denotes env e' l' ∧ l'.map some = ks.map (fun k => l[k - 1]?) := by
  have hr : positions l.length (.vint (ks.map (fun k : Nat => Scal.i (k : Int)))) = some (ks.map (fun k => k - 1)) := by
    simp only [positions, List.map_eq_nil_iff, if_neg hne]
    rw [mapM_iff, List.map_map, List.map_map]
    apply List.map_congr_left
    intro k h
    have : (1 : Int) ≤ k ∧ (k : Int) ≤ l.length := by have := hk k h; omega
    simp only [Function.comp, posI, pos1, if_pos this, Option.some.injEq]
    omega
  obtain ⟨e', ws', l', a, b, c⟩ := subset_gather he hn (by
    intro x hx
    simp only [List.mem_map] at hx
    obtain ⟨k, hk', rfl⟩ := hx
    have := hk k hk'
    show InI32 _; unfold InI32; omega) hr (by simpa using hle) ws
  refine ⟨e', ws', l', a, b, ?_⟩
  unfold Gather at c
  rw [c, List.map_map]; rfl

/-- C31 for vectors of doubles, with the integer part of each index. -/
theorem C31_double_partial {env : Env V} {e : Expr V} {l : List V} (he : Denotes env e l)
    (hn : l.length < 2 ^ 31) {qs : List ℚ} (hne : qs ≠ []) (hle : qs.length ≤ l.length)
    (hk : ∀ q ∈ qs, 1 ≤ ⌊q⌋ ∧ ⌊q⌋ ≤ l.length) (ws : List String) :
    ∃ e' ws' l', subset env e (.vdbl (qs.map .fin)) ws = (.ok e', ws') ∧
      Denotes env e' l' ∧ l'.map some = qs.map (fun q => l[⌊q⌋.toNat - 1]?) := by
  have hr : positions l.length (.vdbl (qs.map .fin)) = some (qs.map (fun q => ⌊q⌋.toNat - 1)) := by
    simp only [positions, List.map_eq_nil_iff, if_neg hne]
    rw [mapM_iff, List.map_map, List.map_map]
    apply List.map_congr_left
    intro k h
    simp only [Function.comp, posD, pos1, if_pos (hk k h), Option.some.injEq]
    have := hk k h
    omega
  obtain ⟨e', ws', l', a, b, c⟩ := subset_gather he hn (idx := .vdbl (qs.map .fin)) trivial hr
    (by simpa using hle) ws
  refine ⟨e', ws', l', a, b, ?_⟩
  unfold Gather at c
  rw [c, List.map_map]; rfl

example : let env := listEnv [[10, 20, (30 : Int)]]
    Denotes env (.leaf 0) [10, 20, 30] ∧ [3, 1, 3].length ≤ [10, 20, 30].length ∧
    (∀ k ∈ [3, 1, 3], 1 ≤ k ∧ k ≤ 3) := ⟨⟨by decide, by decide⟩, by decide, by decide⟩

/-- What the code does for an index vector of any length: the `k`-th element is the one addressed by
`idx[k mod length(v)]`. -/
theorem C31_wraps {env : Env V} {e : Expr V} {l : List V} (he : Denotes env e l)
    (hn : l.length < 2 ^ 31) {idx : Index} (hp : idx.Pass) {r : List Nat}
    (hr : positions l.length idx = some r) (ws : List String) :
    ∃ e' ws', subset env e idx ws = (.ok e', ws') ∧ e'.size env = r.length ∧
      ∀ k (hk : k % l.length < r.length), ∃ h : r[k % l.length] < l.length,
        e'.el env k = .ok l[r[k % l.length]] := by
  obtain ⟨ws', h⟩ := calcIndVector_ok hn hp hr ws
  have hlt := positions_lt hr
  refine ⟨.sub e r {}, ws', by unfold subset; rw [he.1, M.bind_ok h]; rfl, rfl, fun k hk => ?_⟩
  have hj := hlt _ (List.getElem_mem hk)
  refine ⟨hj, ?_⟩
  simp only [Expr.el, he.1, modz, if_neg (by omega : ¬ l.length = 0), Out.ok_bind, getL,
    List.getElem?_eq_getElem hk]
  exact he.2 _ hj

/-- C31 is false for index vectors longer than the vector: `v = (10, 20)`, `idx = (1, 1, 2)`, the third
element of `v(idx)` is 10, not 20. -/
theorem C31_false :
    ∃ (env : Env Int) (e : Expr Int), Denotes env (.leaf 0) [10, 20] ∧
      subset env (.leaf 0) (.vint [.i 1, .i 1, .i 2]) [] = (.ok e, []) ∧ e.el env 2 = .ok 10 :=
  ⟨listEnv [[10, 20]], .sub (.leaf 0) [0, 0, 1] {}, ⟨by decide, by decide⟩, rfl, by decide⟩

/-! ## C32 masks -/

/-- C32: `v(mask)` has exactly the elements whose recycled mask entry is TRUE, in order. -/
theorem C32_mask {env : Env V} {e : Expr V} {l : List V} (he : Denotes env e l)
    (hn : l.length < 2 ^ 31) {mask : List Bool}
    (hsome : ∃ i < l.length, mask[i % mask.length]? = some true) (ws : List String) :
    ∃ e' ws', subset env e (.vlgl mask) ws = (.ok e', ws') ∧
      Denotes env e' ((List.range l.length).filterMap
        (fun i => if mask[i % mask.length]? = some true then l[i]? else none)) := by
  have hne : posM l.length mask ≠ [] := by
    obtain ⟨i, hi, hm⟩ := hsome
    intro h
    have : i ∈ posM l.length mask := by unfold posM; simp [hi, hm]
    rw [h] at this; simp at this
  have hr : positions l.length (.vlgl mask) = some (posM l.length mask) := by
    simp only [positions, if_neg hne]
  have hle : (posM l.length mask).length ≤ l.length := by
    unfold posM
    exact (List.length_filter_le _ _).trans (by simp)
  obtain ⟨e', ws', l', a, b, c⟩ := subset_gather he hn (idx := .vlgl mask) trivial hr hle ws
  refine ⟨e', ws', a, ?_⟩
  have : l' = (List.range l.length).filterMap
        (fun i => if mask[i % mask.length]? = some true then l[i]? else none) := by
    have h1 : l' = (l'.map some).filterMap id := by
      rw [List.filterMap_map]; simp
    rw [h1, c]
    unfold posM
    rw [List.filterMap_map, List.filterMap_filter]
    congr 1
    funext i
    simp
  rw [← this]; exact b

/-- C32: a non-empty mask that selects nothing is rejected. -/
theorem C32_nothing {env : Env V} {e : Expr V} {l : List V} (he : Denotes env e l)
    (hn : l.length ≤ 2 ^ 62) {mask : List Bool} (hm : mask ≠ [])
    (hnone : ∀ i < l.length, mask[i % mask.length]? ≠ some true) (ws : List String) :
    ∃ m ws', subset env e (.vlgl mask) ws = (.thr m, ws') := by
  have h0 : posM l.length mask = [] := by
    unfold posM
    rw [List.filter_eq_nil_iff]
    intro i hi
    simpa using hnone i (by simpa using hi)
  rcases calcIndVector_spec hn (idx := .vlgl mask) trivial hm ws with
    ⟨m, ws', h, _⟩ | ⟨ind, ws', h, ha, hne⟩
  · exact ⟨m, ws', by unfold subset; rw [he.1, M.bind_thr h]⟩
  · simp only [Index.entries, h0, List.map_nil] at ha
    cases ha
    exact absurd rfl hne

/-- The remaining case of C32: an empty mask on a non-empty vector divides by zero. -/
theorem C32_false_empty_mask :
    ∃ k, (subset (listEnv [[1, (2 : Int)]]) (.leaf 0) (.vlgl []) []).1 = .ub k := ⟨.modZero, rfl⟩

example : let env := listEnv [[10, 20, 30, 40, (50 : Int)]]
    Denotes env (.leaf 0) [10, 20, 30, 40, 50] ∧
    (∃ i < 5, [false, true][i % 2]? = some true) ∧
    (∀ i < 5, [false, false][i % 2]? ≠ some true) :=
  ⟨⟨by decide, by decide⟩, ⟨1, by decide, by decide⟩, by decide⟩

/-! ## C35 other objects -/

/-- C35 is false for arithmetic expressions: element 9 of a three-element sum is recycled. -/
theorem C35_false_expression :
    ∃ (env : Env Int) (e e' : Expr Int), Denotes env e [11, 12, 13] ∧
      subset env e (.int 9) [] = (.ok e', []) ∧ e'.size env = 1 ∧ e'.el env 0 = .ok 13 := by
  refine ⟨listEnv [[1, 2, 3]], .bin (fun a b => .ok (a + b)) (.leaf 0) (.scal 10),
    .sub (.bin (fun a b => .ok (a + b)) (.leaf 0) (.scal 10)) [8] {}, ⟨by decide, by decide⟩, rfl,
    by decide, by decide⟩

/-- An arithmetic operation accepts every positive index: `(a op b)(k)` is computed from the elements `(k - 1) mod length(a)` of `a` and
`(k - 1) mod length(b)` of `b`, however large `k` is. -/
theorem C35_expression_accepts {env : Env V} {a b : Expr V} {la lb : List V} (ha : Denotes env a la) (hb : Denotes env b lb)
    (sa : a.isScal = false) (sb : b.isScal = false) (pa : 0 < la.length) (pb : 0 < lb.length) (f : V → V → Out V) {k : Nat}
    (h1 : 1 ≤ k) (h2 : k ≤ 2147483647) (ws : List String) :
    ∃ e', subset env (.bin f a b) (.int k) ws = (.ok e', ws) ∧ e'.size env = 1 ∧
      e'.el env 0 = f (la[(k - 1) % la.length]'(Nat.mod_lt _ pa)) (lb[(k - 1) % lb.length]'(Nat.mod_lt _ pb)) := by
  have hc : ∀ n, calcIndVector n (.int k) ws = (.ok [k - 1], ws) := by
    intro n
    have hi : intPos (.i k) = .ok (k - 1) := by
      have h3 : InI32 ((k : Int) - 1) := by unfold InI32; omega
      have h4 : wrap64 ((k : Int) - 1) = k - 1 := by unfold wrap64 two64; omega
      simp only [intPos, ckI32, if_pos h3, Out.ok_bind, h4]
      rfl
    have hres : resizeInd 1 ws = (.ok (), ws) := rfl
    show (resizeInd 1 >>= fun _ => M.lift (intPos (.i k)) >>= fun j => M.ass (0 ≤ j) "invalid index argument" >>= fun _ => pure [j]) ws = _
    rw [M.bind_ok hres, M.bind_ok (M.lift_apply _ _ |>.trans (by rw [hi])), M.bind_ok (M.ass_pos (by omega) _), M.pure_apply]
  refine ⟨.sub (.bin f a b) [k - 1] {}, by unfold subset; rw [M.bind_ok (hc _)]; rfl, rfl, ?_⟩
  have hs : (Expr.bin f a b).size env ≠ 0 := by
    simp only [Expr.size, sa, sb, ha.1, hb.1, Bool.false_eq_true, false_and, if_false]
    split <;> omega
  rw [Expr.el, modz, if_neg hs, Nat.zero_mod]
  show (Expr.bin f a b).el env (k - 1) = _
  simp only [Expr.el, posOf, sa, sb, ha.1, hb.1, Bool.false_eq_true, if_false, modz_pos pa, modz_pos pb, Out.ok_bind,
    ha.2 _ (Nat.mod_lt (k - 1) pa), hb.2 _ (Nat.mod_lt (k - 1) pb)]

/-- C35 is false for subsets: the third element of a two-element subset is an element of the vector. -/
theorem C35_false_subset :
    ∃ (env : Env Int) (e e' : Expr Int), Denotes env e [20, 30] ∧
      subset env e (.int 4) [] = (.ok e', []) ∧ e'.size env = 1 ∧ e'.el env 0 = .ok 20 :=
  ⟨listEnv [[10, 20, 30]], .sub (.leaf 0) [1, 2] {}, .sub (.sub (.leaf 0) [1, 2] {}) [3] {},
    ⟨by decide, by decide⟩, rfl, by decide, by decide⟩

/-- C35 is false for index vectors longer than the vector: the index 9 is never looked at. -/
theorem C35_false_long :
    ∃ (env : Env Int) (e : Expr Int), Denotes env (.leaf 0) [10, 20] ∧
      subset env (.leaf 0) (.vint [.i 1, .i 2, .i 9]) [] = (.ok e, []) ∧ Denotes env e [10, 20, 10] :=
  ⟨listEnv [[10, 20]], .sub (.leaf 0) [0, 1, 8] {}, ⟨by decide, by decide⟩, rfl,
    ⟨by decide, by decide⟩⟩

/-- C35 is false for negative double index vectors: undefined behaviour. -/
theorem C35_false_negative :
    ∃ k, (subset (listEnv [[1, (2 : Int)]]) (.leaf 0) (.vdbl [.fin (-1)]) []).1 = .ub k :=
  ⟨.badConv, by
    have h : calcIndVector 2 (.vdbl [.fin (-1)]) [] = (.ub .badConv, []) := by decide +kernel
    unfold subset
    rw [show (Expr.leaf 0).size (listEnv [[1, (2 : Int)]]) = 2 from rfl, M.bind_ub h]⟩

example : let env := listEnv [[10, 20, (30 : Int)]]
    Denotes env (.leaf 0) [10, 20, 30] ∧ (Index.vint [.i 1, .i 0]).Pass ∧
    (Index.vint [.i 1, .i 0]).NoUB ∧ positions 3 (.vint [.i 1, .i 0]) = none := by
  refine ⟨⟨by decide, by decide⟩, ?_, ?_, by decide⟩
  · intro x hx; simp at hx; rcases hx with rfl | rfl <;> exact ⟨by decide, by decide⟩
  · intro x hx; simp at hx; rcases hx with rfl | rfl
    · show (1 : Int) ≠ _; decide
    · show (0 : Int) ≠ _; decide

/-! ## C44 subsets of subsets -/

/-- C44: subsetting a subset composes the index maps, for index vectors that are not longer than the
object they are applied to. -/
theorem C44_partial {env : Env V} {e : Expr V} {l : List V} (he : Denotes env e l)
    (hn : l.length < 2 ^ 31) {idx jdx : Index} (hp : idx.Pass) (hq : jdx.Pass) {r r' : List Nat}
    (hr : positions l.length idx = some r) (hle : r.length ≤ l.length)
    (hr' : positions r.length jdx = some r') (hle' : r'.length ≤ r.length) (ws : List String) :
    ∃ e1 e2 ws1 ws2 l2, subset env e idx ws = (.ok e1, ws1) ∧ subset env e1 jdx ws1 = (.ok e2, ws2) ∧
      Denotes env e2 l2 ∧ l2.map some = r'.map (fun k => r[k]? >>= fun j => l[j]?) := by
  obtain ⟨e1, ws1, l1, a1, b1, c1⟩ := subset_gather he hn hp hr hle ws
  have hl1 : l1.length = r.length := by
    have := congrArg List.length c1; simpa using this
  obtain ⟨e2, ws2, l2, a2, b2, c2⟩ := subset_gather b1 (by omega) hq (r := r') (by rw [hl1]; exact hr')
    (by omega) ws1
  refine ⟨e1, e2, ws1, ws2, l2, a1, a2, b2, ?_⟩
  unfold Gather at c1 c2
  rw [c2]
  apply List.map_congr_left
  intro k hk
  have hkr := positions_lt hr' k hk
  have h1 := congrArg (fun z => z[k]?) c1
  simp only [List.getElem?_map] at h1
  rw [List.getElem?_eq_getElem (by omega : k < l1.length), List.getElem?_eq_getElem hkr] at h1
  simp only [Option.map_some, Option.some.injEq] at h1
  rw [List.getElem?_eq_getElem (by omega : k < l1.length), List.getElem?_eq_getElem hkr, h1]
  rfl

/-- What the code does for index vectors of any length: element `k` of `(v(i))(j)` is the one addressed by
`i[j[k mod length(i)] mod length(v)]`. -/
theorem C44_wraps {env : Env V} {e : Expr V} {l : List V} (he : Denotes env e l) (hn : l.length < 2 ^ 31) {idx jdx : Index}
    (hp : idx.Pass) (hq : jdx.Pass) {r r' : List Nat} (hr : positions l.length idx = some r) (hrn : r.length < 2 ^ 31)
    (hr' : positions r.length jdx = some r') (ws : List String) :
    ∃ e1 e2 ws1 ws2, subset env e idx ws = (.ok e1, ws1) ∧ subset env e1 jdx ws1 = (.ok e2, ws2) ∧ e2.size env = r'.length ∧
      ∀ k, k < r'.length → ∃ (h1 : k % r.length < r'.length) (h2 : r'[k % r.length] % l.length < r.length)
        (h3 : r[r'[k % r.length] % l.length] < l.length), e2.el env k = .ok l[r[r'[k % r.length] % l.length]] := by
  obtain ⟨e1, ws1, a1, b1, c1⟩ := C31_wraps he hn hp hr ws
  obtain ⟨ws2, h⟩ := calcIndVector_ok hrn hq hr' ws1
  have hlt := positions_lt hr'
  refine ⟨e1, .sub e1 r' {}, ws1, ws2, a1, by unfold subset; rw [b1, M.bind_ok h]; rfl, rfl, fun k hk => ?_⟩
  have hk' : k % r.length < r'.length := Nat.lt_of_le_of_lt (Nat.mod_le _ _) hk
  have hj := hlt _ (List.getElem_mem hk')
  have h2 : r'[k % r.length] % l.length < r.length := Nat.lt_of_le_of_lt (Nat.mod_le _ _) hj
  obtain ⟨h3, e3⟩ := c1 _ h2
  refine ⟨hk', h2, h3, ?_⟩
  simp only [Expr.el, b1, modz, if_neg (by omega : ¬ r.length = 0), Out.ok_bind, getL, List.getElem?_eq_getElem hk']
  exact e3

/-- C44 is false for longer index vectors: `((10, 20, 30)(2:3))(c(1, 1, 2))` has third element 20. -/
theorem C44_false :
    ∃ (env : Env Int) (e1 e2 : Expr Int), Denotes env (.leaf 0) [10, 20, 30] ∧
      subset env (.leaf 0) (.vint [.i 2, .i 3]) [] = (.ok e1, []) ∧
      subset env e1 (.vint [.i 1, .i 1, .i 2]) [] = (.ok e2, []) ∧ e2.el env 2 = .ok 20 :=
  ⟨listEnv [[10, 20, 30]], .sub (.leaf 0) [1, 2] {}, .sub (.sub (.leaf 0) [1, 2] {}) [0, 0, 1] {},
    ⟨by decide, by decide⟩, rfl, rfl, by decide⟩

example : positions 4 (.vint [.i 2, .i 4, .i 2]) = some [1, 3, 1] ∧
    positions 3 (.vlgl [true, false]) = some [0, 2] := by decide

/-! ## C43 a comparison as index -/

/-- The index that a comparison with the answers `bs` makes: the element type of the comparison is the
common type of the operands (BinaryCalculations.hpp 323-365 and the other comparison operators), not
`bool`, and its elements are delivered as `double`. -/
inductive CmpType
  | bool | int | dbl

def cmpIndex : CmpType → List Bool → Index
  | .bool, bs => .vlgl bs
  | .int, bs => .vint (bs.map (fun b => .d (.fin (if b then 1 else 0))))
  | .dbl, bs => .vdbl (bs.map (fun b => .fin (if b then 1 else 0)))

/-- C43 for comparisons of logical vectors: the elements for which the comparison holds. -/
theorem C43_logical_partial {env : Env V} {e : Expr V} {l : List V} (he : Denotes env e l)
    (hn : l.length < 2 ^ 31) {bs : List Bool} (hb : bs.length = l.length)
    (hsome : true ∈ bs) (ws : List String) :
    ∃ e' ws', subset env e (cmpIndex .bool bs) ws = (.ok e', ws') ∧
      Denotes env e' ((List.range l.length).filterMap
        (fun i => if bs[i]? = some true then l[i]? else none)) := by
  obtain ⟨i, hi, hbi⟩ := List.mem_iff_getElem.mp hsome
  obtain ⟨e', ws', a, b⟩ := C32_mask he hn (mask := bs) ⟨i, by omega, by
    rw [Nat.mod_eq_of_lt hi, List.getElem?_eq_getElem hi, hbi]⟩ ws
  refine ⟨e', ws', a, ?_⟩
  have : (List.range l.length).filterMap (fun i => if bs[i % bs.length]? = some true then l[i]? else none)
      = (List.range l.length).filterMap (fun i => if bs[i]? = some true then l[i]? else none) := by
    apply List.filterMap_congr
    intro i hi
    rw [Nat.mod_eq_of_lt (by rw [hb]; simpa using hi)]
  rw [← this]; exact b

/-- C43 is false for comparisons of doubles: `v(v > 15)` for `v = (10, 20, 30)` throws when it is read, and
`v(v > 5)` is `(10, 10, 10)`. -/
theorem C43_false_double :
    ∃ (env : Env Int) (e1 e2 : Expr Int), Denotes env (.leaf 0) [10, 20, 30] ∧
      subset env (.leaf 0) (cmpIndex .dbl [false, true, true]) [] = (.ok e1, []) ∧
      ReadThrows env e1 ∧
      subset env (.leaf 0) (cmpIndex .dbl [true, true, true]) [] = (.ok e2, []) ∧
      Denotes env e2 [10, 10, 10] := by
  refine ⟨listEnv [[10, 20, 30]], .sub (.leaf 0) [18446744073709551615, 0, 0] {},
    .sub (.leaf 0) [0, 0, 0] {}, ⟨by decide, by decide⟩, ?_, ⟨0, by decide, _, rfl⟩, ?_,
    ⟨by decide, by decide⟩⟩
  · have h : calcIndVector 3 (cmpIndex .dbl [false, true, true]) []
        = (.ok [18446744073709551615, 0, 0], []) := by decide +kernel
    unfold subset
    exact M.bind_ok h
  · have h : calcIndVector 3 (cmpIndex .dbl [true, true, true]) []
        = (.ok [0, 0, 0], []) := by decide +kernel
    unfold subset
    exact M.bind_ok h

/-- What a comparison of doubles does in general: it selects the first element once for every TRUE, and
every FALSE is an access out of range. -/
theorem C43_double_characterised (n : Nat) (bs : List Bool) (hb : bs ≠ []) (ws : List String) :
    calcIndVector n (cmpIndex .dbl bs) ws
      = (.ok (bs.map (fun b => if b then 0 else 2 ^ 64 - 1)), ws) := by
  have : Out.all ((bs.map (fun b => F64.fin (if b then 1 else 0))).map dblPos)
      = .ok (bs.map (fun b => if b then 0 else 2 ^ 64 - 1)) := by
    rw [Out.all_eq_ok, List.map_map, List.map_map]
    apply List.map_congr_left
    intro b _
    cases b
    · show dblPos (.fin 0) = .ok (2 ^ 64 - 1); decide +kernel
    · show dblPos (.fin 1) = .ok 0; decide +kernel
  rw [cmpIndex, calcIndVector, M.bind_ok (resizeInd_ok (by
    have := List.length_pos_iff.mpr hb
    rw [List.length_map]; omega) ws), this]
  rfl

/-- For a comparison of integers every FALSE has undefined behaviour (`-1.0` is converted to
`size_t`). -/
theorem C43_false_int (n : Nat) (bs : List Bool) (hf : false ∈ bs) (ws : List String) :
    ∃ k, (calcIndVector n (cmpIndex .int bs) ws).1 = .ub k := by
  have : ∀ bs : List Bool, false ∈ bs →
      Out.all ((bs.map (fun b => Scal.d (.fin (if b then 1 else 0)))).map intPos) = .ub .badConv := by
    intro bs
    induction bs with
    | nil => simp
    | cons b bs ih =>
      intro h
      cases b with
      | false =>
        have h0 : intPos (.d (.fin 0)) = .ub .badConv := by decide +kernel
        simp [Out.all, h0]
      | true =>
        have h1 : intPos (.d (.fin 1)) = .ok 0 := by decide +kernel
        have h' : false ∈ bs := by simpa using h
        have := ih h'
        simp only [List.map_cons, Out.all, if_true, h1, Out.ok_bind, this, Out.ub_bind]
  have hne : 1 ≤ bs.length := List.length_pos_of_mem hf
  refine ⟨.badConv, ?_⟩
  rw [cmpIndex, calcIndVector, M.bind_ok (resizeInd_ok (by simpa using hne) ws), this bs hf]
  rfl

/-! ## C38 fractional indices of vectors -/

/-- C38 for vectors: a fractional double index selects the same positions as its integer part, as a
scalar and as an element of an index vector. -/
theorem C38_vector_partial (n : Nat) (q : ℚ) (h1 : 1 ≤ ⌊q⌋) (h2 : ⌊q⌋ < 2147483648) (ws ws' : List String) :
    (calcIndVector n (.dbl (.fin q)) ws).1 = (calcIndVector n (.dbl (.fin ⌊q⌋)) ws').1 ∧
    (calcIndVector n (.dbl (.fin q)) ws).1 = (calcIndVector n (.int ⌊q⌋) ws').1 ∧
    dblPos (.fin q) = dblPos (.fin ⌊q⌋) := by
  have a := Int.floor_le q
  have b := Int.lt_floor_add_one q
  have c : (1 : ℚ) ≤ ⌊q⌋ := by exact_mod_cast h1
  have d : ((⌊q⌋ : Int) : ℚ) + 1 ≤ 2147483648 := by exact_mod_cast (by omega : ⌊q⌋ + 1 ≤ 2147483648)
  obtain ⟨w1, e1⟩ := convertD_ok (q := q) (by linarith) (by linarith) ws
  obtain ⟨w2, e2⟩ := convertD_ok (q := (⌊q⌋ : ℚ)) (by linarith) (by linarith) ws'
  rw [Int.floor_intCast] at e2
  have r1 : (calcIndVector n (.dbl (.fin q)) ws).1 = .ok [pred64 ⌊q⌋.toNat] := by
    rw [calcIndVector, M.bind_ok (resizeInd_ok (le_refl _) ws), M.bind_ok e1]; rfl
  refine ⟨?_, ?_, ?_⟩
  · rw [r1, calcIndVector, M.bind_ok (resizeInd_ok (le_refl _) ws'), M.bind_ok e2]; rfl
  · have e3 : intPos (.i ⌊q⌋) = .ok (pred64 ⌊q⌋.toNat) := by
      rw [intPos, ckI32_ok (by unfold InI32; omega)]
      show Out.ok _ = _
      rw [wrap64_of_nonneg (by omega) (by omega), pred64_pos (by omega) (by omega)]
      congr 1
      omega
    rw [r1, calcIndVector, M.bind_ok (resizeInd_ok (le_refl _) ws'), e3,
      M.bind_ok (m := M.lift (.ok (pred64 ⌊q⌋.toNat))) (a := pred64 ⌊q⌋.toNat) rfl,
      M.bind_ok (M.ass_pos (Nat.zero_le _) _)]
    rfl
  · unfold dblPos
    rw [toSizeT_of_nonneg (by linarith) (by linarith), toSizeT_of_nonneg (by linarith) (by linarith),
      Int.floor_intCast]

example : 1 ≤ ⌊(5 / 2 : ℚ)⌋ ∧ ⌊(5 / 2 : ℚ)⌋ < 2147483648 := by norm_num

/-! ### The theorems applied to the vector (10, 20, 30) -/

theorem tens_denotes : Denotes (listEnv [[10, 20, (30 : Int)]]) (.leaf 0) [10, 20, 30] := ⟨by decide, by decide⟩

theorem tens_checked : CheckedEl (listEnv [[10, 20, (30 : Int)]]) (.leaf 0) [10, 20, 30] :=
  ⟨tens_denotes, fun j hj => ⟨"Error: out of boundaries --> value beyond size of vector", by
    simp only [Expr.el, listEnv, getL]
    rw [List.getElem?_eq_none (by simpa using hj)]⟩⟩

example : ∃ e' ws', subset (listEnv [[10, 20, (30 : Int)]]) (.leaf 0) (.int 2) [] = (.ok e', ws') ∧ Denotes (listEnv [[10, 20, 30]]) e' [20] :=
  C29_read_int tens_denotes (by decide) (k := 2) (by decide) (by decide) []

/-- `v(c(1, 0))`, `v(4)`. -/
example : (∃ m ws', subset (listEnv [[10, 20, (30 : Int)]]) (.leaf 0) (.vint [.i 1, .i 0]) [] = (.thr m, ws')) ∨
    ∃ e' ws', subset (listEnv [[10, 20, (30 : Int)]]) (.leaf 0) (.vint [.i 1, .i 0]) [] = (.ok e', ws') ∧ ReadThrows (listEnv [[10, 20, 30]]) e' := by
  refine C35_rejected_partial tens_checked (by decide) ?_ ?_ (by decide) (by decide) []
  · intro x hx; simp at hx; rcases hx with rfl | rfl <;> exact ⟨by decide, by decide⟩
  · intro x hx; simp at hx; rcases hx with rfl | rfl
    · show (1 : Int) ≠ _; decide
    · show (0 : Int) ≠ _; decide

example : (∃ m ws', subset (listEnv [[10, 20, (30 : Int)]]) (.leaf 0) (.int 4) [] = (.thr m, ws')) ∨
    ∃ e' ws', subset (listEnv [[10, 20, (30 : Int)]]) (.leaf 0) (.int 4) [] = (.ok e', ws') ∧ ReadThrows (listEnv [[10, 20, 30]]) e' :=
  C29_reject_partial tens_checked (by decide) (by decide) (.int 4) (.inl ⟨4, rfl, by decide, by decide, by decide⟩) []

example : ∃ e', subset (listEnv [[10, 20, (30 : Int)]]) (.leaf 0) (.lgl true) [] = (.ok e', []) ∧ Denotes (listEnv [[10, 20, 30]]) e' [10, 20, 30] :=
  C30_true tens_denotes (by decide) (by decide) []

/-- `v(c(3, 1, 3))`. -/
example : ∃ e' ws' l', subset (listEnv [[10, 20, (30 : Int)]]) (.leaf 0) (.vint [.i 3, .i 1, .i 3]) [] = (.ok e', ws') ∧
    Denotes (listEnv [[10, 20, 30]]) e' l' ∧ l'.map some = [some 30, some 10, some 30] :=
  C31_partial tens_denotes (by decide) (ks := [3, 1, 3]) (by decide) (by decide) (by decide) []

/-- `v(c(3, 1))` at the place 4 is `v(c(3, 1))` at the place 1. -/
example : ∃ e' ws', subset (listEnv [[10, 20, (30 : Int)]]) (.leaf 0) (.vint [.i 3, .i 1]) [] = (.ok e', ws') ∧
    e'.el (listEnv [[10, 20, 30]]) 4 = .ok 10 := by
  obtain ⟨e', ws', h, _, h2⟩ := C31_wraps tens_denotes (by decide) (idx := .vint [.i 3, .i 1]) (by simp [Index.Pass, Scal.Pass, InI32])
    (r := [2, 0]) (by decide) []
  obtain ⟨_, h3⟩ := h2 4 (by decide)
  exact ⟨e', ws', h, h3⟩

example : ∃ e' ws', subset (listEnv [[10, 20, (30 : Int)]]) (.leaf 0) (.vlgl [true, false]) [] = (.ok e', ws') ∧
    Denotes (listEnv [[10, 20, 30]]) e' [10, 30] :=
  C32_mask tens_denotes (by decide) ⟨0, by decide, by decide⟩ []

example : ∃ m ws', subset (listEnv [[10, 20, (30 : Int)]]) (.leaf 0) (.vlgl [false, false]) [] = (.thr m, ws') :=
  C32_nothing tens_denotes (by decide) (by decide) (by decide) []

/-- `v(c(3, 1))(2)`. -/
example : ∃ e1 e2 ws1 ws2 l2, subset (listEnv [[10, 20, (30 : Int)]]) (.leaf 0) (.vint [.i 3, .i 1]) [] = (.ok e1, ws1) ∧
    subset (listEnv [[10, 20, 30]]) e1 (.int 2) ws1 = (.ok e2, ws2) ∧ Denotes (listEnv [[10, 20, 30]]) e2 l2 ∧ l2.map some = [some 10] :=
  C44_partial tens_denotes (by decide) (idx := .vint [.i 3, .i 1]) (jdx := .int 2) (by simp [Index.Pass, Scal.Pass, InI32])
    (by simp [Index.Pass, InI32]) (r := [2, 0]) (r' := [1]) (by decide) (by decide) (by decide) (by decide) []

example : ∃ e1 e2 ws1 ws2, subset (listEnv [[10, 20, (30 : Int)]]) (.leaf 0) (.vint [.i 3, .i 1]) [] = (.ok e1, ws1) ∧
    subset (listEnv [[10, 20, (30 : Int)]]) e1 (.vint [.i 2, .i 2, .i 1]) ws1 = (.ok e2, ws2) ∧
    e2.el (listEnv [[10, 20, (30 : Int)]]) 2 = .ok 10 := by
  obtain ⟨e1, e2, ws1, ws2, a, b, _, c⟩ := C44_wraps tens_denotes (by decide) (idx := .vint [.i 3, .i 1])
    (jdx := .vint [.i 2, .i 2, .i 1]) (by simp [Index.Pass, Scal.Pass, InI32]) (by simp [Index.Pass, Scal.Pass, InI32])
    (r := [2, 0]) (r' := [1, 1, 0]) (by decide) (by decide) (by decide) []
  obtain ⟨_, _, _, d⟩ := c 2 (by decide)
  exact ⟨e1, e2, ws1, ws2, a, b, d⟩

example : ∃ e', subset (listEnv [[10, 20, (30 : Int)]]) (.bin (fun a b => .ok (a + b)) (.leaf 0) (.leaf 0)) (.int 2000000000) [] = (.ok e', []) ∧
    e'.size (listEnv [[10, 20, (30 : Int)]]) = 1 ∧ e'.el (listEnv [[10, 20, (30 : Int)]]) 0 = .ok 40 :=
  C35_expression_accepts (k := 2000000000) tens_denotes tens_denotes rfl rfl (by decide) (by decide) (fun a b => .ok (a + b)) (by decide)
    (by decide) []

example : ∃ e' ws', subset (listEnv [[10, 20, (30 : Int)]]) (.leaf 0) (cmpIndex .bool [true, false, true]) [] = (.ok e', ws') ∧
    Denotes (listEnv [[10, 20, 30]]) e' [10, 30] :=
  C43_logical_partial tens_denotes (by decide) rfl (by decide) []

example : calcIndVector 3 (cmpIndex .dbl [true, false, true]) [] = (.ok [0, 2 ^ 64 - 1, 0], []) :=
  C43_double_characterised 3 [true, false, true] (by decide) []

end ETR
