import Verif.Model.Helper
import Verif.Lemmas.Alloc
import Verif.Lemmas.Eval
import Verif.Lemmas.Cap

/-! `isNA`, `isInf`, `length`, `dim`, iteration, conversion to a scalar, `back`: C64 and C69 to C71. -/

namespace ETR
open Spec Store
variable {V : Type}

/-- The expression reports the elements `l`: its size is `l.length` and element `i` is `l[i]`. -/
def Reads (env : Env V) (e : Expr V) (l : List V) : Prop :=
  e.size env = l.length ∧ ∀ i (hi : i < l.length), e.el env i = .ok l[i]

/-- An expression of the vectors `ρ` reports the elements it denotes. -/
theorem reads_of_eval {env : Env V} {ρ : Nat → Option (List V)} (ha : Agrees env ρ) {e : Expr V} {l : List V}
    (h : eval ρ e = some l) : Reads env e l := (eval_sound ha e h).2

/-! ## C64 -/

namespace Spec
/-- Not a number. -/
def isNaN (v : Scal) : Bool := decide (v = .d .nan)
/-- Plus or minus infinity. -/
def isInfinite (v : Scal) : Bool := decide (v = .d (.inf true) ∨ v = .d (.inf false))
end Spec

theorem flagVec_returns {flag : Scal → Bool} {env : Env Scal} {e : Expr Scal} {l : List Scal} (hr : Reads env e l)
    {h : Heap Bool} (hs : h.sched = []) (h1 : 1 ≤ l.length) (h2 : l.length < 2 ^ 59) (ws : List String) :
    Returns (flagVec flag env e) h ws ws (l.map flag) {} := by
  obtain ⟨r, e1, R⟩ := ctorSize_spec (zero := false) hs h1 h2
  obtain ⟨r', e2, R'⟩ := R.loop (x := l.map flag) l.length (k := 0) (by simp)
    (body := fun i => do
      let v ← M.lift (e.el env i)
      Store.set i (flag v)) (by
      intro i hi r
      simp only [List.length_map] at hi
      rw [M.bind_ok (by rw [M.lift_apply, hr.2 i hi])]
      simp) (by simp)
  refine Ret.returns (r := r') (by simpa using R') ?_
  unfold flagVec
  rw [hr.1, M.bind_ok (retM_ok e1)]
  refine retM_ok ?_
  rw [M.bind_ok (m := Store.self) (s' := r) (a := r.2) rfl]
  have : r.2.sz = l.length := by rw [R.sh.1]; simp
  rw [this, e2]

/-- C64, `isNA`: the result has the same length and flags exactly the elements that are not a number.  For vectors that
are not empty. -/
theorem C64_isNA_partial {env : Env Scal} {e : Expr Scal} {l : List Scal} (hr : Reads env e l) {h : Heap Bool}
    (hs : h.sched = []) (h1 : l ≠ []) (h2 : l.length < 2 ^ 59) (ws : List String) :
    Returns (isNAVec env e) h ws ws (l.map isNaN) {} := by
  have := flagVec_returns (flag := Scal.isNA) hr hs (List.length_pos_iff.mpr h1) h2 ws
  have he : Scal.isNA = isNaN := by
    funext v; rcases v with v | n | (_ | _ | _) <;> simp [Scal.isNA, isNaN]
  rw [he] at this
  unfold isNAVec; rw [he]; exact this

/-- C64, `isInf`. -/
theorem C64_isInf_partial {env : Env Scal} {e : Expr Scal} {l : List Scal} (hr : Reads env e l) {h : Heap Bool}
    (hs : h.sched = []) (h1 : l ≠ []) (h2 : l.length < 2 ^ 59) (ws : List String) :
    Returns (isInfVec env e) h ws ws (l.map isInfinite) {} := by
  have := flagVec_returns (flag := Scal.isInf) hr hs (List.length_pos_iff.mpr h1) h2 ws
  have he : Scal.isInf = isInfinite := by
    funext v; rcases v with v | n | (_ | b | _)
    · simp [Scal.isInf, isInfinite]
    · simp [Scal.isInf, isInfinite]
    · simp [Scal.isInf, isInfinite]
    · cases b <;> simp [Scal.isInf, isInfinite]
    · simp [Scal.isInf, isInfinite]
  rw [he] at this
  unfold isInfVec; rw [he]; exact this

example : Returns (isInfVec ⟨fun _ => 0, fun _ _ => .ok (.i 0), fun _ => {}⟩ (.rvec [.d (.inf true), .d .nan] {})) Heap.empty [] [] [true, false] {} :=
  C64_isInf_partial (l := [.d (.inf true), .d .nan]) ⟨rfl, by decide⟩ rfl (by simp) (by norm_num) []

/-- C64 is false for `isNA` and `isInf` of an empty vector: every such call is rejected, there is no empty result. -/
theorem C64_empty_false {env : Env Scal} {e : Expr Scal} (he : e.size env = 0) (h : Heap Bool) (ws : List String) :
    Rejects (isNAVec env e) h ws ∧ Rejects (isInfVec env e) h ws := by
  have : ∀ flag, Rejects (flagVec flag env e) h ws := by
    intro flag
    have e0 : ∃ r, ctorSize (V := Bool) false 0 (h, {}) = (.thr "Size has to be larger than 0", r) := by
      unfold ctorSize
      rw [M.bind_ok (by rw [M.lift_apply, show capOf 0 = .ok 0 by decide +kernel])]
      exact ⟨_, rfl⟩
    obtain ⟨r, e0⟩ := e0
    refine ⟨"Size has to be larger than 0", (ws, r), ?_⟩
    unfold flagVec
    rw [he, M.bind_thr (retM_ok e0)]
  exact ⟨this _, this _⟩

theorem lengthOf_eq {env : Env V} {e : Expr V} {n : Nat} (h : e.size env = n) (hn : n < 2 ^ 31) : lengthOf env e = n := by
  have hw : wrapI32 (e.size env) = n := by
    rw [h]; unfold wrapI32; simp only []; split <;> omega
  cases e with
  | scal v => simp only [Expr.size] at h; simp [lengthOf, ← h]
  | _ => exact hw

/-- C64, `length`, for vectors with fewer than `2^31` elements and for numbers. -/
theorem C64_length_partial {env : Env V} {e : Expr V} {l : List V} (hr : Reads env e l) (hl : l.length < 2 ^ 31) :
    lengthOf env e = l.length := lengthOf_eq hr.1 hl

example : lengthOf ⟨fun _ => 0, fun _ _ => .ok 0, fun _ => {}⟩ (.rvec [7, 8, (9 : Int)] {}) = 3 :=
  C64_length_partial (l := [7, 8, 9]) ⟨rfl, by decide⟩ (by norm_num)

/-- C64 is false for the length of long vectors: with `2^31` to `2^32 - 1` elements it is negative. -/
theorem C64_length_false {env : Env V} {e : Expr V} {l : List V} (hr : Reads env e l) (h1 : 2 ^ 31 ≤ l.length) (h2 : l.length < 2 ^ 32) :
    lengthOf env e = (l.length : Int) - 2 ^ 32 := by
  have hw : wrapI32 (e.size env) = (l.length : Int) - 2 ^ 32 := by
    rw [hr.1]; unfold wrapI32; simp only []; split <;> omega
  cases e with
  | scal v => have := hr.1; simp only [Expr.size] at this; omega
  | _ => exact hw

/-- C64, `dim` of a matrix with fewer than `2^31` rows and columns. -/
theorem C64_dim_partial {env : Env V} {e : Expr V} (hi : e.im env = true) {r c : Nat} (hr : e.nr env = .ok r) (hc : e.nc env = .ok c)
    (hr' : r < 2 ^ 31) (hc' : c < 2 ^ 31) {h : Heap Int} (hs : h.sched = []) (ws : List String) :
    Returns (dim env e) h ws ws [(r : Int), (c : Int)] {} := by
  have w : ∀ n : Nat, n < 2 ^ 31 → wrapI32 n = n := by
    intro n hn; unfold wrapI32; simp only []; split <;> omega
  have hsc : ¬ e.isScal = true := by
    intro hsc
    cases e <;> simp [Expr.isScal, Expr.im] at hsc hi
  obtain ⟨r0, e0, R0⟩ := ctorSize_spec (zero := (0 : Int)) (n := 2) hs (by omega) (by norm_num)
  obtain ⟨r1, e1, R1⟩ := R0.set (i := 0) (r : Int) (by simp)
  obtain ⟨r2, e2, R2⟩ := R1.set (i := 1) (c : Int) (by simp)
  refine Ret.returns (r := r2) R2 ?_
  unfold dim
  rw [M.bind_ok (by unfold M.ass; rw [M.lift_apply, Out.ass_pos ⟨hsc, hi⟩]), M.bind_ok (retM_ok e0),
    M.bind_ok (by rw [M.lift_apply, hr]), w r hr', M.bind_ok (retM_ok e1), M.bind_ok (by rw [M.lift_apply, hc]), w c hc']
  exact retM_ok e2

example : Returns (dim ⟨fun _ => 0, fun _ _ => .ok 0, fun _ => {}⟩ (.rvec [7, 8, 9, 10, 11, (12 : Int)] ⟨true, 2, 3⟩)) Heap.empty [] [] [2, 3] {} :=
  C64_dim_partial (r := 2) (c := 3) rfl rfl rfl (by norm_num) (by norm_num) rfl []

/-- C64, `dim` of anything that is not a matrix is rejected. -/
theorem C64_dim_rejects {env : Env V} {e : Expr V} (hi : e.im env = false) (h : Heap Int) (ws : List String) :
    Rejects (dim env e) h ws := by
  refine ⟨"dim can only be called with matrix", (ws, (h, {})), ?_⟩
  unfold dim
  rw [M.bind_thr (by unfold M.ass; rw [M.lift_apply, Out.ass_neg (by simp [hi])])]

example : Rejects (dim ⟨fun _ => 0, fun _ _ => .ok 0, fun _ => {}⟩ (.rvec [7, 8, (9 : Int)] {})) Heap.empty [] := C64_dim_rejects rfl _ _

/-- C64 is false for `dim`: the result of an element-wise function on a matrix has no dimensions. -/
theorem C64_dim_false (v : V) (f : V → Out V) : ∃ env : Env V, Returns (dim env (.leaf 0)) (Heap.empty) [] [] [2, 3] {} ∧
    Rejects (dim env (.un f (.leaf 0))) Heap.empty [] :=
  ⟨⟨fun _ => 6, fun _ _ => .ok v, fun _ => ⟨true, 2, 3⟩⟩, C64_dim_partial (r := 2) (c := 3) rfl rfl rfl (by norm_num) (by norm_num) rfl [],
    C64_dim_rejects rfl _ _⟩

/-- `isNA` of `c(1, NaN)`. -/
example : Returns (isNAVec ⟨fun _ => 0, fun _ _ => .ok (.i 0), fun _ => {}⟩ (.rvec [.d (.fin 1), .d .nan] {})) Heap.empty [] [] [false, true] {} :=
  C64_isNA_partial (l := [.d (.fin 1), .d .nan]) ⟨rfl, by decide⟩ rfl (by simp) (by norm_num) []

/-! ## C69 iteration -/

/-- C69 for a vector that owns or borrows its memory: the loop visits exactly its elements in order. -/
theorem C69_vector_partial {h : Heap V} {s : Store} {l : List V} (hs : Shows h s l) : iterVec h s = .ok l := by
  unfold iterVec Store.iterate
  rw [Out.all_eq_ok, hs.1]
  apply List.ext_getElem (by simp)
  intro i h1 h2
  simp only [List.getElem_map, List.getElem_range]
  simp only [List.length_map, List.length_range] at h1
  have := hs.2 i h1
  unfold Store.get at this
  obtain ⟨_, _, e⟩ := Out.bind_eq_ok.mp this
  exact e

theorem load_of_shows {h : Heap V} {s : Store} {l : List V} (hs : Shows h s l) {i : Nat} (hi : i < l.length) :
    h.load s.p i = .ok l[i] := by
  have := hs.2 i hi
  unfold Store.get at this
  obtain ⟨_, _, e⟩ := Out.bind_eq_ok.mp this
  exact e

/-- What the loop over a subset visits: the first elements of the vector, whatever the indices are. -/
theorem C69_subset_characterised {h : Heap V} {s : Store} {l : List V} (hs : Shows h s l) {ind : List Nat}
    (hi : ind.length ≤ l.length) : iterSubset h s ind = .ok (l.take ind.length) := by
  unfold iterSubset
  rw [Out.all_eq_ok]
  apply List.ext_getElem (by simp; omega)
  intro i h1 h2
  simp only [List.length_map, List.length_range] at h1
  simp [load_of_shows hs (show i < l.length by omega)]

/-- C69 for a subset holds exactly if the selected elements `sel` are the first elements of the vector. -/
theorem C69_subset_partial {h : Heap V} {s : Store} {l sel : List V} (hs : Shows h s l) {ind : List Nat}
    (hi : ind.length ≤ l.length) (hsel : ind.mapM (fun j => l[j]?) = some sel) :
    iterSubset h s ind = .ok sel ↔ ∀ i, i < ind.length → sel[i]? = l[i]? := by
  have hl := mapM_length hsel
  rw [C69_subset_characterised hs hi]
  simp only [Out.ok.injEq]
  constructor
  · rintro rfl i h1
    rw [List.getElem?_take, if_pos h1]
  · intro hh
    apply List.ext_getElem?
    intro i
    rw [List.getElem?_take]
    split
    · rw [hh i (by assumption)]
    · rw [List.getElem?_eq_none (by omega)]

/-- A vector with the given elements exists (the elements are written one by one after construction). -/
theorem exists_shows {l : List V} (h1 : l ≠ []) (h2 : l.length < 2 ^ 59) : ∃ (h : Heap V) (s : Store), WF h s ∧ Shows h s l := by
  obtain ⟨v, t, rfl⟩ := List.exists_cons_of_ne_nil h1
  obtain ⟨r, _, R⟩ := ctorSize_spec (h := Heap.empty) (zero := v) rfl (by simp : 1 ≤ (v :: t).length) h2
  obtain ⟨r', _, R'⟩ := R.loop (x := v :: t) (v :: t).length (k := 0) rfl
    (body := fun i => Store.set (0 + i) ((v :: t).getD i v)) (by
      intro i hi r
      simp [List.getD, List.getElem?_eq_getElem hi]) (by simp)
  exact ⟨r'.1, r'.2, R'.wf, by simpa using R'.sh⟩

/-- C69 is false for subsets: the loop over the second element of a vector visits the first. -/
theorem C69_subset_false {a b : V} (hab : a ≠ b) : ∃ (h : Heap V) (s : Store), Shows h s [a, b] ∧ iterSubset h s [1] = .ok [a] ∧
    iterSubset h s [1] ≠ .ok [b] := by
  obtain ⟨h, s, _, hs⟩ := exists_shows (l := [a, b]) (by simp) (by norm_num)
  have := C69_subset_characterised hs (ind := [1]) (by simp)
  refine ⟨h, s, hs, this, ?_⟩
  rw [this]
  simpa using hab

/-- The loop over a subset with more indices than the memory has room for leaves the memory. -/
theorem C69_subset_undefined {h : Heap V} {b : Nat} {s : Store} (hp : s.p = some b) (hl : (h.blk b).live = true)
    (hc : ∀ i, i < (h.blk b).len → ((h.blk b).cell i).isSome = true) {ind : List Nat} (hi : (h.blk b).len < ind.length) :
    iterSubset h s ind = .ub .oob := by
  unfold iterSubset
  have hload : ∀ i, h.load s.p i = if i < (h.blk b).len then
      (match (h.blk b).cell i with | some v => .ok v | none => .ub .uninit) else .ub .oob := by
    intro i
    unfold Heap.load Heap.cellAt
    rw [hp]
    simp only [hl, not_true_eq_false, if_false]
    by_cases h1 : i < (h.blk b).len
    · rw [if_neg (by omega), if_pos h1]
      cases (h.blk b).cell i <;> rfl
    · rw [if_pos (by omega), if_neg h1]
  have key : ∀ n k, k ≤ (h.blk b).len → (h.blk b).len < k + n →
      Out.all ((List.range' k n).map (fun i => h.load s.p i)) = .ub .oob := by
    intro n
    induction n with
    | zero => intro k h1 h2; omega
    | succ n ih =>
      intro k h1 h2
      rw [List.range'_succ, List.map_cons]
      simp only [Out.all]
      rw [hload k]
      by_cases h3 : k < (h.blk b).len
      · rw [if_pos h3]
        obtain ⟨v, hv⟩ := Option.isSome_iff_exists.mp (hc k h3)
        rw [hv]
        simp only [Out.ok_bind]
        rw [ih (k + 1) (by omega) (by omega)]
        rfl
      · rw [if_neg h3]; rfl
  rw [List.range_eq_range']
  exact key _ _ (by omega) (by omega)

/-- The loop over `v(c(3, 1))` of `v = c(5, 6, 7)` visits 5 and 6; the one over `v(c(1, 2))` what it should. -/
example : ∃ (h : Heap Nat) (s : Store), Shows h s [5, 6, 7] ∧ iterSubset h s [2, 0] = .ok [5, 6] ∧ iterSubset h s [0, 1] = .ok [5, 6] := by
  obtain ⟨h, s, _, hs⟩ := exists_shows (l := [5, 6, 7]) (by simp) (by norm_num)
  exact ⟨h, s, hs, C69_subset_characterised hs (by decide),
    (C69_subset_partial hs (ind := [0, 1]) (by decide) rfl).mpr (by decide)⟩

example : ∃ (h : Heap Nat) (s : Store), Shows h s [5, 6, 7] ∧ iterVec h s = .ok [5, 6, 7] := by
  obtain ⟨h, s, _, hs⟩ := exists_shows (l := [5, 6, 7]) (by simp) (by norm_num)
  exact ⟨h, s, hs, C69_vector_partial hs⟩

/-! ## C70 conversion to a scalar -/

/-- C70 for expressions that are not empty: the result is the first element; only for logicals, a message is printed if there
is more than one element. -/
theorem C70_first_partial {env : Env V} {e : Expr V} {a : V} {t : List V} (hr : Reads env e (a :: t)) (bool : Bool) (ws : List String) :
    toScalar bool env e ws = (.ok a, if bool = true ∧ t ≠ [] then ws ++ [ifMsg] else ws) := by
  have h0 : e.el env 0 = .ok a := hr.2 0 (by simp)
  have h1 : e.size env = t.length + 1 := hr.1
  unfold toScalar
  cases bool
  · simp only [Bool.false_eq_true, if_false, false_and]
    rw [M.lift_apply, h0]
  · simp only [if_true, true_and]
    by_cases ht : t = []
    · rw [if_neg (by simpa using ht), M.bind_ok (a := ()) (s' := ws) (by simp [warn, h1, ht]), M.lift_apply, h0]
    · have : ¬ e.size env = 1 := by
        rw [h1]; have := List.length_pos_iff.mpr ht; omega
      rw [if_pos ht, M.bind_ok (a := ()) (s' := ws ++ [ifMsg]) (by simp [warn, this]), M.lift_apply, h0]

/-- C70 for an expression of the vectors `ρ`: the first element of the list it denotes. -/
theorem C70_eval_partial {env : Env V} {ρ : Nat → Option (List V)} (ha : Agrees env ρ) {e : Expr V} {l : List V}
    (h : eval ρ e = some l) (bool : Bool) (ws : List String) : ∃ a ws', l.head? = some a ∧ toScalar bool env e ws = (.ok a, ws') := by
  obtain ⟨hne, hr⟩ := eval_sound ha e h
  obtain ⟨a, t, rfl⟩ := List.exists_cons_of_ne_nil hne
  exact ⟨a, _, rfl, C70_first_partial hr bool ws⟩

example : ∃ a ws', ([11, 22] : List Int).head? = some a ∧ toScalar true ⟨fun _ => 0, fun _ _ => .ok 0, fun _ => {}⟩
    (.bin (fun a b => .ok (a + b)) (.rvec [1, 2] {}) (.rvec [10, 20] {})) [] = (.ok a, ws') :=
  C70_eval_partial (ρ := fun _ => none) (fun x l hl => by cases hl) rfl true []

/-- C70 for an empty vector (a named one or a temporary): it is rejected. -/
theorem C70_empty_partial {env : Env V} (bool : Bool) (ws : List String) :
    (∀ (h : Heap V) (s : Store) (x : Nat), s.sz = 0 → env.get x = s.get h →
      ∃ m ws', toScalar bool env (.leaf x) ws = (.thr m, ws')) ∧
    ∃ m ws', toScalar bool env (.rvec [] {}) ws = (.thr m, ws') := by
  have key : ∀ (e : Expr V) m, e.el env 0 = .thr m → ∃ m ws', toScalar bool env e ws = (.thr m, ws') := by
    intro e m he
    unfold toScalar
    cases bool
    · exact ⟨m, ws, by simp only [Bool.false_eq_true, if_false]; rw [M.lift_apply, he]⟩
    · simp only [if_true]
      by_cases h1 : e.size env = 1
      · exact ⟨m, ws, by rw [M.bind_ok (a := ()) (s' := ws) (by simp [warn, h1]), M.lift_apply, he]⟩
      · exact ⟨m, ws ++ [ifMsg], by rw [M.bind_ok (a := ()) (s' := ws ++ [ifMsg]) (by simp [warn, h1]), M.lift_apply, he]⟩
  refine ⟨fun h s x hz hg => ?_, key (.rvec [] {}) _ rfl⟩
  have : ∃ m, (Expr.leaf x : Expr V).el env 0 = .thr m := by
    show ∃ m, env.get x 0 = .thr m
    rw [hg]
    unfold Store.get Store.checkIdx
    by_cases ha : s.allocated = true
    · exact ⟨_, by rw [Out.ass_pos ha, Out.ok_bind, Out.ass_neg (by omega)]; rfl⟩
    · exact ⟨_, by rw [Out.ass_neg ha]; rfl⟩
  obtain ⟨m, hm⟩ := this
  exact key _ m hm

example : ∃ m ws', toScalar false ⟨fun _ => 0, fun _ => Store.get (Heap.empty : Heap Int) {}, fun _ => {}⟩ (.leaf 4) [] = (.thr m, ws') :=
  (C70_empty_partial false []).1 Heap.empty {} 4 rfl rfl

/-- C70 is false for an operation on an empty vector: its size is 0, but the conversion divides by zero instead of being
rejected. -/
theorem C70_empty_false (f : V → V → Out V) (g : V → Out V) (v : V) (env : Env V) :
    (Expr.bin f (.rvec [] {}) (.scal v)).size env = 0 ∧ toScalar false env (.bin f (.rvec [] {}) (.scal v)) [] = (.ub .modZero, []) ∧
    (Expr.un g (.rvec [] {})).size env = 0 ∧ toScalar false env (.un g (.rvec [] {})) [] = (.ub .modZero, []) :=
  ⟨rfl, rfl, rfl, rfl⟩

/-- The condition `c(TRUE, FALSE)`: the first element counts, a message is printed. -/
example (env : Env Bool) : toScalar true env (.rvec [true, false] {}) [] = (.ok true, [ifMsg]) :=
  C70_first_partial (a := true) (t := [false]) ⟨rfl, fun i hi => by
    rcases i with _ | _ | i
    · rfl
    · rfl
    · simp at hi; omega⟩ true []

/-! ## C71 `back` -/

theorem capOf_small {n : Nat} (h1 : 1 ≤ n) (h2 : n < 7) : capOf n = .ok n := by
  have : ∀ n, n < 7 → 1 ≤ n → capOf n = .ok n := by decide +kernel
  exact this n h2 h1

/-- `ret[i] = v` for the pairs `(i, v)` of a list. -/
def setAll : List (Nat × V) → SM V Unit
  | [] => pure ()
  | o :: os => do
    Store.set o.1 o.2
    setAll os

/-- A vector constructed with `n` elements and then written to element by element. -/
def buildBy (zero : V) (n : Nat) (ops : List (Nat × V)) : SM V Unit := do
  ctorSize zero n
  setAll ops

/-- What `back()` of a vector made by construction and element writes gives, whatever has been written: for fewer than 7 elements
it leaves the memory, otherwise it is the unused element after the last one. -/
theorem C71_characterised {zero : V} {n : Nat} (h1 : 1 ≤ n) (h2 : n < 2 ^ 59) {ops : List (Nat × V)} {h h' : Heap V} {s : Store}
    (hs : h.sched = []) (e : buildBy zero n ops (h, {}) = (.ok (), (h', s))) :
    s.back h' = if n < 7 then .ub .oob else .ok zero := by
  obtain ⟨c, ec, hc1, hc2⟩ := capOf_spec (n := n) (by omega)
  have key : ∀ (ops : List (Nat × V)) (g : Heap V) (s0 : Store) (b : Nat), WF g s0 → s0.p = some b → s0.sz = n → (g.blk b).live = true →
      (g.blk b).len = c → (n < c → (g.blk b).cell n = some zero) → setAll ops (g, s0) = (.ok (), (h', s)) →
      s.back h' = if n < c then .ok zero else .ub .oob := by
    intro ops
    induction ops with
    | nil =>
      intro g s0 b w hp hz hl hc hn e
      simp only [setAll, M.pure_apply, Prod.mk.injEq, true_and] at e
      obtain ⟨rfl, rfl⟩ := e
      unfold Store.back Heap.load Heap.cellAt
      rw [hp]
      simp only [hl, not_true_eq_false, if_false, hc, hz]
      by_cases hh : n < c
      · rw [if_neg (by omega), if_pos hh, hn hh]
      · rw [if_pos (by omega), if_neg hh]
    | cons o os ih =>
      intro g s0 b w hp hz hl hc hn e
      unfold setAll at e
      by_cases ho : o.1 < s0.sz
      · have e1 := set_ok (v := o.2) w hp ho
        rw [M.bind_ok e1] at e
        refine ih _ s0 b (w.setCells _ _) hp hz ?_ ?_ ?_ e
        · simpa [Heap.setCells, Heap.setBlk] using hl
        · simpa [Heap.setCells, Heap.setBlk] using hc
        · intro hh
          have := hn hh
          simp only [Heap.setCells, Heap.setBlk, if_true]
          rw [if_neg (by omega), this]
      · obtain ⟨m, e1⟩ := Store.set_thr (h := g) (v := o.2) (show s0.sz ≤ o.1 by omega)
        rw [M.bind_thr e1] at e
        simp at e
  unfold buildBy at e
  rw [M.bind_ok (ctorSize_ok hs h1 (by omega) ec)] at e
  have w : WF (h.addBlk (zeroBlk zero c c)) { ({} : Store) with
    p := some h.next, sz := n, capacity := c, allocated := true } := WF.fresh rfl hc1 (le_refl _) rfl
  have := key ops _ _ h.next w rfl rfl (by simp [zeroBlk]) (by simp [zeroBlk]) (by intro hh; simp [zeroBlk, hh]) e
  rw [this]
  by_cases h7 : n < 7
  · rw [capOf_small h1 h7] at ec
    simp only [Out.ok.injEq] at ec
    rw [if_pos h7, if_neg (by omega)]
  · rw [if_neg h7, if_pos (capOf_gt (by omega) (by omega) ec)]

example : ∃ h' s, buildBy (0 : Int) 7 [(6, 5)] (Heap.empty, {}) = (.ok (), (h', s)) ∧ s.back h' = .ok 0 :=
  have e : buildBy (0 : Int) 7 [(6, 5)] (Heap.empty, {}) = (.ok (), (_, _)) := Prod.ext (by decide +kernel) rfl
  ⟨_, _, e, C71_characterised (by decide) (by decide) rfl e⟩

/-- C71 for a borrowed vector: `back()` always leaves the borrowed memory. -/
theorem C71_borrow_false (h : Heap V) (l : List V) :
    Store.back (h.foreign l).1 { p := some (h.foreign l).2, sz := l.length, capacity := l.length, allocated := true } = .ub .oob := by
  simp [Store.back, Heap.load, Heap.cellAt, Heap.foreign, Heap.setBlk]

/-- C71 is false: the vector with the elements 1, 2, 3 has no valid `back()`, and that of the vector 1, …, 8 is 0. -/
theorem C71_false :
    (∃ h s, buildBy 0 3 [(0, 1), (1, 2), (2, 3)] (Heap.empty, {}) = (.ok (), (h, s)) ∧ Shows h s [1, 2, 3] ∧ s.back h = .ub .oob) ∧
    (∃ h s, buildBy 0 8 [(0, 1), (1, 2), (2, 3), (3, 4), (4, 5), (5, 6), (6, 7), (7, 8)] (Heap.empty, {}) = (.ok (), (h, s)) ∧
      Shows h s [1, 2, 3, 4, 5, 6, 7, 8] ∧ s.back h = .ok 0) := by
  have key : ∀ (n : Nat) (l : List Nat), l.length = n → 1 ≤ n → n < 2 ^ 59 → ∀ ops : List (Nat × Nat),
      (∀ o ∈ ops, o.1 < n) → ops.foldl (fun l o => l.set o.1 o.2) (List.replicate n 0) = l →
      ∃ h s, buildBy 0 n ops (Heap.empty, {}) = (.ok (), (h, s)) ∧ Shows h s l := by
    intro n l hl h1 h2 ops ho hf
    obtain ⟨r, e1, R⟩ := ctorSize_spec (h := Heap.empty) (zero := 0) rfl h1 h2
    have go : ∀ (ops : List (Nat × Nat)) (r : Heap Nat × Store) (l0 : List Nat), l0.length = n → (∀ o ∈ ops, o.1 < n) →
        Ret Heap.empty r l0 {} → ∃ r', setAll ops r = (.ok (), r') ∧ Ret Heap.empty r' (ops.foldl (fun l o => l.set o.1 o.2) l0) {} := by
      intro ops
      induction ops with
      | nil => intro r l0 _ _ R; exact ⟨r, rfl, R⟩
      | cons o os ih =>
        intro r l0 hl ho R
        obtain ⟨r1, e1, R1⟩ := R.set o.2 (by rw [hl]; exact ho o (by simp))
        obtain ⟨r2, e2, R2⟩ := ih r1 _ (by simp [hl]) (fun o' h' => ho o' (by simp [h'])) R1
        exact ⟨r2, by unfold setAll; rw [M.bind_ok e1, e2], R2⟩
    obtain ⟨r', e2, R'⟩ := go ops r _ (by simp) ho R
    refine ⟨r'.1, r'.2, ?_, by rw [← hf]; exact R'.sh⟩
    unfold buildBy
    rw [M.bind_ok e1, e2]
  constructor
  · obtain ⟨h, s, e, sh⟩ := key 3 [1, 2, 3] rfl (by omega) (by norm_num) [(0, 1), (1, 2), (2, 3)] (by simp) rfl
    exact ⟨h, s, e, sh, C71_characterised (by omega) (by norm_num) rfl e⟩
  · obtain ⟨h, s, e, sh⟩ := key 8 [1, 2, 3, 4, 5, 6, 7, 8] rfl (by omega) (by norm_num)
      [(0, 1), (1, 2), (2, 3), (3, 4), (4, 5), (5, 6), (6, 7), (7, 8)] (by simp) rfl
    exact ⟨h, s, e, sh, C71_characterised (by omega) (by norm_num) rfl e⟩

end ETR
