import Verif.Lemmas.MatSubset
import Verif.Props.MatSubset

/-! # C40: what a mask of any length selects, next to an index that keeps the dimension -/

namespace ETR
namespace Spec

/-- The numbers of the `TRUE` entries of a mask, each taken modulo `n`: a short mask is not recycled, a long one starts again at the first
row. -/
def wrapped (n : Nat) (mask : List Bool) : List Nat :=
  ((List.range mask.length).filter (fun i => mask[i]? = some true)).map (· % n)

end Spec
open Spec

theorem maskLoop_wrapped {n : Nat} (hn : 0 < n) : ∀ (l : List Bool) (i c : Nat), c = (i - 1) / n →
    maskLoop n l i c = .ok (((List.range l.length).filter (fun j => l[j]? = some true)).map (fun j => (i + j) % n))
  | [], _, _, _ => rfl
  | b :: t, i, c, h => by
    unfold maskLoop
    simp only [modz, if_neg (Nat.pos_iff_ne_zero.mp hn), Out.ok_bind]
    have hc : (if i % n = 0 ∧ i ≠ 0 then c + 1 else c) = i / n := by
      subst h
      rcases i with _ | i
      · simp
      · simp only [Nat.add_sub_cancel, ne_eq, Nat.succ_ne_zero, not_false_eq_true, and_true]
        rw [Nat.succ_div]
        split <;> split <;> simp_all [Nat.dvd_iff_mod_eq_zero]
    rw [hc, maskLoop_wrapped hn t (i + 1) (i / n) (by simp), Out.ok_bind, List.length_cons, List.range_succ_eq_map, List.filter_cons,
      List.filter_map]
    show Out.ok _ = Out.ok _
    congr 1
    have e1 : ((fun j => decide ((b :: t)[j]? = some true)) ∘ Nat.succ) = fun j => decide (t[j]? = some true) := by
      funext j; simp
    have e2 : ((fun j => (i + j) % n) ∘ Nat.succ) = fun j => (i + 1 + j) % n := by
      funext j
      simp only [Function.comp]
      congr 1; omega
    have e3 : i - i / n * n = i % n := by
      have := Nat.div_add_mod i n
      rw [Nat.mul_comm] at this
      omega
    rw [e1]
    cases b
    · simp [e2]
    · simp [e3, Function.comp_def]; intros; congr 1; omega

theorem maskRaw_wrapped {n : Nat} (hn : 0 < n) {l : List Bool} (h : true ∈ l) (ws : List String) : maskRaw n l ws = (.ok (wrapped n l), ws) := by
  unfold maskRaw
  rw [M.bind_ok (M.ass_pos (List.count_pos_iff.mpr h) _), maskLoop_wrapped hn l 0 0 (by simp)]
  simp [wrapped, M.lift_apply]

theorem wrapped_ne {n : Nat} {l : List Bool} (h : true ∈ l) : wrapped n l ≠ [] := by
  obtain ⟨i, hi, e⟩ := List.mem_iff_getElem.mp h
  intro hc
  have : i ∈ (List.range l.length).filter (fun i => l[i]? = some true) := by
    simp [hi, e]
  simp only [wrapped, List.map_eq_nil_iff] at hc
  rw [hc] at this
  simp at this

theorem wrapped_lt {n : Nat} (hn : 0 < n) {l : List Bool} : ∀ j ∈ wrapped n l, j < n := by
  intro j hj
  simp only [wrapped, List.mem_map] at hj
  obtain ⟨i, _, rfl⟩ := hj
  exact Nat.mod_lt _ hn

theorem wrapped_full {n : Nat} {l : List Bool} (h : l.length = n) : wrapped n l = posM n l := by
  subst h
  unfold wrapped posM
  have : (List.range l.length).filter (fun i => decide (l[i]? = some true)) =
      (List.range l.length).filter (fun i => decide (l[i % l.length]? = some true)) := by
    apply List.filter_congr
    intro i hi
    rw [List.mem_range] at hi
    rw [Nat.mod_eq_of_lt hi]
  rw [this]
  conv_rhs => rw [← List.map_id ((List.range l.length).filter _)]
  apply List.map_congr_left
  intro i hi
  simp only [List.mem_filter, List.mem_range] at hi
  exact Nat.mod_eq_of_lt hi.1

theorem wrapGrid {nr nc : Nat} (hlim : nr * nc < 2 ^ 31) {rows cols : List Nat} (hr0 : rows ≠ []) (hc0 : cols ≠ [])
    (hr : ∀ i ∈ rows, i < nr) (hc : ∀ j ∈ cols, j < nc) (ws : List String) :
    grid cols rows (fun (j i : Nat) => .ok (wrap64 ((j : Int) * nr + i))) ws = (.ok (cols.flatMap fun j => rows.map fun i => j * nr + i), ws) := by
  exact grid_ok (nr := nr) (P := fun (x c : Nat) => x = c ∧ c < nc) (Q := fun (x c : Nat) => x = c ∧ c < nr) (forall₂_self hc) (forall₂_self hr) hc0 hr0
    (f := fun (j i : Nat) => Out.ok (wrap64 ((j : Int) * nr + i))) (by
    rintro a c b r ⟨rfl, h1⟩ ⟨rfl, h2⟩
    have : a * nr + b < nr * nc := by
      have h3 : (a + 1) * nr ≤ nc * nr := Nat.mul_le_mul_right _ h1
      rw [Nat.add_mul, Nat.mul_comm nc] at h3
      omega
    congr 1
    unfold wrap64 two64
    rw [show ((a : Int) * nr + b) = ((a * nr + b : Nat) : Int) by push_cast; rfl]
    omega) ws

/-- C40, exactly: masks of any lengths for the rows and for the columns.  The cells are those of the rows and columns whose numbers, counted
through the mask and not through the matrix, are `TRUE`, modulo the dimension. -/
theorem C40_characterised {d : MatDim} (h1 : 0 < d.nr) (h2 : 0 < d.nc) (hlim : d.nr * d.nc < 2 ^ 31) {rm cm : List Bool} (hr : true ∈ rm)
    (hc : true ∈ cm) (ws : List String) :
    calcIndMatrix d (.vlgl rm) (.vlgl cm) ws = (.ok ((wrapped d.nc cm).flatMap (fun j => (wrapped d.nr rm).map (fun i => j * d.nr + i)),
      ⟨true, (wrapped d.nr rm).length, (wrapped d.nc cm).length⟩), ws) ∧
    calcIndMatrix d (.vlgl rm) (.lgl true) ws = (.ok ((List.range d.nc).flatMap (fun j => (wrapped d.nr rm).map (fun i => j * d.nr + i)),
      ⟨true, (wrapped d.nr rm).length, d.nc⟩), ws) ∧
    calcIndMatrix d (.lgl true) (.vlgl cm) ws = (.ok ((wrapped d.nc cm).flatMap (fun j => (List.range d.nr).map (fun i => j * d.nr + i)),
      ⟨true, d.nr, (wrapped d.nc cm).length⟩), ws) := by
  have rng : ∀ n, ∀ j ∈ List.range n, j < n := fun n j hj => List.mem_range.mp hj
  refine ⟨?_, ?_, ?_⟩
  · unfold calcIndMatrix calcVlgl
    simp only
    rw [M.bind_ok (maskRaw_wrapped h1 hr ws), M.bind_ok (maskRaw_wrapped h2 hc ws),
      M.bind_ok (wrapGrid hlim (wrapped_ne hr) (wrapped_ne hc) (wrapped_lt h1) (wrapped_lt h2) ws)]
    rfl
  · unfold calcIndMatrix calcVlgl
    simp only
    rw [M.bind_ok (M.ass_pos rfl _), M.bind_ok (maskRaw_wrapped h1 hr ws),
      M.bind_ok (wrapGrid hlim (wrapped_ne hr) (by simp; omega) (wrapped_lt h1) (rng _) ws)]
    rfl
  · unfold calcIndMatrix calcLgl
    simp only
    rw [M.bind_ok (M.ass_pos rfl _), M.bind_ok (M.ass_pos (List.count_pos_iff.mpr hc) _), M.bind_ok (maskRaw_wrapped h2 hc ws),
      M.bind_ok (wrapGrid hlim (by simp; omega) (wrapped_ne hc) (rng _) (wrapped_lt h2) ws)]
    rfl

theorem cell_bounds {nr nc r c : Nat} (hlim : nr * nc < 2 ^ 31) (h1 : c < nc) (h2 : r < nr) :
    c * nr + r < 2 ^ 31 ∧ c + 1 < 2 ^ 31 ∧ r + 1 < 2 ^ 31 ∧ nr < 2 ^ 31 ∧ nc < 2 ^ 31 := by
  have h3 : (c + 1) * nr ≤ nc * nr := Nat.mul_le_mul_right _ h1
  have h4 : nr * 1 ≤ nr * nc := Nat.mul_le_mul_left _ (by omega)
  have h5 : 1 * nc ≤ nr * nc := Nat.mul_le_mul_right _ (by omega)
  rw [Nat.add_mul, Nat.mul_comm nc] at h3
  omega

/-- C40, exactly, for a mask next to a vector of numbers. -/
theorem C40_numbers_characterised {d : MatDim} (h1 : 0 < d.nr) (h2 : 0 < d.nc) (hlim : d.nr * d.nc < 2 ^ 31) {mask : List Bool}
    (hm : true ∈ mask) {idx : Index} (hp : idx.Pass) (hi : (∃ l, idx = .vint l) ∨ ∃ l, idx = .vdbl l) (ws : List String) :
    (∀ cols, positions d.nc idx = some cols → ∃ mp, calcIndMatrix d (.vlgl mask) idx ws =
      (.ok (cols.flatMap (fun j => (wrapped d.nr mask).map (fun i => j * d.nr + i)), mp), ws)) ∧
    (∀ rows, positions d.nr idx = some rows → ∃ mp, calcIndMatrix d idx (.vlgl mask) ws =
      (.ok ((wrapped d.nc mask).flatMap (fun j => rows.map (fun i => j * d.nr + i)), mp), ws)) := by
  have R := forall₂_self (n := d.nr) (wrapped_lt h1 (l := mask))
  have C := forall₂_self (n := d.nc) (wrapped_lt h2 (l := mask))
  have ne : ∀ n r, positions n idx = some r → r ≠ [] := fun n r h => (positions_entries h).2
  rcases hi with ⟨l, rfl⟩ | ⟨l, rfl⟩
  · refine ⟨fun cols hc => ?_, fun rows hr => ?_⟩
    · have e := forall₂_map (p := posI d.nc) (l := l) (positions_entries hc).1
      simp only [calcIndMatrix, calcVlgl]
      rw [M.bind_ok (maskRaw_wrapped h1 hm ws), M.bind_ok (grid_ok (nr := d.nr) e R (ne _ _ hc) (wrapped_ne hm) ?_ ws)]
      · exact ⟨_, rfl⟩
      · rintro a c b r ⟨hm, h⟩ ⟨rfl, h4⟩
        have := cell_bounds hlim (posI_some (hp _ hm) h).1 h4
        exact colD_ok this.1 this.2.1 (posD_d2iS this.2.2.2.2 (hp _ hm) h)
    · have e := forall₂_map (p := posI d.nr) (l := l) (positions_entries hr).1
      simp only [calcIndMatrix, calcVint]
      rw [M.bind_ok (maskRaw_wrapped h2 hm ws), M.bind_ok (grid_ok (nr := d.nr) C e (wrapped_ne hm) (ne _ _ hr) ?_ ws)]
      · exact ⟨_, rfl⟩
      · rintro a c b r ⟨rfl, h3⟩ ⟨hm, h⟩
        have := cell_bounds hlim h3 (posI_some (hp _ hm) h).1
        rw [wrap_base (by omega)]
        exact rowD'_ok this.1 this.2.2.1 (posD_d2iS this.2.2.2.1 (hp _ hm) h)
  · refine ⟨fun cols hc => ?_, fun rows hr => ?_⟩
    · have e := forall₂_map (p := posD d.nc) (l := l) (positions_entries hc).1
      simp only [calcIndMatrix, calcVlgl]
      rw [M.bind_ok (maskRaw_wrapped h1 hm ws), M.bind_ok (grid_ok (nr := d.nr) e R (ne _ _ hc) (wrapped_ne hm) ?_ ws)]
      · exact ⟨_, rfl⟩
      · rintro a c b r ⟨hm, h⟩ ⟨rfl, h4⟩
        obtain ⟨_, _, _, h3⟩ := posD_some h
        have := cell_bounds hlim h3 h4
        exact colD_ok this.1 this.2.1 h
    · have e := forall₂_map (p := posD d.nr) (l := l) (positions_entries hr).1
      simp only [calcIndMatrix, calcVdbl]
      rw [M.bind_ok (maskRaw_wrapped h2 hm ws), M.bind_ok (grid_ok (nr := d.nr) C e (wrapped_ne hm) (ne _ _ hr) ?_ ws)]
      · exact ⟨_, rfl⟩
      · rintro a c b r ⟨rfl, h3⟩ ⟨hm, h⟩
        obtain ⟨_, _, _, h4⟩ := posD_some h
        have := cell_bounds hlim h3 h4
        rw [wrap_base (by omega)]
        exact rowD'_ok this.1 this.2.2.1 h

example : ∃ mp, calcIndMatrix ⟨6, 2, 3, ⟨true, 2, 3⟩⟩ (.vlgl [true]) (.vint [.i 3, .i 1]) [] = (.ok ([4, 0], mp), []) :=
  (C40_numbers_characterised (d := ⟨6, 2, 3, ⟨true, 2, 3⟩⟩) (by decide) (by decide) (by decide) (mask := [true]) (by decide)
    (idx := .vint [.i 3, .i 1]) (by intro x hx; simp at hx; rcases hx with rfl | rfl <;> (show InI32 _; decide)) (.inl ⟨_, rfl⟩) []).1 [2, 0] (by decide)

/-- C40, when the selection is the expected one: the `TRUE` entries, counted through a mask of length at most `n`, agree with those of the
recycled mask exactly if recycling adds nothing. -/
theorem C40_short_iff {n : Nat} {mask : List Bool} (h : mask.length ≤ n) :
    wrapped n mask = posM n mask ↔ ∀ i, mask.length ≤ i → i < n → mask[i % mask.length]? ≠ some true := by
  obtain ⟨k, rfl⟩ := Nat.exists_eq_add_of_le h
  have e : wrapped (mask.length + k) mask = (List.range mask.length).filter (fun i => mask[i % mask.length]? = some true) := by
    unfold wrapped
    have e1 : (List.range mask.length).filter (fun i => decide (mask[i]? = some true)) =
        (List.range mask.length).filter (fun i => decide (mask[i % mask.length]? = some true)) := by
      apply List.filter_congr
      intro i hi
      rw [List.mem_range] at hi
      rw [Nat.mod_eq_of_lt hi]
    rw [e1]
    conv_rhs => rw [← List.map_id ((List.range mask.length).filter _)]
    apply List.map_congr_left
    intro i hi
    simp only [List.mem_filter, List.mem_range] at hi
    exact Nat.mod_eq_of_lt (by omega)
  rw [e]
  unfold posM
  rw [List.range_add, List.filter_append]
  constructor
  · intro hh i h1 h2 hc
    have : ((List.range k).map (mask.length + ·)).filter (fun i => decide (mask[i % mask.length]? = some true)) = [] :=
      List.self_eq_append_right.mp hh
    rw [List.filter_eq_nil_iff] at this
    exact this i (by simp only [List.mem_map, List.mem_range]; exact ⟨i - mask.length, by omega, by omega⟩) (by simpa using hc)
  · intro hh
    refine List.self_eq_append_right.mpr ?_
    rw [List.filter_eq_nil_iff]
    intro i hi
    simp only [List.mem_map, List.mem_range] at hi
    obtain ⟨a, ha, rfl⟩ := hi
    simpa using hh (mask.length + a) (by omega) (by omega)

/-- C40 for columns next to a single number: the mask is recycled. -/
theorem C40_recycled_columns_partial {V : Type} {env : Env V} {e : Expr V} {nr nc : Nat} {l : List V} (hm : IsMat env e nr nc l)
    (hlim : l.length < 2 ^ 31) {mask : List Bool} (hlen : mask.length ≤ nc) {k : Nat} (h1 : 1 ≤ k) (h2 : k ≤ nr)
    (hsome : posM nc mask ≠ []) (ws : List String) :
    ∃ e' ws', subsetM env e (.int k) (.vlgl mask) ws = (.ok e', ws') ∧ ∃ l', Denotes env e' l' ∧
      l'.map some = ((List.range nc).filter (fun j => mask[j % mask.length]? = some true)).map (fun j => l[j * nr + (k - 1)]?) := by
  have hc : positions nc (.vlgl mask) = some (posM nc mask) := by simp only [positions, if_neg hsome]
  have hr : positions nr (.int k) = some [k - 1] := by
    have : (1 : Int) ≤ k ∧ (k : Int) ≤ nr := by omega
    simp only [positions, pos1, if_pos this, Option.map_some, Option.some.injEq, List.cons.injEq, and_true]
    omega
  have hl := hm.len
  have hnc := positions_pos hc
  have hnr := dim_lt (nr := nr) (nc := nc) hnc (by omega)
  obtain ⟨ws', h⟩ := subsetM_ok hm hlim (r := .int k) (c := .vlgl mask) (by show InI32 _; unfold InI32; omega) trivial
    hr hc trivial trivial hlen ws
  have hle : (posM nc mask).length ≤ nc := by
    unfold posM
    exact (List.length_filter_le _ _).trans (by simp)
  obtain ⟨l', d, g⟩ := sub_gather hm.den (r := cells nr [k - 1] (posM nc mask))
    (by rw [hm.len]; exact cells_lt (positions_lt hr) (positions_lt hc))
    (by
      rw [cells_length]
      have : 1 * nc ≤ nr * nc := Nat.mul_le_mul_right _ (by omega)
      simp only [List.length_cons, List.length_nil]; omega) _
  refine ⟨_, ws', h, l', d, ?_⟩
  unfold Gather at g
  rw [g, show cells nr [k - 1] (posM nc mask) = (posM nc mask).map (fun j => j * nr + (k - 1)) by
    unfold cells
    simp [← List.map_eq_flatMap], List.map_map]
  rfl

example : calcIndMatrix ⟨6, 2, 3, ⟨true, 2, 3⟩⟩ (.vlgl [true, false, true]) (.vlgl [true]) [] = (.ok ([0, 0], ⟨true, 2, 1⟩), []) :=
  (C40_characterised (d := ⟨6, 2, 3, ⟨true, 2, 3⟩⟩) (by decide) (by decide) (by decide) (rm := [true, false, true]) (cm := [true])
    (by decide) (by decide) []).1

/-- A mask with 2 entries for 3 rows that selects as expected, and one that does not. -/
example : wrapped 3 [false, true] = posM 3 [false, true] ∧ wrapped 3 [true, false] ≠ posM 3 [true, false] :=
  ⟨(C40_short_iff (by decide)).mpr (by intro i h1 h2; obtain rfl : i = 2 := by (simp at h1; omega)
                                       decide), by decide⟩

example : ∃ e' ws' l', subsetM mat23 (.leaf 0) (.int 2) (.vlgl [true, false]) [] = (.ok e', ws') ∧ Denotes mat23 e' l' ∧
    l'.map some = [some 21, some 23] := by
  obtain ⟨e', ws', h, l', d, g⟩ := C40_recycled_columns_partial mat23_isMat (by decide) (mask := [true, false]) (k := 2) (by decide) (by decide)
    (by decide) (by decide) []
  exact ⟨e', ws', l', h, d, by rw [g]; decide⟩

end ETR
