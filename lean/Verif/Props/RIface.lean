import Verif.Model.RIface
import Verif.Props.Helper
import Verif.Lemmas.Cap

/-! C66, C75, C76: exchange of vectors with R, Rcpp and Armadillo. -/

namespace ETR
open Store Heap

section
variable {V W : Type}

/-- An R object as R makes it: fewer than `2^31` elements, and the dimensions, if any, fit. -/
structure RObj.Valid (r : RObj W) : Prop where
  len : r.el.length < 2 ^ 31
  dim : ∀ a c, r.dim = some (a, c) → a * c = r.el.length ∧ a < 2 ^ 31 ∧ c < 2 ^ 31

theorem initSEXP_tail {h : Heap V} {s : Store} (hs : h.sched = []) {conv : W → V} {r : RObj W} (hl : r.el.length < 2 ^ 31) :
    ∃ h' s', (do
      Store.upd (fun s => { s with sz := r.el.length, capacity := r.el.length })
      let b ← Store.heapM (Heap.new r.el.length)
      Store.upd (fun s => { s with p := some b })
      match r.dim with
      | some (a, c) => Store.upd (fun s => { s with mp := ⟨true, a, c⟩ })
      | none => pure ()
      M.forN r.el.length (fun i => do
        let v ← M.reads (fun _ => match r.el[i]? with
          | some w => .ok (conv w)
          | none => .ub .oob)
        Store.heapM (Heap.store (some b) i v))
      Store.upd (fun s => { s with allocated := true }) : SM V Unit) (h, s) = (.ok (), (h', s')) ∧ WF h' s' ∧ h'.sched = [] ∧
      Shows h' s' (r.el.map conv) ∧ s'.p ≠ none ∧ s'.mp = (match r.dim with
        | some (a, c) => ⟨true, a, c⟩
        | none => s.mp) := by
  have loop : ∀ s1 : Store, M.forN r.el.length (fun i => do
        let v ← M.reads (fun _ => match r.el[i]? with
          | some w => .ok (conv w)
          | none => .ub .oob)
        Store.heapM (Heap.store (some h.next) i v)) (h.addBlk ⟨r.el.length, fun _ => none, true, true⟩, s1)
      = (.ok (), (h.addBlk ⟨r.el.length, fun j => (r.el[j]?).map conv, true, true⟩, s1)) := by
    intro s1
    by_cases he : r.el = []
    · rw [he]; simp
    obtain ⟨w0, t, hw⟩ := List.exists_cons_of_ne_nil he
    have := loop_store (h := h.addBlk ⟨r.el.length, fun _ => none, true, true⟩) (s := s1) (b := h.next) (n := r.el.length)
      (g := fun _ i => match r.el[i]? with
          | some w => .ok (conv w)
          | none => .ub .oob) (f := fun i => conv (r.el.getD i w0)) (by simp) (by simp) (by
        intro i hi c
        simp [List.getD, hi])
    rw [this, addBlk_setCells]
    simp only [addBlk_same]
    congr 4
    funext j
    by_cases hj : j < r.el.length
    · simp [hj, List.getD]
    · simp [hj]
  rcases hd : r.dim with _ | ⟨a, c⟩
  all_goals
    simp only [M.bind_apply, Store.upd_apply]
    rw [heapM_apply, new_ok hs (by omega)]
    simp only [loop]
    refine ⟨_, _, rfl, WF.fresh rfl (le_refl _) (le_refl _) rfl, by simpa using hs, ⟨by simp, ?_⟩, by simp, rfl⟩
    intro i hi
    simp only [List.length_map] at hi
    rw [get_eq_load rfl hi, load_some (v := conv r.el[i]) (by simp) (by simpa using hi) (by simp [hi])]
    simp

/-- Assigning an R object of the right type to a vector: the vector has the elements of the R object; the dimensions are replaced only
if the R object is a matrix. -/
theorem initSEXP_ok {h : Heap V} {s : Store} (w : WF h s) (hn : s.allocated = true → s.p ≠ none) (hs : h.sched = [])
    {ty : RTy} {conv : W → V} {r : RObj W} (ht : r.ty = ty) (hl : r.el.length < 2 ^ 31) :
    ∃ h' s', Store.initSEXP ty conv r (h, s) = (.ok (), (h', s')) ∧ WF h' s' ∧ h'.sched = [] ∧ Shows h' s' (r.el.map conv) ∧
      s'.p ≠ none ∧ s'.mp = (match r.dim with
        | some (a, c) => ⟨true, a, c⟩
        | none => s.mp) := by
  unfold Store.initSEXP
  rw [M.bind_ok (m := Store.self) (self_apply _)]
  have hlen : r.length = .ok r.el.length := by unfold RObj.length; rw [if_pos hl]
  cases ha : s.allocated with
  | false =>
    simp only [Bool.false_eq_true, if_false]
    rw [M.bind_ok (M.ass_pos ht _), hlen, M.bind_ok (M.lift_apply _ _)]
    exact initSEXP_tail hs hl
  | true =>
    have hp := hn ha
    obtain ⟨b, hb⟩ := Option.ne_none_iff_exists'.mp hp
    obtain ⟨_, h1, h2, _⟩ := w.ptr b hb
    simp only [if_true]
    have := initSEXP_tail (h := h.kill b) (s := { s with p := none }) (by simpa using hs) (conv := conv) (r := r) hl
    obtain ⟨h', s', e', rest⟩ := this
    refine ⟨h', s', ?_, rest⟩
    rw [M.bind_ok (M.ass_pos hp _), M.bind_ok (s' := (h.kill b, s)) (a := ()) (by
      rw [heapM_apply, hb, delete_some h2 h1]), M.bind_ok (m := Store.upd _) (Store.upd_apply _ _), M.bind_ok (M.ass_pos ht _), hlen, M.bind_ok (M.lift_apply _ _)]
    exact e'

/-- What `cpp2R` returns for a vector with fewer than `2^31` elements that is not a matrix. -/
theorem cpp2R_vector {h : Heap V} {s : Store} {l : List V} (hs : Shows h s l) (hl : l.length < 2 ^ 31) (hm : s.mp.im = false)
    (ty : RTy) (back : V → W) : cpp2R ty back (s.env h) (.leaf 0) = .ok ⟨ty, l.map back, none⟩ := by
  unfold cpp2R cpp2RAlloc
  rw [if_neg (by simp [Expr.im, Store.env, hm])]
  simp only [Out.pure_eq, Out.ok_bind]
  have : Out.all ((List.range ((Expr.leaf 0).size (s.env h))).map (fun i =>
      if 2 ^ 31 ≤ i then .ub .intOverflow
      else do
        let v ← (Expr.leaf 0).el (s.env h) i
        if i < (Expr.leaf 0).size (s.env h) then .ok (back v) else .ub .oob)) = .ok (l.map back) := by
    rw [Out.all_eq_ok]
    refine List.ext_getElem (by simp [Expr.size, Store.env, hs.1]) ?_
    intro i h1 h2
    have hi : i < l.length := by simpa using h2
    simp only [List.getElem_map, List.getElem_range, Expr.el, Expr.size, Store.env, hs.2 i hi, Out.ok_bind, hs.1]
    rw [if_neg (by omega), if_pos hi]
  rw [this]
  rfl

/-- What `cpp2R` returns for a matrix with fewer than `2^31` elements, rows and columns. -/
theorem cpp2R_matrix {h : Heap V} {s : Store} {l : List V} (hs : Shows h s l) (hl : l.length < 2 ^ 31) {a c : Nat}
    (hm : s.mp = ⟨true, a, c⟩) (hac : a * c = l.length) (ha : a < 2 ^ 31) (hc : c < 2 ^ 31)
    (ty : RTy) (back : V → W) : cpp2R ty back (s.env h) (.leaf 0) = .ok ⟨ty, l.map back, some (a, c)⟩ := by
  unfold cpp2R cpp2RAlloc
  rw [if_pos (by simp [Expr.im, Store.env, hm])]
  have e1 : (Expr.leaf 0).nr (s.env h) = .ok a := by simp [Expr.nr, Store.env, hm]
  have e2 : (Expr.leaf 0).nc (s.env h) = .ok c := by simp [Expr.nc, Store.env, hm]
  have e3 : (Expr.leaf 0).size (s.env h) = l.length := by simp [Expr.size, Store.env, hs.1]
  have w1 : wrapI32 a = a := wrapI32_small (by omega)
  have w2 : wrapI32 c = c := wrapI32_small (by omega)
  have hz : ((a : Int) * c) = l.length := by rw [← hac]; push_cast; rfl
  rw [e1, e2]
  simp only [Out.ok_bind]
  rw [Out.ass_pos (by rw [e3, hac]; unfold two64; omega), Out.ok_bind, Out.ass_pos (by rw [w1, w2]; omega), Out.ok_bind,
    Out.ass_pos (by rw [w1, w2, hz]; omega)]
  simp only [Out.ok_bind, Out.pure_eq, w1, w2, hz, Int.toNat_natCast]
  have : Out.all ((List.range ((Expr.leaf 0).size (s.env h))).map (fun i =>
      if 2 ^ 31 ≤ i then .ub .intOverflow
      else do
        let v ← (Expr.leaf 0).el (s.env h) i
        if i < l.length then .ok (back v) else .ub .oob)) = .ok (l.map back) := by
    rw [Out.all_eq_ok]
    refine List.ext_getElem (by simp [Expr.size, Store.env, hs.1]) ?_
    intro i h1 h2
    have hi : i < l.length := by simpa using h2
    simp only [List.getElem_map, List.getElem_range, Expr.el, Store.env, hs.2 i hi, Out.ok_bind]
    rw [if_neg (by omega), if_pos hi]
  rw [this]
  rfl

/-- A matrix never comes back without dimensions. -/
theorem cpp2R_dim {env : Env V} {e : Expr V} {ty : RTy} {back : V → W} {r : RObj W} (hm : e.im env = true)
    (hr : cpp2R ty back env e = .ok r) : r.dim ≠ none := by
  unfold cpp2R cpp2RAlloc at hr
  rw [if_pos hm] at hr
  simp only [Out.bind_eq_ok, Out.pure_eq, Out.ok.injEq] at hr
  obtain ⟨_, ⟨_, _, _, _, _, _, _, _, _, _, rfl⟩, _, _, rfl⟩ := hr
  simp

/-- C66, exactly: assigning an R object of the right type to a vector of any history works, and converting it back gives the same R
object if and only if the object is a matrix or the vector was not a matrix before, and the conversion keeps the elements. -/
theorem C66_characterised {h : Heap V} {s : Store} (w : WF h s) (hn : s.allocated = true → s.p ≠ none) (hs : h.sched = [])
    {ty : RTy} {conv : W → V} {back : V → W} {r : RObj W} (ht : r.ty = ty) (hv : r.Valid) :
    ∃ h' s', Store.initSEXP ty conv r (h, s) = (.ok (), (h', s')) ∧ WF h' s' ∧
      (cpp2R ty back (s'.env h') (.leaf 0) = .ok r ↔ (r.dim ≠ none ∨ s.mp.im = false) ∧ ∀ x ∈ r.el, back (conv x) = x) := by
  obtain ⟨h', s', e, w', _, sh, _, hm⟩ := initSEXP_ok w hn hs (conv := conv) ht hv.len
  refine ⟨h', s', e, w', ?_⟩
  have hmap : (r.el.map conv).map back = r.el ↔ ∀ x ∈ r.el, back (conv x) = x := by
    rw [List.map_map]
    constructor
    · intro h x hx
      obtain ⟨i, hi, rfl⟩ := List.mem_iff_getElem.mp hx
      have h2 := congrArg (fun l => l[i]?) h
      simpa [hi] using h2
    · intro h
      conv_rhs => rw [← List.map_id r.el]
      exact List.map_congr_left h
  obtain ⟨rt, rl, rd⟩ := r
  subst ht
  cases rd with
  | none =>
    simp only at hm
    cases hi : s.mp.im with
    | false =>
      rw [cpp2R_vector sh (by simpa using hv.len) (by rw [hm, hi])]
      simpa using hmap
    | true =>
      simp only [ne_eq, not_true_eq_false, Bool.true_eq_false, or_self, false_and, iff_false]
      intro hr
      exact cpp2R_dim (by simp [Expr.im, Store.env, hm, hi]) hr rfl
  | some d =>
    obtain ⟨a, c⟩ := d
    simp only at hm
    obtain ⟨d1, d2, d3⟩ := hv.dim a c rfl
    rw [cpp2R_matrix sh (by simpa using hv.len) hm (by simpa using d1) d2 d3]
    simpa using hmap

/-- C66 for numbers: an R vector or matrix assigned to a vector that is not a matrix (a new one in particular), or a matrix assigned to
any vector, comes back unchanged.  The same theorem serves `double` and `int`, whose elements are copied as they are. -/
theorem C66_number_partial {h : Heap V} {s : Store} (w : WF h s) (hn : s.allocated = true → s.p ≠ none) (hs : h.sched = [])
    {r : RObj V} (hv : r.Valid) (hd : r.dim ≠ none ∨ s.mp.im = false) :
    ∃ h' s', Store.initSEXP r.ty id r (h, s) = (.ok (), (h', s')) ∧ cpp2R r.ty id (s'.env h') (.leaf 0) = .ok r := by
  obtain ⟨h', s', e, _, hi⟩ := C66_characterised w hn hs (conv := id) (back := id) (r := r) rfl hv
  exact ⟨h', s', e, hi.mpr ⟨hd, fun _ _ => rfl⟩⟩

/-- The logicals of R are integers: 0, 1 or `NA`, which is the smallest `int`. -/
def lglOf (w : Int) : Bool := decide (w ≠ 0)
/-- Conversion of `bool` to `int`. -/
def lglTo (b : Bool) : Int := if b then 1 else 0

/-- C66 for logicals without `NA`. -/
theorem C66_logical_partial {h : Heap Bool} {s : Store} (w : WF h s) (hn : s.allocated = true → s.p ≠ none) (hs : h.sched = [])
    {r : RObj Int} (ht : r.ty = .logical) (hv : r.Valid) (hd : r.dim ≠ none ∨ s.mp.im = false) (hx : ∀ x ∈ r.el, x = 0 ∨ x = 1) :
    ∃ h' s', Store.initSEXP .logical lglOf r (h, s) = (.ok (), (h', s')) ∧ cpp2R .logical lglTo (s'.env h') (.leaf 0) = .ok r := by
  obtain ⟨h', s', e, _, hi⟩ := C66_characterised w hn hs (conv := lglOf) (back := lglTo) ht hv
  refine ⟨h', s', e, hi.mpr ⟨hd, fun x h1 => ?_⟩⟩
  rcases hx x h1 with rfl | rfl <;> rfl

/-- C66 is false for every logical R object with a missing value. -/
theorem C66_logical_false {h : Heap Bool} {s : Store} (w : WF h s) (hn : s.allocated = true → s.p ≠ none) (hs : h.sched = [])
    {r : RObj Int} (ht : r.ty = .logical) (hv : r.Valid) (hx : -2147483648 ∈ r.el) :
    ∃ h' s', Store.initSEXP .logical lglOf r (h, s) = (.ok (), (h', s')) ∧ cpp2R .logical lglTo (s'.env h') (.leaf 0) ≠ .ok r := by
  obtain ⟨h', s', e, _, hi⟩ := C66_characterised w hn hs (conv := lglOf) (back := lglTo) ht hv
  refine ⟨h', s', e, fun hc => ?_⟩
  have := (hi.mp hc).2 _ hx
  exact absurd this (by decide)

/-- C66 is false for every R vector that is assigned to a matrix: the dimensions of the matrix stay. -/
theorem C66_reuse_false {h : Heap V} {s : Store} (w : WF h s) (hn : s.allocated = true → s.p ≠ none) (hs : h.sched = [])
    {r : RObj V} (hv : r.Valid) (hd : r.dim = none) (hm : s.mp.im = true) :
    ∃ h' s', Store.initSEXP r.ty id r (h, s) = (.ok (), (h', s')) ∧ cpp2R r.ty id (s'.env h') (.leaf 0) ≠ .ok r := by
  obtain ⟨h', s', e, _, hi⟩ := C66_characterised w hn hs (conv := id) (back := id) (r := r) rfl hv
  refine ⟨h', s', e, fun hc => ?_⟩
  have := (hi.mp hc).1
  simp [hd, hm] at this

/-- The matrix with the rows (1, 3) and (2, 4), in a new vector. -/
example : ∃ h' s', Store.initSEXP .integer id ⟨.integer, [1, 2, 3, 4], some (2, 2)⟩ (Heap.empty, {}) = (.ok (), (h', s')) ∧
    cpp2R .integer id (s'.env h') (.leaf 0) = .ok (⟨.integer, [1, 2, 3, 4], some (2, 2)⟩ : RObj Int) :=
  C66_number_partial (r := ⟨.integer, [1, 2, 3, 4], some (2, 2)⟩) (WF.default _) (by simp) rfl ⟨by simp, by
    intro a c h
    simp only [Option.some.injEq, Prod.mk.injEq] at h
    obtain ⟨rfl, rfl⟩ := h
    simp⟩ (by simp)

/-! ### C75: R objects of the wrong type -/

/-- C75, first half: an R object of another type is always rejected. -/
theorem C75_rejects {h : Heap V} {s : Store} (w : WF h s) {ty : RTy} {conv : W → V} {r : RObj W} (ht : r.ty ≠ ty) :
    ∃ m st, Store.initSEXP ty conv r (h, s) = (.thr m, st) := by
  unfold Store.initSEXP
  rw [M.bind_ok (m := Store.self) (self_apply _)]
  cases ha : s.allocated with
  | false =>
    simp only [Bool.false_eq_true, if_false]
    refine ⟨"R object is not of the right type", (h, s), ?_⟩
    rw [M.bind_thr (M.ass_neg ht _)]
  | true =>
    simp only [if_true]
    cases hp : s.p with
    | none =>
      refine ⟨"try to delete nullptr", (h, s), ?_⟩
      rw [M.bind_thr (M.ass_neg (by simp) _)]
    | some b =>
      obtain ⟨_, h1, h2, _⟩ := w.ptr b hp
      refine ⟨"R object is not of the right type", (h.kill b, { s with p := none }), ?_⟩
      rw [M.bind_ok (M.ass_pos (by simp) _), M.bind_ok (s' := (h.kill b, s)) (a := ()) (by
        rw [heapM_apply, delete_some h2 h1]), M.bind_ok (m := Store.upd _) (Store.upd_apply _ _), M.bind_thr (M.ass_neg ht _)]

/-- C75 for a vector without memory: it is as before. -/
theorem C75_new_partial {h : Heap V} {s : Store} (ha : s.allocated = false) {ty : RTy} {conv : W → V} {r : RObj W} (ht : r.ty ≠ ty) :
    ∃ m, Store.initSEXP ty conv r (h, s) = (.thr m, (h, s)) := by
  unfold Store.initSEXP
  rw [M.bind_ok (m := Store.self) (self_apply _)]
  simp only [ha, Bool.false_eq_true, if_false]
  refine ⟨"R object is not of the right type", ?_⟩
  rw [M.bind_thr (M.ass_neg ht _)]

/-- C75 is false for every vector with elements: after the rejected assignment it still has its size, but every access to an element
dereferences a null pointer. -/
theorem C75_false {h : Heap V} {s : Store} (w : WF h s) (hz : 1 ≤ s.sz) {ty : RTy} {conv : W → V} {r : RObj W} (ht : r.ty ≠ ty) :
    ∃ m h' s', Store.initSEXP ty conv r (h, s) = (.thr m, (h', s')) ∧ s'.sz = s.sz ∧
      ∀ i, i < s'.sz → s'.get h' i = .ub .nullDeref := by
  cases hp : s.p with
  | none => have := (w.null hp).1; omega
  | some b =>
    obtain ⟨_, h1, h2, _, _, ha⟩ := w.ptr b hp
    refine ⟨"R object is not of the right type", h.kill b, { s with p := none }, ?_, rfl, ?_⟩
    · unfold Store.initSEXP
      rw [M.bind_ok (m := Store.self) (self_apply _)]
      simp only [ha, if_true]
      rw [M.bind_ok (M.ass_pos (by simp [hp]) _), M.bind_ok (s' := (h.kill b, s)) (a := ()) (by
        rw [heapM_apply, hp, delete_some h2 h1]), M.bind_ok (m := Store.upd _) (Store.upd_apply _ _), M.bind_thr (M.ass_neg ht _)]
      simp [ha]
    · intro i hi
      rw [get_eq_load (s := { s with p := none }) ha hi]
      rfl

/-- A vector of the elements 7, 8 and a character vector of R. -/
example : ∃ (h : Heap Nat) (s : Store), Shows h s [7, 8] ∧ ∃ m h' s',
    Store.initSEXP .real id (⟨.other, [], none⟩ : RObj Nat) (h, s) = (.thr m, (h', s')) ∧ s'.get h' 0 = .ub .nullDeref := by
  obtain ⟨h, s, w, sh⟩ := exists_shows (l := [7, 8]) (by simp) (by norm_num)
  have hz := sh.1
  simp only [List.length_cons, List.length_nil] at hz
  obtain ⟨m, h', s', e, hs, hg⟩ := C75_false w (by omega) (ty := .real) (conv := id) (r := (⟨.other, [], none⟩ : RObj Nat)) (by simp)
  exact ⟨h, s, sh, m, h', s', e, hg 0 (by omega)⟩

/-! ### C76: vectors and matrices of Rcpp and Armadillo -/

/-- The vector takes over elements and dimensions. -/
theorem fromForeign_ok {zero : V} {h : Heap V} {s : Store} (w : WF h s) (hn : s.allocated = true → s.p ≠ none) (hs : h.sched = [])
    {r : Foreign V} (h1 : r.el ≠ []) (h2 : r.el.length < 2 ^ 31) :
    ∃ h' s', Store.fromForeign zero r (h, s) = (.ok (), (h', s')) ∧ WF h' s' ∧ Shows h' s' r.el ∧
      s'.mp = (match r.dim with
        | some (a, c) => ⟨true, a, c⟩
        | none => ⟨false, 0, 0⟩) := by
  have hpos := List.length_pos_iff.mpr h1
  obtain ⟨h', s', e, w', _, hz, ha, _⟩ := resize_spec (zero := zero) hs w.own hn hpos (by omega)
  have loop : ∀ s1 : Store, s1.p = s'.p → s1.sz = s'.sz → s1.capacity = s'.capacity → s1.allocated = s'.allocated →
      ∃ g, M.forN r.el.length (fun i => do
        let v ← M.lift (match r.el[i]? with
          | some w => .ok w
          | none => .ub .oob)
        Store.set i v) (h', s1) = (.ok (), (g, s1)) ∧ WF g s1 ∧ Shows g s1 r.el := by
    intro s1 e1 e2 e3 e4
    have w1 : WF h' s1 := ⟨by rw [e1, e2, e3, e4]; exact w'.ptr, by rw [e1, e2, e3]; exact w'.null⟩
    have hp : s1.p ≠ none := by
      intro hp; have := (w1.null hp).1; omega
    obtain ⟨b, hb⟩ := Option.ne_none_iff_exists'.mp hp
    obtain ⟨st, e, I⟩ := M.forN_ok (s := (h', s1)) (f := fun i => do
        let v ← M.lift (match r.el[i]? with
          | some w => .ok w
          | none => .ub .oob)
        Store.set i v) (I := fun i st => WF st.1 st.2 ∧ st.2 = s1 ∧ ∀ j, j < i → (st.1.blk b).cell j = r.el[j]?) r.el.length
      ⟨w1, rfl, by simp⟩ (by
        rintro i ⟨g, s2⟩ hi ⟨k1, k2, k3⟩
        simp only at k1 k2 k3
        subst k2
        have es := set_ok (v := r.el[i]) k1 hb (show i < s2.sz by omega)
        refine ⟨_, (M.bind_ok (a := r.el[i]) (s' := (g, s2)) ?_).trans es, ?_⟩
        · rw [M.lift_apply, List.getElem?_eq_getElem hi]
        · refine ⟨k1.setCells _ _, rfl, fun j hj => ?_⟩
          rw [setCells_cell]
          by_cases hji : j = i
          · subst hji; simp [hi]
          · rw [if_neg hji]; exact k3 j (by omega))
    obtain ⟨g, s2⟩ := st
    obtain ⟨k1, k2, k3⟩ := I
    simp only at k1 k2 k3
    subst k2
    refine ⟨g, e, k1, shows_of_cells k1 hb (by omega) fun i hi => ?_⟩
    rw [k3 i hi, List.getElem?_eq_getElem hi]
  unfold Store.fromForeign
  rw [M.bind_ok e]
  rcases hd : r.dim with _ | ⟨a, c⟩
  · obtain ⟨g, e1, k1, k2⟩ := loop { s' with mp := ⟨false, 0, 0⟩ } rfl rfl rfl rfl
    refine ⟨g, _, ?_, k1, k2, rfl⟩
    simp only []
    rw [M.bind_ok (m := Store.upd _) (Store.upd_apply _ _)]
    exact e1
  · obtain ⟨g, e1, k1, k2⟩ := loop { s' with mp := ⟨true, a, c⟩ } rfl rfl rfl rfl
    refine ⟨g, _, ?_, k1, k2, rfl⟩
    simp only []
    rw [M.bind_ok (m := Store.upd _) (Store.upd_apply _ _)]
    exact e1

/-- C76 for vectors with at least one element, whatever the vector held before. -/
theorem C76_vector_partial {zero : V} {h : Heap V} {s : Store} (w : WF h s) (hn : s.allocated = true → s.p ≠ none) (hs : h.sched = [])
    {l : List V} (h1 : l ≠ []) (h2 : l.length < 2 ^ 31) :
    ∃ h' s', Store.fromForeign zero ⟨l, none⟩ (h, s) = (.ok (), (h', s')) ∧ s'.mp.im = false ∧ s'.toVector h' = .ok ⟨l, none⟩ := by
  obtain ⟨h', s', e, _, sh, hm⟩ := fromForeign_ok (zero := zero) w hn hs (r := ⟨l, none⟩) h1 h2
  refine ⟨h', s', e, by rw [hm], ?_⟩
  have : Out.all ((List.range s'.sz).map (fun i => s'.get h' i)) = .ok l := by
    rw [Out.all_eq_ok]
    refine List.ext_getElem (by simp [sh.1]) ?_
    intro i k1 k2
    simpa using sh.2 i (by simpa using k2)
  unfold Store.toVector
  rw [this]
  rfl

/-- C76 for matrices with at least one element, whatever the vector held before. -/
theorem C76_matrix_partial {zero : V} {h : Heap V} {s : Store} (w : WF h s) (hn : s.allocated = true → s.p ≠ none) (hs : h.sched = [])
    {l : List V} {a c : Nat} (h1 : l ≠ []) (h2 : l.length < 2 ^ 31) (hac : a * c = l.length) :
    ∃ h' s', Store.fromForeign zero ⟨l, some (a, c)⟩ (h, s) = (.ok (), (h', s')) ∧ s'.toMatrix h' = .ok ⟨l, some (a, c)⟩ := by
  obtain ⟨h', s', e, _, sh, hm⟩ := fromForeign_ok (zero := zero) w hn hs (r := ⟨l, some (a, c)⟩) h1 h2
  refine ⟨h', s', e, ?_⟩
  simp only at hm
  have : Out.all ((List.range (s'.mp.nr * s'.mp.nc)).map (fun i => s'.get h' i)) = .ok l := by
    rw [Out.all_eq_ok]
    refine List.ext_getElem (by simp [hm, hac]) ?_
    intro i k1 k2
    simpa using sh.2 i (by simpa using k2)
  unfold Store.toMatrix
  rw [Out.ass_pos (by rw [hm]), Out.ok_bind, this, hm]
  rfl

/-- C76 is false for every empty vector or matrix: it is rejected. -/
theorem C76_empty_false {zero : V} {h : Heap V} {s : Store} (d : Option (Nat × Nat)) :
    ∃ m, Store.fromForeign zero ⟨[], d⟩ (h, s) = (.thr m, (h, s)) := by
  refine ⟨"Size has to be larger than 0", ?_⟩
  unfold Store.fromForeign
  rw [M.bind_thr (show resize zero (Foreign.mk ([] : List V) d).el.length (h, s) = _ from resize_zero _)]

/-- A matrix with two rows and three columns, assigned to a vector that held `[9]`. -/
example : ∃ (h : Heap Nat) (s : Store), Shows h s [9] ∧ ∃ h' s',
    Store.fromForeign 0 ⟨[1, 2, 3, 4, 5, 6], some (2, 3)⟩ (h, s) = (.ok (), (h', s')) ∧
    s'.toMatrix h' = .ok ⟨[1, 2, 3, 4, 5, 6], some (2, 3)⟩ := by
  obtain ⟨r, e, R⟩ := ctorSize_spec (h := Heap.empty) (zero := 9) (n := 1) rfl (by omega) (by norm_num)
  have hz := R.sh.1
  simp only [List.length_replicate] at hz
  refine ⟨r.1, r.2, R.sh, ?_⟩
  have hsch : r.1.sched = [] := by
    obtain ⟨c, ec, hc1, hc2⟩ := capOf_spec (n := 1) (by omega)
    rw [ctorSize_ok rfl (by omega) (by omega) ec] at e
    simp only [Prod.mk.injEq, true_and] at e
    rw [← e]; rfl
  exact C76_matrix_partial R.wf (by intro _ hp; have := (R.wf.null hp).1; omega) hsch (by simp) (by simp) (by simp)

/-! ## C99 protection stack of R -/

/-- C99: the protection of the new object changes nothing in the value that is returned to R or the exception. -/
theorem C99_same (ty : RTy) (back : V → W) (env : Env V) (e : Expr V) (d : Nat) :
    (cpp2RProt ty back env e d).1 = cpp2R ty back env e := by
  unfold cpp2RProt cpp2R
  cases h : cpp2RAlloc env e with
  | thr m => rfl
  | ub k => rfl
  | ok r =>
    obtain ⟨n, dim⟩ := r
    rw [M.bind_ok (M.lift_apply _ _)]
    simp only [Out.ok_bind]
    rw [M.bind_ok (M.modify_apply _ _)]
    change _ = (cpp2RElems back env e n >>= fun l => .ok (⟨ty, l, dim⟩ : RObj W))
    cases hl : cpp2RElems back env e n with
    | thr m => rw [M.bind_thr (M.lift_apply _ _)]; rfl
    | ub k => rw [M.bind_ub (M.lift_apply _ _)]; rfl
    | ok l => rw [M.bind_ok (M.lift_apply _ _), M.bind_ok (M.modify_apply _ _)]; rfl

theorem all_thr {α : Type} {m : String} : ∀ {l : List (Out α)}, Out.all l = .thr m → .thr m ∈ l := by
  intro l
  induction l with
  | nil => intro h; cases h
  | cons x xs ih =>
    intro h
    cases x with
    | ok a =>
      simp only [Out.all, Out.ok_bind] at h
      cases hx : Out.all xs with
      | ok as => rw [hx] at h; cases h
      | thr m' => rw [hx] at h; simp only [Out.thr_bind, Out.thr.injEq] at h; subst h; simp [ih hx]
      | ub k => rw [hx] at h; cases h
    | thr m' => simp only [Out.all, Out.thr_bind, Out.thr.injEq] at h; subst h; simp
    | ub k => cases h

/-- C99 (partial: an exception raised by an element leaves the new object on the stack): a call that returns leaves the protection
stack as it was; so does an exception, unless the R object has been allocated and an element of the expression throws. -/
theorem C99_partial (ty : RTy) (back : V → W) (env : Env V) (e : Expr V) (d : Nat) :
    (∀ r d', cpp2RProt ty back env e d = (.ok r, d') → d' = d) ∧
    (∀ m d', cpp2RProt ty back env e d = (.thr m, d') →
      d' = d ∨ (d' = d + 1 ∧ ∃ i, i < e.size env ∧ e.el env i = .thr m)) := by
  unfold cpp2RProt
  cases h : cpp2RAlloc env e with
  | thr m =>
    rw [M.bind_thr (M.lift_apply _ _)]
    refine ⟨fun r d' h => (by cases h), fun m' d' h => ?_⟩
    cases h; exact .inl rfl
  | ub k =>
    rw [M.bind_ub (M.lift_apply _ _)]
    exact ⟨fun r d' h => (by cases h), fun m' d' h => (by cases h)⟩
  | ok r =>
    obtain ⟨n, dim⟩ := r
    rw [M.bind_ok (M.lift_apply _ _)]
    simp only
    rw [M.bind_ok (M.modify_apply _ _)]
    cases hl : cpp2RElems back env e n with
    | ub k =>
      rw [M.bind_ub (M.lift_apply _ _)]
      exact ⟨fun r d' h => (by cases h), fun m' d' h => (by cases h)⟩
    | ok l =>
      rw [M.bind_ok (M.lift_apply _ _), M.bind_ok (M.modify_apply _ _)]
      refine ⟨fun r d' h => ?_, fun m' d' h => (by cases h)⟩
      cases h; rfl
    | thr m =>
      rw [M.bind_thr (M.lift_apply _ _)]
      refine ⟨fun r d' h => (by cases h), fun m' d' h => ?_⟩
      cases h
      refine .inr ⟨rfl, ?_⟩
      have := all_thr hl
      simp only [List.mem_map, List.mem_range] at this
      obtain ⟨i, hi, h2⟩ := this
      refine ⟨i, hi, ?_⟩
      split at h2
      · cases h2
      · cases he : e.el env i with
        | ok v =>
          rw [he] at h2
          simp only [Out.ok_bind] at h2
          split at h2 <;> cases h2
        | thr m' => rw [he] at h2; simpa using h2
        | ub k => rw [he] at h2; cases h2

/-- C99, named vectors: the stack is as before whether the call returns or throws. -/
theorem C99_named {h : Heap V} {s : Store} {l : List V} (hs : Shows h s l) (ty : RTy) (back : V → W) (d : Nat) :
    (∀ r d', cpp2RProt ty back (s.env h) (.leaf 0) d = (.ok r, d') → d' = d) ∧
    (∀ m d', cpp2RProt ty back (s.env h) (.leaf 0) d = (.thr m, d') → d' = d) := by
  refine ⟨(C99_partial ty back _ _ d).1, fun m d' h1 => ?_⟩
  rcases (C99_partial ty back _ _ d).2 m d' h1 with h2 | ⟨_, i, hi, h2⟩
  · exact h2
  · simp only [Expr.size, Expr.el, Store.env] at hi h2
    rw [hs.2 i (by rw [← hs.1]; exact hi)] at h2
    cases h2

/-- C99 is false: for a subset with an index beyond the end, the exception leaves the new object protected. -/
theorem C99_false : cpp2RProt (W := Int) .integer id
    (⟨fun _ => 2, fun _ i => getL [5, 6] i, fun _ => {}⟩ : Env Int) (.sub (.leaf 0) [1, 2] {}) 0
    = (.thr "Error: out of boundaries --> value beyond size of vector", 1) := by
  decide +kernel

/-- A vector of two elements: the object is returned and the stack is as before. -/
example : cpp2RProt (W := Int) .integer id
    (⟨fun _ => 2, fun _ i => getL [5, 6] i, fun _ => {}⟩ : Env Int) (.leaf 0) 3 = (.ok ⟨.integer, [5, 6], none⟩, 3) := by
  decide +kernel

end
/-! ### More applications -/

example : ∃ h' s', Store.initSEXP .logical lglOf ⟨.logical, [1, 0, -2147483648], none⟩ (Heap.empty, {}) = (.ok (), (h', s')) ∧
    cpp2R .logical lglTo (s'.env h') (.leaf 0) ≠ .ok (⟨.logical, [1, 0, -2147483648], none⟩ : RObj Int) := by
  obtain ⟨h', s', e, _, h⟩ := C66_characterised (h := Heap.empty) (s := {}) (ty := .logical) (conv := lglOf) (back := lglTo)
    (r := ⟨.logical, [1, 0, -2147483648], none⟩) (WF.default _) (by simp) rfl rfl ⟨by simp, by intro a c h; cases h⟩
  exact ⟨h', s', e, fun k => absurd ((h.mp k).2 (-2147483648) (by simp)) (by decide)⟩

example : ∃ h' s', Store.initSEXP .logical lglOf ⟨.logical, [1, 0, 1], none⟩ (Heap.empty, {}) = (.ok (), (h', s')) ∧
    cpp2R .logical lglTo (s'.env h') (.leaf 0) = .ok (⟨.logical, [1, 0, 1], none⟩ : RObj Int) :=
  C66_logical_partial (r := ⟨.logical, [1, 0, 1], none⟩) (WF.default _) (by simp) rfl rfl ⟨by simp, by intro a c h; cases h⟩ (by simp) (by simp)

example : ∃ m st, Store.initSEXP .real id (⟨.integer, [1, 2], none⟩ : RObj Nat) (Heap.empty, {}) = (.thr m, st) :=
  C75_rejects (WF.default _) (by decide)

example : ∃ m, Store.initSEXP .real id (⟨.integer, [1, 2], none⟩ : RObj Nat) (Heap.empty, {}) = (.thr m, (Heap.empty, {})) :=
  C75_new_partial rfl (by decide)

example : ∃ h' s', Store.fromForeign 0 ⟨[1, 2, 3], none⟩ (Heap.empty, {}) = (.ok (), (h', s')) ∧ s'.mp.im = false ∧
    s'.toVector h' = .ok (⟨[1, 2, 3], none⟩ : Foreign Nat) :=
  C76_vector_partial (WF.default _) (by simp) rfl (by simp) (by simp)

example : (cpp2RProt (W := Int) .integer id (⟨fun _ => 2, fun _ i => getL [5, 6] i, fun _ => {}⟩ : Env Int) (.leaf 0) 3).1 =
    .ok ⟨.integer, [5, 6], none⟩ := by
  rw [C99_same]; decide +kernel

example (d' : Nat) (r : RObj Int) (h : cpp2RProt .integer id (⟨fun _ => 2, fun _ i => getL [5, 6] i, fun _ => {}⟩ : Env Int) (.leaf 0) 3 =
    (.ok r, d')) : d' = 3 := (C99_partial _ _ _ _ _).1 r d' h

example : ∃ (h : Heap Nat) (s : Store), ∀ r d', cpp2RProt (W := Nat) .integer id (s.env h) (.leaf 0) 3 = (.ok r, d') → d' = 3 := by
  obtain ⟨h, s, _, sh⟩ := exists_shows (l := [7, 8]) (by simp) (by norm_num)
  exact ⟨h, s, (C99_named sh .integer id 3).1⟩

end ETR
