import Verif.Props.Subset
import Verif.Lemmas.MachWrite

/-! Assignment through vector subsets: C29 (writing), C33, C34. -/

namespace ETR
namespace Mach
open Store Spec

variable {V : Type}

/-- `w'` is `w` with the values `L` written to the positions `ind`: same length, every addressed element
holds the last value addressed to it, every other element is unchanged. -/
structure Written (w : List V) (ind : List Nat) (L : List V) (w' : List V) : Prop where
  len : w'.length = w.length
  other : ∀ j (h : j < w.length) (h' : j < w'.length), j ∉ ind → w'[j] = w[j]
  last : ∀ k (h1 : k < ind.length) (h2 : k < L.length) (h' : ind[k] < w'.length),
    (∀ m (hm : m < ind.length), k < m → ind[m] ≠ ind[k]) → w'[ind[k]] = L[k]

theorem written_writes {w : List V} {ind : List Nat} {L : List V} (hlen : L.length = ind.length)
    (hj : ∀ j ∈ ind, j < w.length) : Written w ind L (writes w ind L) := by
  refine ⟨writes_length _ _ _, fun j h h' hn => ?_, fun k h1 h2 h' hl => ?_⟩
  · exact (writes_get w ind L hlen j h h').1 (fun k hk e => hn (e ▸ List.getElem_mem hk))
  · exact (writes_get w ind L hlen _ (hj _ (List.getElem_mem h1)) h').2 k h1 rfl hl

/-- C33 for vectors that own or borrow their memory and index arguments that denote not more positions than the
vector has elements; only vectors that borrow the same memory change with `x`.  `e` is the right-hand side, `L` its elements (converted to the element type)
before the assignment; `x` may occur in `e`.  Missing: index vectors longer than the vector
(`C33_false_long`), right-hand sides with more than `2^30` elements. -/
theorem C33_partial {zero : V} {s : Mach V} (r : Reach zero s) {x : Nat} (hx : x < s.n)
    {w : List V} (sh : ShowsVar s x w) (hw : w.length < 2 ^ 31) {idx : Index}
    (hp : idx.Pass) {ind : List Nat} (hpos : positions w.length idx = some ind)
    (hle : ind.length ≤ w.length) {conv : V → Out V} {same : Bool} {e : Expr V} {L : List V}
    (hlen : L.length = ind.length) (hsz : e.size s.env = L.length)
    (hel : ∀ i (hi : i < L.length), (e.el s.env i >>= conv) = .ok L[i]) (hlim : L.length ≤ 2 ^ 30)
    (ws : List String) :
    ∃ ws' s' w', calcIndVector w.length idx ws = (.ok ind, ws') ∧
      exec zero (.subAssign conv same x ind e) s = (.ok (), s') ∧
      ShowsVar s' x w' ∧ Written w ind L w' ∧ s'.env.mp x = s.env.mp x ∧
      (∀ y, y < s.n → y ≠ x → (Shares s x y → s.bor x = true ∧ s.bor y = true) ∧ (¬ Shares s x y → SameVar s s' y)) := by
  obtain ⟨ws', h⟩ := calcIndVector_ok hw hp hpos ws
  have hlt := positions_lt hpos
  have hne := (positions_entries hpos).2
  have hL : L ≠ [] := by
    rintro rfl
    simp at hlen
    exact hne (List.length_eq_zero_iff.mp hlen.symm)
  obtain ⟨s', e1, sh1, m1, o1⟩ := r.inv.subAssign_any (zero := zero) (same := same) hx sh hle hlen hsz
    hel hL hlim hlt
  exact ⟨ws', s', _, h, e1, sh1, written_writes hlen hlt, m1, fun y hy hyx => ⟨r.inv.shares_borrowed hyx, o1 y hy⟩⟩

/-- C33 for a scalar on the right-hand side: all addressed elements get the value. -/
theorem C33_scalar_partial {zero : V} {s : Mach V} (r : Reach zero s) {x : Nat}
    {w : List V} (sh : ShowsVar s x w) (hw : w.length < 2 ^ 31) {idx : Index}
    (hp : idx.Pass) {ind : List Nat} (hpos : positions w.length idx = some ind)
    (hle : ind.length ≤ w.length) (c : V) (ws : List String) :
    ∃ ws' s' w', calcIndVector w.length idx ws = (.ok ind, ws') ∧
      exec zero (.subAssignScalar x ind c) s = (.ok (), s') ∧
      ShowsVar s' x w' ∧ w'.length = w.length ∧
      (∀ j (h : j < w.length) (h' : j < w'.length), w'[j] = if j ∈ ind then c else w[j]) ∧
      s'.env.mp x = s.env.mp x ∧ ∀ y, y ≠ x → (Shares s x y → s.bor x = true ∧ s.bor y = true) ∧ (¬ Shares s x y → SameVar s s' y) := by
  obtain ⟨ws', hc⟩ := calcIndVector_ok hw hp hpos ws
  have hlt := positions_lt hpos
  have hx : x < s.n := r.inv.lt_of_shows sh (by
    rintro rfl
    have := (positions_entries hpos).2
    exact this (List.length_eq_zero_iff.mp (by simpa using hle)))
  obtain ⟨s', e1, w1, sh1⟩ := r.inv.subAssignScalar_any hx sh hle c hlt
  refine ⟨ws', s', _, hc, e1, sh1, writes_length _ _ _, fun j h h' => ?_, by show (s'.st (x, false)).mp = _; rw [w1.st]; rfl,
    fun y hyx => ⟨r.inv.shares_borrowed hyx, fun h => w1.same (not_shares h)⟩⟩
  have W := written_writes (w := w) (ind := ind) (L := List.replicate ind.length c) (by simp) hlt
  split
  · rename_i hm
    -- the last occurrence of `j`
    have : ∃ k, ∃ h1 : k < ind.length, ind[k] = j ∧ ∀ m (hm : m < ind.length), k < m → ind[m] ≠ j := by
      clear W hlt hpos hle hc sh1 e1 h' w1 hx
      induction ind with
      | nil => simp at hm
      | cons a t ih =>
        by_cases ht : j ∈ t
        · obtain ⟨k, h1, h2, h3⟩ := ih ht
          refine ⟨k + 1, by simpa using h1, by simpa using h2, fun m hm hkm => ?_⟩
          obtain ⟨m', rfl⟩ : ∃ m', m = m' + 1 := ⟨m - 1, by omega⟩
          simpa using h3 m' (by simpa using hm) (by omega)
        · refine ⟨0, by simp, by simp at hm; simpa using (hm.resolve_right ht).symm, fun m hm' hkm => ?_⟩
          obtain ⟨m', rfl⟩ : ∃ m', m = m' + 1 := ⟨m - 1, by omega⟩
          intro he
          apply ht
          rw [← he]
          simp
    obtain ⟨k, h1, h2, h3⟩ := this
    subst h2
    have := W.last k h1 (by simpa using h1) h' h3
    simpa using this
  · rename_i hm
    exact W.other j h h' hm

/-- C29, writing: `v(k) = c` for `1 <= k <= length(v)` changes exactly the `k`-th element. -/
theorem C29_write {zero : V} {s : Mach V} (r : Reach zero s) {x : Nat}
    {w : List V} (sh : ShowsVar s x w) (hw : w.length < 2 ^ 31) {k : Nat} (h1 : 1 ≤ k)
    (h2 : k ≤ w.length) {idx : Index}
    (hidx : idx = .int k ∨ ∃ q : ℚ, ⌊q⌋ = (k : Int) ∧ idx = .dbl (.fin q)) (c : V)
    (ws : List String) :
    ∃ ind ws' s', calcIndVector w.length idx ws = (.ok ind, ws') ∧
      exec zero (.subAssignScalar x ind c) s = (.ok (), s') ∧ ShowsVar s' x (w.set (k - 1) c) ∧
      s'.env.mp x = s.env.mp x ∧ ∀ y, y ≠ x → (Shares s x y → s.bor x = true ∧ s.bor y = true) ∧ (¬ Shares s x y → SameVar s s' y) := by
  have hk : (1 : Int) ≤ k ∧ (k : Int) ≤ w.length := by omega
  have hpos : idx.Pass ∧ positions w.length idx = some [k - 1] := by
    rcases hidx with rfl | ⟨q, hq, rfl⟩
    · refine ⟨by show InI32 _; unfold InI32; omega, ?_⟩
      simp only [positions, pos1, if_pos hk, Option.map_some, Option.some.injEq, List.cons.injEq, and_true]
      omega
    · refine ⟨trivial, ?_⟩
      simp only [positions, posD, hq, pos1, if_pos hk, Option.map_some, Option.some.injEq,
        List.cons.injEq, and_true]
      omega
  obtain ⟨ws', s', w', a, b, sh', hl, hg, m, o⟩ := C33_scalar_partial r sh hw hpos.1 hpos.2
    (by simp; omega) c ws
  refine ⟨_, ws', s', a, b, ?_, m, o⟩
  have : w' = w.set (k - 1) c := by
    apply List.ext_getElem (by simpa using hl)
    intro j h h'
    rw [hg j (by omega) h, List.getElem_set]
    simp only [List.mem_singleton]
    split <;> split <;> first | rfl | omega
  rw [← this]; exact sh'

/-- C29: writing to an index that is out of range throws and nothing changes (index arguments whose
evaluation is defined, see `C29_false_undefined`). -/
theorem C29_write_reject_partial {zero : V} {s : Mach V} {x : Nat}
    {w : List V} (sh : ShowsVar s x w) (hw : w.length ≤ 2 ^ 62)
    (hne : 1 ≤ w.length) (idx : Index)
    (hk : (∃ k : Int, idx = .int k ∧ InI32 k ∧ k ≠ -2147483648 ∧ ¬ (1 ≤ k ∧ k ≤ w.length)) ∨
      (∃ q : ℚ, idx = .dbl (.fin q) ∧ -2147483649 < q ∧ q < 2147483648 ∧
        ¬ (1 ≤ ⌊q⌋ ∧ ⌊q⌋ ≤ w.length))) (c : V) (ws : List String) :
    (∃ m ws', calcIndVector w.length idx ws = (.thr m, ws')) ∨
    ∃ ind ws' m s', calcIndVector w.length idx ws = (.ok ind, ws') ∧
      exec zero (.subAssignScalar x ind c) s = (.thr m, s') ∧ ∀ y, SameVar s s' y := by
  have hpu : idx.Pass ∧ idx.NoUB ∧ ∃ p : Option Nat, idx.entries w.length = [p] ∧ p = none := by
    rcases hk with ⟨k, rfl, h1, h2, h3⟩ | ⟨q, rfl, h1, h2, h3⟩
    · exact ⟨h1, h2, _, rfl, by simp only [pos1, if_neg h3]⟩
    · exact ⟨trivial, ⟨h1, h2⟩, _, rfl, by simp only [posD, pos1, if_neg h3]⟩
  obtain ⟨hp, hu, p, hent, rfl⟩ := hpu
  rcases calcIndVector_spec hw hp hu ws with ⟨m, ws', h, _⟩ | ⟨ind, ws', h, ha, _⟩
  · exact .inl ⟨m, ws', h⟩
  · right
    rw [hent] at ha
    obtain ⟨hl, hg⟩ := ha.get
    have hl' : ind.length = 1 := by simpa using hl.symm
    have hbad : w.length ≤ ind[0] := by
      rcases hg 0 (by simp) (by omega) with h | ⟨_, h⟩
      · simp at h
      · exact h
    obtain ⟨m, e2⟩ := subSet_thr (s := s) (x := x) sh (ind := ind) (i := 0) (by omega) (by omega) hbad c
    refine ⟨ind, ws', m, s, h, ?_, fun y => ⟨rfl, fun _ => rfl, rfl⟩⟩
    exact forN_thr (k := 0) (f := fun i => Mach.subSet x ind i c) (by rw [M.forN_zero]; rfl) e2 _ (by omega)

/-- The hypotheses: the reachable sample state holds `(0, 0, 0, 7)` in variable 0; `v(c(4, 1)) = v(1:2) + 1`
would be written through the positions `[3, 0]`. -/
example : ∃ s, Reach (0 : Int) s ∧ 0 < s.n ∧ s.bor 0 = false ∧ ShowsVar s 0 [0, 0, 0, 7] ∧
    positions 4 (.vint [.i 4, .i 1]) = some [3, 0] ∧
    (Expr.bin (fun a b => Out.ok (a + b)) (.sub (.leaf 0) [3, 0] {}) (.scal 1)).size s.env = 2 ∧
    (exec 0 (.subAssign .ok true 0 [3, 0]
      (.bin (fun a b => Out.ok (a + b)) (.sub (.leaf 0) [3, 0] {}) (.scal 1))) s).2.env.get 0 3 = .ok 8 :=
  ⟨_, sampleReach, by decide +kernel, by decide +kernel,
    ⟨by decide +kernel, by decide +kernel⟩, by decide, by decide +kernel, by decide +kernel⟩

/-- Two vectors that borrow the same array, and a vector that owns its memory. -/
def sharedHistory : List (Cmd Int) := [.callerArray [1, 2, 3], .declBorrow (some 0) 3, .declBorrow (some 0) 2, .declSize 2]

theorem sharedReach : Reach 0 (runAll 0 sharedHistory start).2 :=
  ⟨sharedHistory, .cons trivial (.cons ⟨by decide, ⟨0, by decide +kernel, by decide +kernel,
      by decide +kernel, by decide +kernel⟩, by rintro b hb; cases hb; decide +kernel⟩ (.cons ⟨by decide, ⟨0, by decide +kernel, by decide +kernel,
      by decide +kernel, by decide +kernel⟩, by rintro b hb; cases hb; decide +kernel⟩ (.cons (by show _ ≤ _; decide) trivial))),
      Prod.ext (by decide +kernel) rfl⟩

/-- The hypotheses of `C33_partial` and both cases of its frame for a vector that borrows its memory: `v(c(3, 1)) = c(8, 9)`
changes the second vector, which borrows the same array, and not the third one. -/
example : ∃ s, Reach (0 : Int) s ∧ 0 < s.n ∧ s.bor 0 = true ∧ ShowsVar s 0 [1, 2, 3] ∧ ShowsVar s 1 [1, 2] ∧
    Shares s 0 1 ∧ ¬ Shares s 0 2 ∧ positions 3 (.vint [.i 3, .i 1]) = some [2, 0] ∧
    (let s' := (exec 0 (.subAssign .ok false 0 [2, 0] (.rvec [8, 9] {})) s).2
     (List.range 3).map (s'.env.get 0) = [9, 2, 8].map Out.ok ∧ (List.range 2).map (s'.env.get 1) = [9, 2].map Out.ok ∧
     (List.range 2).map (s'.env.get 2) = [0, 0].map Out.ok) :=
  ⟨_, sharedReach, by decide +kernel, by decide +kernel, ⟨by decide +kernel, by decide +kernel⟩,
    ⟨by decide +kernel, by decide +kernel⟩, ⟨0, by decide +kernel, by decide +kernel⟩, fun ⟨b, h1, h2⟩ => by
      have e1 : ((runAll 0 sharedHistory start).2.st (2, false)).p = some 1 := by decide +kernel
      have e2 : ((runAll 0 sharedHistory start).2.st (0, false)).p = some 0 := by decide +kernel
      exact absurd (Option.some.inj (h2.symm.trans e2)) (by rw [← Option.some.inj (e1.symm.trans h1)]; decide),
    by decide, by decide +kernel, by decide +kernel, by decide +kernel⟩

/-- C33 is false for index vectors longer than the vector, with a right-hand side of another type (an
expression): `v = (0, 0, 0, 7)`, `v(c(1, 1, 1, 1, 2)) = e` with `e = (1, 2, 3, 4, 5)` leaves the second
element unchanged and sets the first to 5. -/
theorem C33_false_long : ∃ s s', Reach (0 : Int) s ∧ ShowsVar s 0 [0, 0, 0, 7] ∧
    calcIndVector 4 (.vint [.i 1, .i 1, .i 1, .i 1, .i 2]) [] = (.ok [0, 0, 0, 0, 1], []) ∧
    exec 0 (.subAssign .ok false 0 [0, 0, 0, 0, 1] (.rvec [1, 2, 3, 4, 5] {})) s = (.ok (), s') ∧
    ShowsVar s' 0 [5, 0, 0, 7] :=
  ⟨_, _, sampleReach, ⟨by decide +kernel, by decide +kernel⟩, by decide +kernel,
    Prod.ext (by decide +kernel) rfl, ⟨by decide +kernel, by decide +kernel⟩⟩

/-- C33 is false for index vectors longer than the vector, with a right-hand side of the same type: the
vector is made longer and its old elements are lost. -/
theorem C33_false_long_same : ∃ s s', Reach (0 : Int) s ∧ ShowsVar s 0 [0, 0, 0, 7] ∧
    calcIndVector 4 (.vint [.i 1, .i 1, .i 1, .i 1, .i 2]) [] = (.ok [0, 0, 0, 0, 1], []) ∧
    exec 0 (.subAssign .ok true 0 [0, 0, 0, 0, 1] (.rvec [1, 2, 3, 4, 5] {})) s = (.ok (), s') ∧
    s'.env.size 0 = 5 :=
  ⟨_, _, sampleReach, ⟨by decide +kernel, by decide +kernel⟩, by decide +kernel,
    Prod.ext (by decide +kernel) rfl, by decide +kernel⟩

/-! ## C34 rejected subset assignments -/

/-- C34, first part: a right-hand side of the wrong length is rejected and nothing changes. -/
theorem C34_length {zero : V} {s : Mach V} (r : Reach zero s) (x : Nat) (ind : List Nat)
    (conv : V → Out V) (same : Bool) (e : Expr V) (h : e.size s.env ≠ ind.length) :
    ∃ m s', exec zero (.subAssign conv same x ind e) s = (.thr m, s') ∧
      ∀ y, y < s.n → SameVar s s' y :=
  r.inv.subAssign_len (zero := zero) h

/-- C34, out-of-range indices: what the code does.  If the `k`-th index is the first one out of range, the
assignment throws and exactly the first `k` writes have been done. -/
theorem C34_prefix_partial {zero : V} {s : Mach V} (r : Reach zero s) {x : Nat} (hx : x < s.n)
    {w : List V} (sh : ShowsVar s x w) {ind : List Nat}
    (hle : ind.length ≤ w.length) {conv : V → Out V} {same : Bool} {e : Expr V} {L : List V}
    (hlen : L.length = ind.length) (hsz : e.size s.env = L.length)
    (hel : ∀ i (hi : i < L.length), (e.el s.env i >>= conv) = .ok L[i]) (hlim : L.length ≤ 2 ^ 30)
    {k : Nat} (hk : k < ind.length) (hj : ∀ i (hi : i < ind.length), i < k → ind[i] < w.length)
    (hbad : w.length ≤ ind[k]) :
    ∃ m s' w', exec zero (.subAssign conv same x ind e) s = (.thr m, s') ∧ ShowsVar s' x w' ∧
      Written w (ind.take k) (L.take k) w' ∧ s'.env.mp x = s.env.mp x ∧
      (∀ y, y < s.n → y ≠ x → (Shares s x y → s.bor x = true ∧ s.bor y = true) ∧ (¬ Shares s x y → SameVar s s' y)) := by
  have hL : L ≠ [] := by rintro rfl; simp at hlen; omega
  obtain ⟨m, s', e1, sh1, m1, o1⟩ := r.inv.subAssign_any_thr (zero := zero) (same := same) hx sh hle hlen
    hsz hel hL hlim hk hj hbad
  refine ⟨m, s', _, e1, sh1, written_writes (by simp; omega) ?_, m1, fun y hy hyx => ⟨r.inv.shares_borrowed hyx, o1 y hy⟩⟩
  intro j hj'
  obtain ⟨i, hi, rfl⟩ := List.mem_iff_getElem.mp hj'
  have hi' : i < k ∧ i < ind.length := by simpa using hi
  rw [List.getElem_take]
  exact hj i hi'.2 hi'.1

/-- C34, out-of-range indices with a scalar on the right-hand side: what the code does. -/
theorem C34_scalar_prefix_partial {zero : V} {s : Mach V} (r : Reach zero s) {x : Nat} (hx : x < s.n) {w : List V} (sh : ShowsVar s x w)
    {ind : List Nat} (hle : ind.length ≤ w.length) (c : V) {k : Nat} (hk : k < ind.length)
    (hj : ∀ i (hi : i < ind.length), i < k → ind[i] < w.length) (hbad : w.length ≤ ind[k]) :
    ∃ m s' w', exec zero (.subAssignScalar x ind c) s = (.thr m, s') ∧ ShowsVar s' x w' ∧
      Written w (ind.take k) (List.replicate k c) w' ∧ s'.env.mp x = s.env.mp x ∧
      (∀ y, y ≠ x → (Shares s x y → s.bor x = true ∧ s.bor y = true) ∧ (¬ Shares s x y → SameVar s s' y)) := by
  obtain ⟨m, s', e1, w1, sh1⟩ := r.inv.subAssignScalar_any_thr hx sh hle c hk hj hbad
  refine ⟨m, s', _, e1, sh1, written_writes (by simp; omega) ?_, by show (s'.st (x, false)).mp = _; rw [w1.st]; rfl,
    fun y hyx => ⟨r.inv.shares_borrowed hyx, fun h => w1.same (not_shares h)⟩⟩
  intro j hj'
  obtain ⟨i, hi, rfl⟩ := List.mem_iff_getElem.mp hj'
  have hi' : i < k ∧ i < ind.length := by simpa using hi
  rw [List.getElem_take]
  exact hj i hi'.2 hi'.1

/-- C34 in the case that the first index is out of range: the vector is unchanged. -/
theorem C34_first_partial {zero : V} {s : Mach V} (r : Reach zero s) {x : Nat} (hx : x < s.n)
    {w : List V} (sh : ShowsVar s x w) {ind : List Nat}
    (hle : ind.length ≤ w.length) {conv : V → Out V} {same : Bool} {e : Expr V} {L : List V}
    (hlen : L.length = ind.length) (hsz : e.size s.env = L.length)
    (hel : ∀ i (hi : i < L.length), (e.el s.env i >>= conv) = .ok L[i]) (hlim : L.length ≤ 2 ^ 30)
    (h0 : 0 < ind.length) (hbad : w.length ≤ ind[0]) :
    ∃ m s', exec zero (.subAssign conv same x ind e) s = (.thr m, s') ∧ ShowsVar s' x w := by
  obtain ⟨m, s', w', a, b, c, _⟩ := C34_prefix_partial r hx sh hle hlen hsz hel (same := same) hlim h0
    (by intros; omega) hbad
  refine ⟨m, s', a, ?_⟩
  have : w' = w := by
    apply List.ext_getElem c.len
    intro j h1 h2
    exact c.other j h2 h1 (by simp)
  rw [← this]; exact b

/-- C34 is false: `v = (0, 0, 0, 7)`, `v(c(1, 9)) = (5, 6)` throws after the first element has been
overwritten; the same with a scalar on the right-hand side. -/
theorem C34_false : ∃ s s', Reach (0 : Int) s ∧ ShowsVar s 0 [0, 0, 0, 7] ∧
    calcIndVector 4 (.vint [.i 1, .i 9]) [] = (.ok [0, 8], []) ∧
    exec 0 (.subAssign .ok true 0 [0, 8] (.rvec [5, 6] {})) s
      = (.thr "Error: out of boundaries --> value beyond size of vector", s') ∧
    ShowsVar s' 0 [5, 0, 0, 7] :=
  ⟨_, _, sampleReach, ⟨by decide +kernel, by decide +kernel⟩, by decide +kernel,
    Prod.ext (by decide +kernel) rfl, ⟨by decide +kernel, by decide +kernel⟩⟩

theorem C34_false_scalar : ∃ s s', Reach (0 : Int) s ∧ ShowsVar s 0 [0, 0, 0, 7] ∧
    calcIndVector 4 (.vint [.i 1, .i 9]) [] = (.ok [0, 8], []) ∧
    exec 0 (.subAssignScalar 0 [0, 8] 5) s
      = (.thr "Error: out of boundaries --> value beyond size of vector", s') ∧
    ShowsVar s' 0 [5, 0, 0, 7] :=
  ⟨_, _, sampleReach, ⟨by decide +kernel, by decide +kernel⟩, by decide +kernel,
    Prod.ext (by decide +kernel) rfl, ⟨by decide +kernel, by decide +kernel⟩⟩

/-- The hypotheses of `C34_prefix_partial` hold in that state with `k = 1`. -/
example : ∃ s, Reach (0 : Int) s ∧ 0 < s.n ∧ s.bor 0 = false ∧ ShowsVar s 0 [0, 0, 0, 7] ∧
    (Expr.rvec [5, 6] {}).size s.env = [5, 6].length ∧ [0, 8].length ≤ [0, 0, 0, 7].length ∧
    [0, 0, 0, 7].length ≤ [0, 8][1] :=
  ⟨_, sampleReach, by decide +kernel, by decide +kernel,
    ⟨by decide +kernel, by decide +kernel⟩, by decide +kernel, by decide, by decide⟩

/-! ### The theorems applied to the vector (0, 0, 0, 7) -/

theorem sampleShows0 : ShowsVar (runAll (0 : Int) sampleHistory start).2 0 [0, 0, 0, 7] := ⟨by decide +kernel, by decide +kernel⟩

example : ∃ m s' w', exec 0 (.subAssignScalar 0 [0, 8] 5) (runAll (0 : Int) sampleHistory start).2 = (.thr m, s') ∧
    ShowsVar s' 0 w' ∧ Written [0, 0, 0, 7] [0] [5] w' := by
  obtain ⟨m, s', w', h1, h2, h3, _⟩ := C34_scalar_prefix_partial sampleReach (by decide +kernel) sampleShows0 (ind := [0, 8]) (by decide) 5
    (k := 1) (by decide) (fun i _ h => match i, h with | 0, _ => (by simp)) (by decide)
  exact ⟨m, s', w', h1, h2, h3⟩

theorem sampleTwo (s : Mach Int) (a b : Int) : ∀ i (hi : i < [a, b].length), ((Expr.rvec [a, b] {}).el s.env i >>= Out.ok) = .ok [a, b][i] :=
  fun i hi => match i, hi with
    | 0, _ => rfl
    | 1, _ => rfl

example : ∃ s' w', exec 0 (.subAssign .ok true 0 [3, 0] (.rvec [8, 9] {})) (runAll (0 : Int) sampleHistory start).2 = (.ok (), s') ∧
    ShowsVar s' 0 w' ∧ Written [0, 0, 0, 7] [3, 0] [8, 9] w' := by
  obtain ⟨ws', s', w', _, h1, h2, h3, _⟩ := C33_partial sampleReach (by decide +kernel) sampleShows0 (by decide) (idx := .vint [.i 4, .i 1])
    (by simp [Index.Pass, Scal.Pass, InI32]) (ind := [3, 0]) (by decide) (by decide) (conv := .ok) (same := true) (L := [8, 9]) rfl rfl (sampleTwo _ 8 9) (by decide) []
  exact ⟨s', w', h1, h2, h3⟩

example : ∃ s' w', exec 0 (.subAssignScalar 0 [3, 0] 5) (runAll (0 : Int) sampleHistory start).2 = (.ok (), s') ∧
    ShowsVar s' 0 w' ∧ w'.length = 4 := by
  obtain ⟨ws', s', w', _, h1, h2, h3, _⟩ := C33_scalar_partial sampleReach sampleShows0 (by decide) (idx := .vint [.i 4, .i 1])
    (by simp [Index.Pass, Scal.Pass, InI32]) (ind := [3, 0]) (by decide) (by decide) 5 []
  exact ⟨s', w', h1, h2, h3⟩

example : ∃ ind ws' s', calcIndVector 4 (.dbl (.fin (5 / 2))) [] = (.ok ind, ws') ∧
    exec 0 (.subAssignScalar 0 ind 5) (runAll (0 : Int) sampleHistory start).2 = (.ok (), s') ∧ ShowsVar s' 0 [0, 5, 0, 7] := by
  obtain ⟨ind, ws', s', h1, h2, h3, _⟩ := C29_write sampleReach sampleShows0 (by decide) (k := 2) (by decide) (by decide)
    (idx := .dbl (.fin (5 / 2))) (.inr ⟨5 / 2, by norm_num, rfl⟩) 5 []
  exact ⟨ind, ws', s', h1, h2, h3⟩

example : ∃ m s', exec 0 (.subAssign .ok true 0 [3, 0] (.rvec [8, 9, 10] {})) (runAll (0 : Int) sampleHistory start).2 = (.thr m, s') ∧
    SameVar (runAll (0 : Int) sampleHistory start).2 s' 0 := by
  obtain ⟨m, s', h1, h2⟩ := C34_length sampleReach 0 [3, 0] .ok true (.rvec [8, 9, 10] {}) (by decide +kernel)
  exact ⟨m, s', h1, h2 0 (by decide +kernel)⟩

/-- `v(c(1, 9)) = c(8, 9)` writes the first element before it throws, `v(c(9, 1)) = c(8, 9)` writes nothing. -/
example : (∃ m s' w', exec 0 (.subAssign .ok true 0 [0, 8] (.rvec [8, 9] {})) (runAll (0 : Int) sampleHistory start).2 = (.thr m, s') ∧
      ShowsVar s' 0 w' ∧ Written [0, 0, 0, 7] [0] [8] w') ∧
    ∃ m s', exec 0 (.subAssign .ok true 0 [8, 0] (.rvec [8, 9] {})) (runAll (0 : Int) sampleHistory start).2 = (.thr m, s') ∧
      ShowsVar s' 0 [0, 0, 0, 7] := by
  obtain ⟨m, s', w', h1, h2, h3, _⟩ := C34_prefix_partial sampleReach (by decide +kernel) sampleShows0 (ind := [0, 8]) (by decide) (conv := .ok)
    (same := true) (L := [8, 9]) rfl rfl (sampleTwo _ 8 9) (by decide) (k := 1) (by decide)
    (fun i hi hk => match i, hk with
      | 0, _ => by show 0 < 4; decide) (by decide)
  exact ⟨⟨m, s', w', h1, h2, h3⟩, C34_first_partial sampleReach (by decide +kernel) sampleShows0 (ind := [8, 0]) (by decide) (conv := .ok)
    (same := true) (L := [8, 9]) rfl rfl (sampleTwo _ 8 9) (by decide) (by decide) (by decide)⟩

end Mach
end ETR
