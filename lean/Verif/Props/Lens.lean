import Verif.Props.SubAssign
import Verif.Props.Assign

/-!
# Selecting and assigning fit together

Reading a selection of a vector (`w = v(I)`) and writing it (`v(I) = e`) are implemented by different functions
(`/repo/include/etr_bits/Core/SubsetClass.hpp` 62-70, `Vector/AssignmentOperator.hpp` 89-105 and 158-171).  They obey the laws of a lens:
what was written is read, writing back what was read changes nothing, the second of two writes wins, and writes to disjoint selections do
not depend on their order.
-/

namespace ETR
namespace Mach
open Store Spec

variable {V : Type}

/-- The last occurrence of an element of a list. -/
theorem last_of_mem {j : Nat} {ind : List Nat} (hj : j ∈ ind) :
    ∃ k, ∃ hk : k < ind.length, ind[k] = j ∧ ∀ m (hm : m < ind.length), k < m → ind[m] ≠ j := by
  induction ind with
  | nil => simp at hj
  | cons i is ih =>
    by_cases h : j ∈ is
    · obtain ⟨k, hk, e, hl⟩ := ih h
      refine ⟨k + 1, by simpa using hk, by simpa using e, fun m hm hkm => ?_⟩
      obtain ⟨m, rfl⟩ : ∃ m', m = m' + 1 := ⟨m - 1, by omega⟩
      simp only [List.getElem_cons_succ]
      exact hl m (by simpa using hm) (by omega)
    · have : j = i := by simpa [h] using hj
      refine ⟨0, by simp, by simp [this], fun m hm hkm => ?_⟩
      obtain ⟨m, rfl⟩ : ∃ m', m = m' + 1 := ⟨m - 1, by omega⟩
      simp only [List.getElem_cons_succ]
      intro e
      exact h (e ▸ List.getElem_mem _)

theorem written_ext {w : List V} {ind : List Nat} {L a b : List V} (hlen : L.length = ind.length) (ha : Written w ind L a)
    (hb : Written w ind L b) : a = b := by
  refine List.ext_getElem (ha.len.trans hb.len.symm) (fun j h1 h2 => ?_)
  by_cases hj : j ∈ ind
  · obtain ⟨k, hk, hkj, hl⟩ := last_of_mem hj
    subst hkj
    rw [ha.last k hk (by omega) h1 hl, hb.last k hk (by omega) h2 hl]
  · rw [ha.other j (by rw [← ha.len]; exact h1) h1 hj, hb.other j (by rw [← ha.len]; exact h1) h2 hj]

theorem leaf_denotes {s : Mach V} {x : Nat} {w : List V} (sh : ShowsVar s x w) : Denotes s.env (.leaf x) w := ⟨sh.1, sh.2⟩

/-- C103, first law: after `v(I) = e` the selection `v(I)` has the elements that `e` had, if `I` selects no element twice.  For vectors that
own or borrow their memory, index arguments of all kinds and right-hand sides that may read `v`. -/
theorem C103_written_is_read_partial {zero : V} {s : Mach V} (r : Reach zero s) {x : Nat} (hx : x < s.n)
    {w : List V} (sh : ShowsVar s x w) (hw : w.length < 2 ^ 31) {idx : Index} (hp : idx.Pass) {ind : List Nat}
    (hpos : positions w.length idx = some ind) (hnd : ind.Nodup) {conv : V → Out V} {same : Bool}
    {e : Expr V} {L : List V} (hlen : L.length = ind.length) (hsz : e.size s.env = L.length)
    (hel : ∀ i (hi : i < L.length), (e.el s.env i >>= conv) = .ok L[i]) (hlim : L.length ≤ 2 ^ 30) (ws : List String) :
    ∃ s', exec zero (.subAssign conv same x ind e) s = (.ok (), s') ∧
      ∀ ws, ∃ e' ws', subset s'.env (.leaf x) idx ws = (.ok e', ws') ∧ Denotes s'.env e' L := by
  have hlt := positions_lt hpos
  have hle : ind.length ≤ w.length := by
    have := (List.subperm_of_subset hnd (l₂ := List.range w.length) (fun j hj => List.mem_range.mpr (hlt j hj))).length_le
    simpa using this
  obtain ⟨_, s', w', -, e1, sh1, wr, -, -⟩ := C33_partial r hx sh hw hp hpos hle (conv := conv) (same := same) hlen hsz hel hlim ws
  refine ⟨s', e1, fun ws => ?_⟩
  obtain ⟨e', ws', l', h1, h2, h3⟩ := subset_gather (leaf_denotes sh1) (by rw [wr.len]; exact hw) hp (by rw [wr.len]; exact hpos)
    (by rw [wr.len]; exact hle) ws
  refine ⟨e', ws', h1, ?_⟩
  have : l' = L := by
    have hl : l'.length = ind.length := by simpa using congrArg List.length h3
    refine List.ext_getElem (by omega) (fun k h1 h2 => ?_)
    have := congrArg (fun t => t[k]?) h3
    have hk : k < ind.length := by omega
    simp only [List.getElem?_map, List.getElem?_eq_getElem h1, List.getElem?_eq_getElem hk, Option.map_some] at this
    rw [List.getElem?_eq_getElem (by rw [wr.len]; exact hlt _ (List.getElem_mem hk))] at this
    injection this with this
    injection this with this
    rw [this]
    refine wr.last k hk h2 _ (fun m hm hkm e => ?_)
    have := (List.Nodup.getElem_inj_iff hnd).mp e
    omega
  rw [← this]; exact h2

/-- C103, second law: `v(I) = v(I)` changes nothing, for every selection `I` with at most as many elements as `v`, repeated ones included. -/
theorem C103_write_back_partial {zero : V} {s : Mach V} (r : Reach zero s) {x : Nat} (hx : x < s.n)
    {w : List V} (sh : ShowsVar s x w) (hw : w.length ≤ 2 ^ 30) {idx : Index} (hp : idx.Pass) {ind : List Nat}
    (hpos : positions w.length idx = some ind) (hle : ind.length ≤ w.length) (same : Bool) (ws : List String) :
    ∃ e' ws' s', subset s.env (.leaf x) idx ws = (.ok e', ws') ∧ exec zero (.subAssign .ok same x ind e') s = (.ok (), s') ∧
      ShowsVar s' x w ∧ s'.env.mp x = s.env.mp x ∧ ∀ y, y < s.n → y ≠ x → ¬ Shares s x y → SameVar s s' y := by
  have hlt := positions_lt hpos
  obtain ⟨e', ws', l', h1, h2, h3⟩ := subset_gather (leaf_denotes sh) (by omega) hp hpos hle ws
  have hl : l'.length = ind.length := by simpa using congrArg List.length h3
  obtain ⟨_, s', w', -, e1, sh1, wr, m1, o1⟩ := C33_partial r hx sh (by omega) hp hpos hle (conv := .ok) (same := same) hl h2.1
    (fun i hi => by rw [h2.2 i hi]; rfl) (by omega) ws
  refine ⟨e', ws', s', h1, e1, ?_, m1, fun y hy hyx => (o1 y hy hyx).2⟩
  have : Written w ind l' w := by
    refine ⟨rfl, fun _ _ _ _ => rfl, fun k h1 h2 h' _ => ?_⟩
    have := congrArg (fun t => t[k]?) h3
    simp only [List.getElem?_map, List.getElem?_eq_getElem h1, List.getElem?_eq_getElem h2, Option.map_some] at this
    rw [List.getElem?_eq_getElem h'] at this
    injection this with this
    injection this with this
    exact this.symm
  rw [written_ext hl this wr]; exact sh1

theorem written_twice {w : List V} {ind : List Nat} {L L' a b : List V}
    (ha : Written w ind L a) (hb : Written a ind L' b) : Written w ind L' b :=
  ⟨hb.len.trans ha.len, fun j h h' hn => by
    have h2 : j < a.length := by rw [ha.len]; exact h
    rw [hb.other j h2 h' hn, ha.other j h h2 hn], hb.last⟩

/-- One assignment to a selection, with everything that is needed to go on. -/
theorem put_step {zero : V} {s : Mach V} (r : Reach zero s) {x : Nat} (hx : x < s.n)
    {w : List V} (sh : ShowsVar s x w) (hw : w.length < 2 ^ 31) {idx : Index} (hp : idx.Pass) {ind : List Nat}
    (hpos : positions w.length idx = some ind) (hle : ind.length ≤ w.length) {conv : V → Out V} {same : Bool} {e : Expr V} {L : List V}
    (hlen : L.length = ind.length) (hlim : ind.length ≤ 2 ^ 30) (hc : ∀ v, (conv v).NoMem) (hf : e.FunSafe) (hev : Evals s conv e L) :
    ∃ s' w', exec zero (.subAssign conv same x ind e) s = (.ok (), s') ∧ ShowsVar s' x w' ∧ Written w ind L w' ∧
      s'.env.mp x = s.env.mp x ∧ (∀ y, y < s.n → y ≠ x → ¬ Shares s x y → SameVar s s' y) ∧ Reach zero s' ∧ x < s'.n := by
  obtain ⟨_, s', w', -, e1, sh1, wr, m1, o1⟩ := C33_partial r hx sh hw hp hpos hle (conv := conv) (same := same) hlen hev.1.symm hev.2
    (by omega) []
  have r1 : Reach zero s' := r.step (c := .subAssign conv same x ind e) ⟨hx, hc, hf, hlim⟩ e1 (by simp)
  refine ⟨s', w', e1, sh1, wr, m1, fun y hy hyx => (o1 y hy hyx).2, r1, r1.inv.lt_of_shows sh1 ?_⟩
  rintro rfl
  have := wr.len
  have hne := (positions_entries hpos).2
  have : ind.length = 0 := by simp at this; omega
  exact hne (List.length_eq_zero_iff.mp this)

/-- C103, third law: the second of two assignments to the same selection wins, `v(I) = a; v(I) = b` leaves what `v(I) = b` leaves, if `b`
has the same elements before and after the first one. -/
theorem C103_second_wins_partial {zero : V} {s : Mach V} (r : Reach zero s) {x : Nat} (hx : x < s.n)
    {w : List V} (sh : ShowsVar s x w) (hw : w.length < 2 ^ 31) {idx : Index} (hp : idx.Pass) {ind : List Nat}
    (hpos : positions w.length idx = some ind) (hle : ind.length ≤ w.length) (hlim : ind.length ≤ 2 ^ 30) {c1 c2 : V → Out V}
    {f1 f2 : Bool} {e1 e2 : Expr V} {L1 L2 : List V} (hl1 : L1.length = ind.length) (hl2 : L2.length = ind.length)
    (hc1 : ∀ v, (c1 v).NoMem) (hc2 : ∀ v, (c2 v).NoMem) (hf1 : e1.FunSafe) (hf2 : e2.FunSafe)
    (v1 : Evals s c1 e1 L1) (v2 : Evals s c2 e2 L2)
    (v2' : ∀ s1, exec zero (.subAssign c1 f1 x ind e1) s = (.ok (), s1) → Evals s1 c2 e2 L2) :
    ∃ s1 s2 s3 w', exec zero (.subAssign c1 f1 x ind e1) s = (.ok (), s1) ∧ exec zero (.subAssign c2 f2 x ind e2) s1 = (.ok (), s2) ∧
      exec zero (.subAssign c2 f2 x ind e2) s = (.ok (), s3) ∧ ShowsVar s2 x w' ∧ ShowsVar s3 x w' ∧ s2.env.mp x = s3.env.mp x := by
  obtain ⟨s1, a, q1, sh1, wr1, m1, -, r1, hx1⟩ := put_step r hx sh hw hp hpos hle (same := f1) hl1 hlim hc1 hf1 v1
  obtain ⟨s2, b, q2, sh2, wr2, m2, -⟩ := put_step r1 hx1 sh1 (by rw [wr1.len]; exact hw) hp (by rw [wr1.len]; exact hpos)
    (by rw [wr1.len]; exact hle) (same := f2) hl2 hlim hc2 hf2 (v2' s1 q1)
  obtain ⟨s3, c, q3, sh3, wr3, m3, -⟩ := put_step r hx sh hw hp hpos hle (same := f2) hl2 hlim hc2 hf2 v2
  refine ⟨s1, s2, s3, b, q1, q2, q3, sh2, ?_, by rw [m2, m1, m3]⟩
  rw [written_ext hl2 (written_twice wr1 wr2) wr3]
  exact sh3

/-- The writes of two disjoint selections in either order. -/
theorem written_disjoint {w : List V} {i j : List Nat} {L K a b c d : List V} (hL : L.length = i.length) (hK : K.length = j.length)
    (hd : ∀ k ∈ i, k ∉ j) (hi : ∀ k ∈ i, k < w.length)
    (h1 : Written w i L a) (h2 : Written a j K b) (h3 : Written w j K c) (h4 : Written c i L d) : b = d := by
  have hbw : b.length = w.length := h2.len.trans h1.len
  have hdw : d.length = w.length := h4.len.trans h3.len
  -- `b` is what comes from writing the second selection after the first, so it is also `c` with the first one written
  have : Written c i L b := by
    refine ⟨hbw.trans h3.len.symm, fun k hk hk' hn => ?_, fun k hk1 hk2 hk' hl => ?_⟩
    · have hkw : k < w.length := by rw [← h3.len]; exact hk
      have hka : k < a.length := by rw [h1.len]; exact hkw
      by_cases hkj : k ∈ j
      · obtain ⟨m, hm, hmk, hl⟩ := last_of_mem hkj
        subst hmk
        rw [h2.last m hm (by omega) hk' hl, h3.last m hm (by omega) hk hl]
      · rw [h2.other k hka hk' hkj, h1.other k hkw hka hn, h3.other k hkw hk hkj]
    · have hm : i[k] ∈ i := List.getElem_mem hk1
      have hka : i[k] < a.length := by rw [h1.len]; exact hi _ hm
      rw [h2.other _ hka hk' (hd _ hm), h1.last k hk1 hk2 hka hl]
  exact written_ext hL this h4

/-- C103, fourth law: assignments to disjoint selections can be done in either order, if their right-hand sides have the same elements
at both times. -/
theorem C103_disjoint_partial {zero : V} {s : Mach V} (r : Reach zero s) {x : Nat} (hx : x < s.n)
    {w : List V} (sh : ShowsVar s x w) (hw : w.length < 2 ^ 31) {idx jdx : Index} (hp : idx.Pass) (hp' : jdx.Pass) {i j : List Nat}
    (hi : positions w.length idx = some i) (hj : positions w.length jdx = some j) (hd : ∀ k ∈ i, k ∉ j)
    (hile : i.length ≤ w.length) (hjle : j.length ≤ w.length) (hlim : i.length ≤ 2 ^ 30) (hlim' : j.length ≤ 2 ^ 30) {c1 c2 : V → Out V}
    {f1 f2 : Bool} {e1 e2 : Expr V} {L1 L2 : List V} (hl1 : L1.length = i.length) (hl2 : L2.length = j.length)
    (hc1 : ∀ v, (c1 v).NoMem) (hc2 : ∀ v, (c2 v).NoMem) (hf1 : e1.FunSafe) (hf2 : e2.FunSafe)
    (v1 : Evals s c1 e1 L1) (v2 : Evals s c2 e2 L2)
    (v2' : ∀ t, exec zero (.subAssign c1 f1 x i e1) s = (.ok (), t) → Evals t c2 e2 L2)
    (v1' : ∀ t, exec zero (.subAssign c2 f2 x j e2) s = (.ok (), t) → Evals t c1 e1 L1) :
    ∃ s1 s2 t1 t2 w', exec zero (.subAssign c1 f1 x i e1) s = (.ok (), s1) ∧ exec zero (.subAssign c2 f2 x j e2) s1 = (.ok (), s2) ∧
      exec zero (.subAssign c2 f2 x j e2) s = (.ok (), t1) ∧ exec zero (.subAssign c1 f1 x i e1) t1 = (.ok (), t2) ∧
      ShowsVar s2 x w' ∧ ShowsVar t2 x w' ∧ s2.env.mp x = t2.env.mp x := by
  obtain ⟨s1, a, q1, sh1, wr1, m1, -, r1, hx1⟩ := put_step r hx sh hw hp hi hile (same := f1) hl1 hlim hc1 hf1 v1
  obtain ⟨s2, b, q2, sh2, wr2, m2, -⟩ := put_step r1 hx1 sh1 (by rw [wr1.len]; exact hw) hp' (by rw [wr1.len]; exact hj)
    (by rw [wr1.len]; exact hjle) (same := f2) hl2 hlim' hc2 hf2 (v2' s1 q1)
  obtain ⟨t1, c, q3, sh3, wr3, m3, -, r3, hx3⟩ := put_step r hx sh hw hp' hj hjle (same := f2) hl2 hlim' hc2 hf2 v2
  obtain ⟨t2, d, q4, sh4, wr4, m4, -⟩ := put_step r3 hx3 sh3 (by rw [wr3.len]; exact hw) hp (by rw [wr3.len]; exact hi)
    (by rw [wr3.len]; exact hile) (same := f1) hl1 hlim hc1 hf1 (v1' t1 q3)
  refine ⟨s1, s2, t1, t2, b, q1, q2, q3, q4, sh2, ?_, by rw [m2, m1, m4, m3]⟩
  rw [written_disjoint hl1 hl2 hd (positions_lt hi) wr1 wr2 wr3 wr4]
  exact sh4

/-- C103, permutations: `v = v(I); v(I) = v` gives the old vector back, if `I` selects every element once. -/
theorem C103_permutation_partial {zero : V} {s s1 : Mach V} (r : Reach zero s) {x : Nat} (hx : x < s.n)
    {w : List V} (sh : ShowsVar s x w) (hw : w.length ≤ 2 ^ 30) {idx : Index} (hp : idx.Pass) {ind : List Nat}
    (hpos : positions w.length idx = some ind) (hnd : ind.Nodup) (hall : ind.length = w.length) {e : Expr V} {ws ws' : List String}
    (hsub : subset s.env (.leaf x) idx ws = (.ok e, ws')) (h1 : exec zero (.assign .ok x e) s = (.ok (), s1)) (same : Bool) :
    ∃ s2, exec zero (.subAssign .ok same x ind (.leaf x)) s1 = (.ok (), s2) ∧ ShowsVar s2 x w := by
  have hlt := positions_lt hpos
  obtain ⟨e', _, l', q1, q2, q3⟩ := subset_gather (leaf_denotes sh) (by omega) hp hpos (by omega) ws
  rw [hsub] at q1
  injection q1 with q1 _; injection q1 with q1; subst q1
  have hl' : l'.length = ind.length := by simpa using congrArg List.length q3
  have hsz : e.size s.env ≤ 2 ^ 30 := by rw [q2.1]; omega
  obtain ⟨L, ev, sh1, -⟩ := C11_snapshot_partial r .ok x e hx hsz h1
  have hLl : L = l' := by
    refine List.ext_getElem (by rw [ev.1, q2.1]) (fun k k1 k2 => ?_)
    have := ev.2 k k1
    rw [q2.2 k k2] at this
    simpa using this.symm
  subst hLl
  have hf : e.FunSafe := by
    have he : ∃ i mp, e = .sub (.leaf x) i mp := by
      unfold subset at hsub
      rw [M.bind_apply] at hsub
      rcases hc : calcIndVector ((Expr.leaf x).size s.env) idx ws with ⟨o, u⟩
      rw [hc] at hsub
      cases o with
      | ok i => simp at hsub; exact ⟨_, _, hsub.1.symm⟩
      | thr m => simp at hsub
      | ub k => simp at hsub
    obtain ⟨i, mp, rfl⟩ := he
    trivial
  have r1 : Reach zero s1 := r.step (c := .assign .ok x e) ⟨hx, fun v => Out.NoMem.ok v, hf, hsz⟩ h1 (by simp)
  have hne : L ≠ [] := by
    rintro rfl
    have := (positions_entries hpos).2
    simp at hl'
    exact this (List.length_eq_zero_iff.mp hl'.symm)
  have hx1 := r1.inv.lt_of_shows sh1 hne
  obtain ⟨s2, w', p1, p2, wr, -⟩ := put_step r1 hx1 sh1 (by omega) hp (by rw [hl', hall]; exact hpos) (by omega) (conv := .ok) (same := same)
    (e := .leaf x) (L := L) (by omega) (by omega) (fun v => Out.NoMem.ok v) trivial ⟨sh1.1.symm, fun i hi => by
      show (s1.env.get x i >>= .ok) = _
      rw [sh1.2 i hi]; rfl⟩
  refine ⟨s2, p1, ?_⟩
  have : w' = w := by
    refine List.ext_getElem (by rw [wr.len]; omega) (fun j j1 j2 => ?_)
    have hj : j ∈ ind := by
      have hp := (List.subperm_of_subset hnd (l₂ := List.range w.length) (fun j hj => List.mem_range.mpr (hlt j hj))).perm_of_length_le (by simp [hall])
      exact hp.mem_iff.mpr (List.mem_range.mpr j2)
    obtain ⟨k, hk, hkj, hl⟩ := last_of_mem hj
    subst hkj
    rw [wr.last k hk (by omega) j1 hl]
    have := congrArg (fun t => t[k]?) q3
    simp only [List.getElem?_map, List.getElem?_eq_getElem hk, List.getElem?_eq_getElem (show k < L.length by omega), Option.map_some,
      List.getElem?_eq_getElem j2] at this
    simpa using this
  rw [← this]; exact p2

/-- C103 is false for index vectors longer than the vector: `v(I) = v(I)` makes the vector as long as the index vector. -/
theorem C103_false_long : ∃ s s' e, Reach (0 : Int) s ∧ ShowsVar s 0 [0, 0, 0, 7] ∧
    subset s.env (.leaf 0) (.vint [.i 1, .i 2, .i 3, .i 4, .i 4]) [] = (.ok e, []) ∧
    exec 0 (.subAssign .ok true 0 [0, 1, 2, 3, 3] e) s = (.ok (), s') ∧ s'.env.size 0 = 5 :=
  ⟨_, _, .sub (.leaf 0) [0, 1, 2, 3, 3] {}, sampleReach, ⟨by decide +kernel, by decide +kernel⟩, rfl,
    Prod.ext (by decide +kernel) rfl, by decide +kernel⟩

/-- `v(c(4, 1)) = c(8, 9)` on `c(0, 0, 0, 7)`: the indices satisfy the hypotheses, and the selection reads 8, 9 afterwards. -/
example : let v : List Int := [0, 0, 0, 7]
    positions v.length (.vint [.i 4, .i 1]) = some [3, 0] ∧ [3, 0].Nodup ∧ Written v [3, 0] [8, 9] [9, 0, 0, 8] := by
  refine ⟨by decide, by decide, ?_⟩
  exact written_writes (w := [0, 0, 0, (7 : Int)]) (ind := [3, 0]) (L := [8, 9]) rfl (by decide)

/-! ### The theorems applied to the vector (0, 0, 0, 7) -/

theorem sampleVar0 : 0 < (runAll (0 : Int) sampleHistory start).2.n ∧ ShowsVar (runAll (0 : Int) sampleHistory start).2 0 [0, 0, 0, 7] :=
  ⟨by decide +kernel, by decide +kernel, by decide +kernel⟩

theorem evals_two (s : Mach Int) (a b : Int) : Evals s .ok (.rvec [a, b] {}) [a, b] :=
  ⟨rfl, fun i hi => match i, hi with
    | 0, _ => rfl
    | 1, _ => rfl⟩

/-- `v(c(4, 1)) = c(8, 9)`. -/
example : ∃ s', exec 0 (.subAssign .ok true 0 [3, 0] (.rvec [8, 9] {})) (runAll (0 : Int) sampleHistory start).2 = (.ok (), s') ∧
    ∀ ws, ∃ e' ws', subset s'.env (.leaf 0) (.vint [.i 4, .i 1]) ws = (.ok e', ws') ∧ Denotes s'.env e' [8, 9] :=
  C103_written_is_read_partial sampleReach sampleVar0.1 sampleVar0.2 (by decide) (idx := .vint [.i 4, .i 1])
    (by simp [Index.Pass, Scal.Pass, InI32]) (by decide) (by decide) rfl rfl (evals_two _ 8 9).2 (by decide) []

/-- `v(c(4, 1)) = v(c(4, 1))`. -/
example : ∃ e' ws' s', subset (runAll (0 : Int) sampleHistory start).2.env (.leaf 0) (.vint [.i 4, .i 1]) [] = (.ok e', ws') ∧
    exec 0 (.subAssign .ok true 0 [3, 0] e') (runAll (0 : Int) sampleHistory start).2 = (.ok (), s') ∧ ShowsVar s' 0 [0, 0, 0, 7] := by
  obtain ⟨e', ws', s', h1, h2, h3, _⟩ := C103_write_back_partial sampleReach sampleVar0.1 sampleVar0.2 (by decide)
    (idx := .vint [.i 4, .i 1]) (by simp [Index.Pass, Scal.Pass, InI32]) (ind := [3, 0]) (by decide) (by decide) true []
  exact ⟨e', ws', s', h1, h2, h3⟩

/-- `v(c(4, 1)) = c(8, 9); v(c(4, 1)) = c(5, 6)`. -/
example : ∃ s1 s2 s3 w', exec 0 (.subAssign .ok true 0 [3, 0] (.rvec [8, 9] {})) (runAll (0 : Int) sampleHistory start).2 = (.ok (), s1) ∧
    exec 0 (.subAssign .ok true 0 [3, 0] (.rvec [5, 6] {})) s1 = (.ok (), s2) ∧
    exec 0 (.subAssign .ok true 0 [3, 0] (.rvec [5, 6] {})) (runAll (0 : Int) sampleHistory start).2 = (.ok (), s3) ∧
    ShowsVar s2 0 w' ∧ ShowsVar s3 0 w' ∧ s2.env.mp 0 = s3.env.mp 0 :=
  C103_second_wins_partial sampleReach sampleVar0.1 sampleVar0.2 (by decide) (idx := .vint [.i 4, .i 1])
    (by simp [Index.Pass, Scal.Pass, InI32]) (by decide) (by decide) (by decide) rfl rfl (fun _ => Out.NoMem.ok _) (fun _ => Out.NoMem.ok _)
    trivial trivial (evals_two _ 8 9) (evals_two _ 5 6) (fun _ _ => evals_two _ 5 6)

/-- `v(c(4, 1)) = c(8, 9); v(c(2, 3)) = c(5, 6)` in both orders. -/
example : ∃ s1 s2 t1 t2 w', exec 0 (.subAssign .ok true 0 [3, 0] (.rvec [8, 9] {})) (runAll (0 : Int) sampleHistory start).2 = (.ok (), s1) ∧
    exec 0 (.subAssign .ok true 0 [1, 2] (.rvec [5, 6] {})) s1 = (.ok (), s2) ∧
    exec 0 (.subAssign .ok true 0 [1, 2] (.rvec [5, 6] {})) (runAll (0 : Int) sampleHistory start).2 = (.ok (), t1) ∧
    exec 0 (.subAssign .ok true 0 [3, 0] (.rvec [8, 9] {})) t1 = (.ok (), t2) ∧
    ShowsVar s2 0 w' ∧ ShowsVar t2 0 w' ∧ s2.env.mp 0 = t2.env.mp 0 :=
  C103_disjoint_partial sampleReach sampleVar0.1 sampleVar0.2 (by decide) (idx := .vint [.i 4, .i 1]) (jdx := .vint [.i 2, .i 3])
    (by simp [Index.Pass, Scal.Pass, InI32]) (by simp [Index.Pass, Scal.Pass, InI32]) (by decide) (by decide) (by decide) (by decide) (by decide)
    (by decide) (by decide) rfl rfl (fun _ => Out.NoMem.ok _) (fun _ => Out.NoMem.ok _)
    trivial trivial (evals_two _ 8 9) (evals_two _ 5 6) (fun _ _ => evals_two _ 5 6) (fun _ _ => evals_two _ 8 9)

/-- `v = v(c(4, 1, 2, 3)); v(c(4, 1, 2, 3)) = v`. -/
example : ∃ e ws' s1 s2, subset (runAll (0 : Int) sampleHistory start).2.env (.leaf 0) (.vint [.i 4, .i 1, .i 2, .i 3]) [] = (.ok e, ws') ∧
    exec 0 (.assign .ok 0 e) (runAll (0 : Int) sampleHistory start).2 = (.ok (), s1) ∧
    exec 0 (.subAssign .ok true 0 [3, 0, 1, 2] (.leaf 0)) s1 = (.ok (), s2) ∧ ShowsVar s2 0 [0, 0, 0, 7] := by
  have e1 : subset (runAll (0 : Int) sampleHistory start).2.env (.leaf 0) (.vint [.i 4, .i 1, .i 2, .i 3]) [] =
    (.ok (.sub (.leaf 0) [3, 0, 1, 2] {}), _) := rfl
  have e2 : exec 0 (.assign .ok 0 (.sub (.leaf 0) [3, 0, 1, 2] {})) (runAll (0 : Int) sampleHistory start).2 = (.ok (), _) :=
    Prod.ext (by decide +kernel) rfl
  obtain ⟨s2, h1, h2⟩ := C103_permutation_partial sampleReach sampleVar0.1 sampleVar0.2 (by decide) (idx := .vint [.i 4, .i 1, .i 2, .i 3])
    (by simp [Index.Pass, Scal.Pass, InI32]) (ind := [3, 0, 1, 2]) (by decide) (by decide) rfl e1 e2 true
  exact ⟨_, _, _, s2, e1, e2, h1, h2⟩

end Mach
end ETR
