import Verif.Model.At
import Verif.Props.Vector
import Verif.Props.MatSubset

/-!
# Properties of `at`
-/

namespace ETR
open Spec Store
variable {V : Type}

namespace Mach

theorem atPos_ok {st : Store} {k : Int} (hk : InI32 k) (h1 : 1 ≤ k) (h2 : k ≤ st.sz)
    (ha : st.allocated = true) : atPos st (.int k) = .ok (k - 1).toNat := by
  unfold InI32 at hk
  have h3 : InI32 (k - 1) := by unfold InI32; omega
  have h4 : 0 ≤ k - 1 := by omega
  have h5 : k - 1 < st.sz := by omega
  simp only [atPos, AtIdx.toInt, ckI32, if_pos h3, Out.ass, if_pos ha, if_pos h4, if_pos h5, Out.ok_bind,
    Out.pure_eq]

theorem atPos_thr {st : Store} {k : Int} (hk : InI32 k) (hk' : k ≠ -2147483648) (h : ¬ (1 ≤ k ∧ k ≤ st.sz)) :
    ∃ m, atPos st (.int k) = .thr m := by
  unfold InI32 at hk
  have h3 : InI32 (k - 1) := by unfold InI32; omega
  simp only [atPos, AtIdx.toInt, ckI32, if_pos h3, Out.ass, Out.ok_bind, Out.pure_eq]
  by_cases ha : st.allocated = true
  · rw [if_pos ha, Out.ok_bind]
    by_cases h4 : 0 ≤ k - 1
    · rw [if_pos h4, Out.ok_bind, if_neg (by omega)]
      exact ⟨_, rfl⟩
    · rw [if_neg h4]; exact ⟨_, rfl⟩
  · rw [if_neg ha]; exact ⟨_, rfl⟩

/-- A double index is truncated. -/
theorem atPos_dbl {st : Store} {q : ℚ} {k : Int} (h : ⌊q⌋ = k) (h1 : 0 ≤ k) (h2 : k < 2147483648) :
    atPos st (.dbl (.fin q)) = atPos st (.int k) := by
  simp only [atPos, AtIdx.toInt]
  rw [toI32_of_floor h h1 h2]

/-- C42, reading from a named vector, owning or borrowing: `at(x, k)` is element `k`, counted from 1; other
indices throw. -/
theorem C42_read_partial {zero : V} {s : Mach V} (r : Reach zero s) (x : Nat) {k : Int} (hk : InI32 k)
    (hk' : k ≠ -2147483648) :
    (∀ i : Nat, k = i + 1 → i < s.env.size x → s.atGet x (.int k) = s.env.get x i) ∧
    (¬ (1 ≤ k ∧ k ≤ s.env.size x) → ∃ m, s.atGet x (.int k) = .thr m) := by
  constructor
  · intro i hi hlt
    obtain ⟨b, hp, _, hl, hlen, ha⟩ := r.inv.access hlt
    have hlt' : i < (s.st (x, false)).sz := hlt
    unfold atGet
    rw [atPos_ok hk (by omega) (by omega) ha, Out.ok_bind]
    have : (k - 1).toNat = i := by omega
    rw [this]
    exact (get_eq_load ha hlt').symm
  · intro h
    obtain ⟨m, hm⟩ := atPos_thr (st := s.st (x, false)) hk hk' h
    exact ⟨m, by unfold atGet; rw [hm]; rfl⟩

example : (runAll (0 : Int) sampleHistory start).2.atGet 0 (.int 4) = (runAll (0 : Int) sampleHistory start).2.env.get 0 3 ∧
    ∃ m, (runAll (0 : Int) sampleHistory start).2.atGet 0 (.int 5) = .thr m :=
  ⟨(C42_read_partial sampleReach 0 (k := 4) (by decide) (by decide)).1 3 rfl (by decide +kernel),
   (C42_read_partial sampleReach 0 (k := 5) (by decide) (by decide)).2 (by decide +kernel)⟩

/-- C42, a double index: it is truncated. -/
theorem C42_read_double_partial {s : Mach V} (x : Nat) {q : ℚ} (h1 : 0 ≤ ⌊q⌋) (h2 : ⌊q⌋ < 2147483648) :
    s.atGet x (.dbl (.fin q)) = s.atGet x (.int ⌊q⌋) := by
  unfold atGet; rw [atPos_dbl rfl h1 h2]

example : (runAll (0 : Int) sampleHistory start).2.atGet 0 (.dbl (.fin (9 / 2))) = (runAll (0 : Int) sampleHistory start).2.atGet 0 (.int 4) := by
  have h : ⌊(9 / 2 : ℚ)⌋ = 4 := by norm_num
  rw [← h]
  exact C42_read_double_partial 0 (by rw [h]; decide) (by rw [h]; decide)

/-- C42, a double index, also for writing and for the row and the column of a matrix: it counts as its integer part.  A number below 1 is
rejected and nothing is modified. -/
theorem C42_double_partial {s : Mach V} (x : Nat) (v : V) {q : ℚ} (h2 : q < 2147483648) :
    (0 ≤ ⌊q⌋ → (s.atGet x (.dbl (.fin q)) = s.atGet x (.int ⌊q⌋) ∧ atSet x (.dbl (.fin q)) v s = atSet x (.int ⌊q⌋) v s) ∧
      ∀ k, (s.atGetM x (.dbl (.fin q)) k = s.atGetM x (.int ⌊q⌋) k ∧ s.atGetM x k (.dbl (.fin q)) = s.atGetM x k (.int ⌊q⌋)) ∧
        atSetM x (.dbl (.fin q)) k v s = atSetM x (.int ⌊q⌋) k v s ∧ atSetM x k (.dbl (.fin q)) v s = atSetM x k (.int ⌊q⌋) v s) ∧
    (q < 1 → -2147483648 < q → (∃ m, s.atGet x (.dbl (.fin q)) = .thr m) ∧ ∃ m, atSet x (.dbl (.fin q)) v s = (.thr m, s)) := by
  have hfl : ⌊q⌋ < 2147483648 := by
    rw [Int.floor_lt]
    exact_mod_cast h2
  constructor
  · intro h1
    have ht : AtIdx.toInt (.dbl (.fin q)) = AtIdx.toInt (.int ⌊q⌋) := toI32_of_floor rfl h1 hfl
    have e1 : ∀ st : Store, atPos st (.dbl (.fin q)) = atPos st (.int ⌊q⌋) := fun st => atPos_dbl rfl h1 hfl
    have e2 : ∀ (st : Store) k, atPosM st (.dbl (.fin q)) k = atPosM st (.int ⌊q⌋) k := fun st k => by
      unfold atPosM
      rw [ht]
    have e3 : ∀ (st : Store) k, atPosM st k (.dbl (.fin q)) = atPosM st k (.int ⌊q⌋) := fun st k => by
      unfold atPosM
      rw [ht]
    refine ⟨⟨by unfold atGet; rw [e1], by unfold atSet; simp only [e1]⟩, fun k => ⟨⟨by unfold atGetM; rw [e2], by unfold atGetM; rw [e3]⟩,
      by unfold atSetM; simp only [e2], by unfold atSetM; simp only [e3]⟩⟩
  · intro h1 h3
    obtain ⟨t, ht, ht1, ht2⟩ : ∃ t : Int, F64.toI32 (.fin q) = .ok t ∧ -2147483648 < t ∧ t ≤ 0 := by
      have hb : -2147483648 < F64.truncQ q ∧ F64.truncQ q ≤ 0 := by
        rcases le_or_gt 0 q with h0 | h0
        · rw [truncQ_of_nonneg h0, show ⌊q⌋ = 0 from Int.floor_eq_iff.mpr ⟨by simpa using h0, by simpa using h1⟩]
          decide
        · rw [truncQ_of_neg h0]
          have h4 : ⌊-q⌋ < 2147483648 := by
            rw [Int.floor_lt]
            push_cast
            linarith
          have h5 : 0 ≤ ⌊-q⌋ := Int.floor_nonneg.mpr (by linarith)
          omega
      unfold F64.toI32
      exact ⟨_, if_pos (by unfold InI32; omega), hb.1, hb.2⟩
    have hp : ∃ m, atPos (s.st (x, false)) (.dbl (.fin q)) = .thr m := by
      have e0 : atPos (s.st (x, false)) (.dbl (.fin q)) = atPos (s.st (x, false)) (.int t) := by
        simp only [atPos, AtIdx.toInt]
        rw [ht]
      rw [e0]
      exact atPos_thr (by unfold InI32; omega) (by omega) (by omega)
    obtain ⟨m, hm⟩ := hp
    refine ⟨⟨m, by unfold atGet; rw [hm]; rfl⟩, m, ?_⟩
    unfold atSet
    rw [M.bind_ok (M.get_apply _), hm]
    rfl

example : (∃ s', atSet 0 (.dbl (.fin (9 / 2))) 8 (runAll (0 : Int) sampleHistory start).2 = (.ok (), s')) ∧
    ∃ m, atSet 0 (.dbl (.fin (-1 / 2))) 8 (runAll (0 : Int) sampleHistory start).2 = (.thr m, (runAll (0 : Int) sampleHistory start).2) := by
  have h : ⌊(9 / 2 : ℚ)⌋ = 4 := by norm_num
  refine ⟨?_, ((C42_double_partial 0 8 (q := -1 / 2) (by norm_num)).2 (by norm_num) (by norm_num)).2⟩
  rw [((C42_double_partial 0 8 (q := 9 / 2) (by norm_num)).1 (by rw [h]; decide)).1.2, h]
  exact ⟨_, Prod.ext (by decide +kernel) rfl⟩

theorem atSet_eq {zero : V} {s : Mach V} (r : Reach zero s) (x : Nat) {k : Int} (hk : InI32 k) (v : V)
    (h1 : 1 ≤ k) (h2 : k ≤ s.env.size x) :
    atSet x (.int k) v s = exec zero (.setElem x (k - 1).toNat v) s := by
  have hlt : (k - 1).toNat < s.env.size x := by omega
  obtain ⟨b, hp, _, hl, hlen, ha⟩ := r.inv.access hlt
  have h3 : Mach.exec zero (.setElem x (k - 1).toNat v) s = _ := r.inv.setElem v hlt hp
  rw [h3]
  unfold atSet
  rw [M.bind_ok (M.get_apply _), atPos_ok hk h1 h2 ha, M.bind_ok (M.lift_apply _ _), hp,
    onSlot_apply, heapM_ok _ (Heap.store_some hl (by omega))]
  simp only [Mach.put, Prod.mk.injEq, true_and]
  congr 1
  funext z
  split
  · rename_i h; rw [h]
  · rfl

/-- C42, writing to a named vector: `at(x, k) = v` with `k` out of range throws and changes nothing;
otherwise it changes element `k`, counted from 1, and no other element of any object that does not
share the memory of `x`. -/
theorem C42_write_partial {zero : V} {s : Mach V} (r : Reach zero s) (x : Nat) {k : Int} (hk : InI32 k)
    (hk' : k ≠ -2147483648) (v : V) :
    (¬ (1 ≤ k ∧ k ≤ s.env.size x) → ∃ m, atSet x (.int k) v s = (.thr m, s)) ∧
    (∀ i : Nat, k = i + 1 → i < s.env.size x → ∃ s' b, atSet x (.int k) v s = (.ok (), s') ∧
      (s.st (x, false)).p = some b ∧ s'.env.get x i = .ok v ∧
      (∀ y, s'.env.size y = s.env.size y) ∧ (∀ j, j ≠ i → s'.env.get x j = s.env.get x j) ∧
      (∀ c, c ≠ b → s'.heap.blk c = s.heap.blk c) ∧
      (∀ j, j ≠ i → (s'.heap.blk b).cell j = (s.heap.blk b).cell j)) := by
  constructor
  · intro h
    obtain ⟨m, hm⟩ := atPos_thr (st := s.st (x, false)) hk hk' h
    refine ⟨m, ?_⟩
    unfold atSet
    rw [M.bind_ok (M.get_apply _), hm]
    rfl
  · intro i hi hlt
    have : (k - 1).toNat = i := by omega
    rw [atSet_eq r x hk v (by omega) (by omega), this]
    exact (C02_write_partial r x i v).2 hlt

example : (∃ m, atSet 0 (.int (-1)) 9 (runAll (0 : Int) sampleHistory start).2 = (.thr m, (runAll (0 : Int) sampleHistory start).2)) ∧
    ∃ s', atSet 0 (.int 4) 9 (runAll (0 : Int) sampleHistory start).2 = (.ok (), s') ∧ s'.env.get 0 3 = .ok 9 := by
  refine ⟨(C42_write_partial sampleReach 0 (by decide) (by decide) 9).1 (by decide), ?_⟩
  obtain ⟨s', _, e, _, h, _⟩ := (C42_write_partial sampleReach 0 (k := 4) (by decide) (by decide) 9).2 3 rfl (by decide +kernel)
  exact ⟨s', e, h⟩

/-- C42 for a matrix: a row and a column in range address the cell in that row and column. -/
theorem C42_matrix_partial {zero : V} {s : Mach V} (r : Reach zero s) (x : Nat) {nr nc : Nat}
    (hmp : s.env.mp x = ⟨true, nr, nc⟩) (hsz : s.env.size x = nr * nc) {i j : Nat} (hi : i < nr) (hj : j < nc)
    (hlim : nr < 2 ^ 31 ∧ nc < 2 ^ 31 ∧ nr * nc < 2 ^ 64) :
    s.atGetM x (.int (i + 1)) (.int (j + 1)) = s.env.get x (j * nr + i) := by
  have hlt := cell_lt hj hi
  obtain ⟨b, hp, _, hl, hlen, ha⟩ := r.inv.access (x := x) (i := j * nr + i) (by omega)
  have hlt' : j * nr + i < (s.st (x, false)).sz := by show _ < s.env.size x; omega
  have hmp' : (s.st (x, false)).mp = ⟨true, nr, nc⟩ := hmp
  have e1 : ((i : Int) + 1 - 1) = i := by omega
  have e2 : ((j : Int) + 1 - 1) = j := by omega
  have b1 : InI32 (i : Int) := by unfold InI32; omega
  have b2 : InI32 (j : Int) := by unfold InI32; omega
  have e3 : wrap64 ((j : Int) * nr + i) = j * nr + i := by
    have := wrap64_small (n := j * nr + i) (by omega)
    push_cast at this
    exact this
  unfold atGetM atPosM AtIdx.toInt
  simp only [Out.ass, hmp', ha, if_true, Out.ok_bind, e1, e2, ckI32, if_pos b1, if_pos b2, e3, if_pos hlt',
    Out.pure_eq]
  exact (get_eq_load ha hlt').symm

/-- A matrix with two rows and three columns. -/
def sampleMat : List (Cmd Int) := [.declMatVal 2 3 0, .setElem 0 5 9]

theorem sampleMatReach : Reach 0 (runAll 0 sampleMat start).2 :=
  ⟨sampleMat, .cons (by show _ ≤ _; decide) (.cons (by show _ < _; decide +kernel) trivial), Prod.ext (by decide +kernel) rfl⟩

example : (runAll (0 : Int) sampleMat start).2.atGetM 0 (.int 2) (.int 3) = .ok 9 :=
  (C42_matrix_partial sampleMatReach 0 (nr := 2) (nc := 3) (by decide +kernel) (by decide +kernel) (i := 1) (j := 2) (by decide) (by decide)
    (by decide)).trans (by decide +kernel)

/-- C42 for a vector that is not a matrix: a row and a column are rejected, whatever they are, and nothing is modified. -/
theorem C42_not_matrix {s : Mach V} (x : Nat) (hmp : (s.env.mp x).im = false) (r c : AtIdx) (v : V) :
    (∃ m, s.atGetM x r c = .thr m) ∧ ∃ m, atSetM x r c v s = (.thr m, s) := by
  have hmp' : ¬ (s.st (x, false)).mp.im = true := by
    show ¬ (s.env.mp x).im = true
    rw [hmp]; decide
  have e : atPosM (s.st (x, false)) r c = .thr "Input is not a matrix!" := by
    unfold atPosM
    rw [Out.ass_neg hmp', Out.thr_bind]
  constructor
  · exact ⟨_, by unfold atGetM; rw [e, Out.thr_bind]⟩
  · refine ⟨"Input is not a matrix!", ?_⟩
    unfold atSetM
    rw [M.bind_ok (M.get_apply _), e]
    rfl

example : ∃ m, atSetM 0 (.int 1) (.int 1) 9 (runAll (0 : Int) sampleHistory start).2 = (.thr m, (runAll (0 : Int) sampleHistory start).2) :=
  (C42_not_matrix 0 (by decide +kernel) _ _ _).2

/-- The checks for a matrix, for every row and column from 1 on: only the position is compared with the size. -/
theorem atPosM_eq {st : Store} {nr nc : Nat} (hmp : st.mp = ⟨true, nr, nc⟩) (ha : st.allocated = true) {i j : Nat} (hi : i + 1 < 2 ^ 31)
    (hj : j + 1 < 2 ^ 31) (hnr : nr < 2 ^ 32) :
    atPosM st (.int (i + 1)) (.int (j + 1)) = if j * nr + i < st.sz then .ok (j * nr + i)
      else .thr "Error: out of boundaries --> value beyond size of vector" := by
  have hm : j * nr ≤ 2 ^ 31 * 2 ^ 32 := Nat.mul_le_mul (by omega) (by omega)
  have e1 : ((i : Int) + 1 - 1) = i := by omega
  have e2 : ((j : Int) + 1 - 1) = j := by omega
  have b1 : InI32 (i : Int) := by unfold InI32; omega
  have b2 : InI32 (j : Int) := by unfold InI32; omega
  have e3 : wrap64 ((j : Int) * nr + i) = j * nr + i := by
    have := wrap64_small (n := j * nr + i) (by omega)
    push_cast at this
    exact this
  unfold atPosM AtIdx.toInt
  simp only [Out.ass, hmp, ha, if_true, Out.ok_bind, e1, e2, ckI32, if_pos b1, if_pos b2, e3, Out.pure_eq]
  by_cases h : j * nr + i < st.sz
  · rw [if_pos h, if_pos h, Out.ok_bind]
  · rw [if_neg h, if_neg h, Out.thr_bind]

/-- C42 for a matrix, writing: a row and a column in range change the cell in that row and column and nothing else. -/
theorem C42_matrix_write_partial {zero : V} {s : Mach V} (r : Reach zero s) (x : Nat) {nr nc : Nat}
    (hmp : s.env.mp x = ⟨true, nr, nc⟩) (hsz : s.env.size x = nr * nc) {i j : Nat} (hi : i < nr) (hj : j < nc)
    (hlim : nr < 2 ^ 31 - 1 ∧ nc < 2 ^ 31 - 1) (v : V) :
    ∃ s' b, atSetM x (.int (i + 1)) (.int (j + 1)) v s = (.ok (), s') ∧
      (s.st (x, false)).p = some b ∧ s'.env.get x (j * nr + i) = .ok v ∧
      (∀ y, s'.env.size y = s.env.size y) ∧ (∀ k, k ≠ j * nr + i → s'.env.get x k = s.env.get x k) ∧
      (∀ c, c ≠ b → s'.heap.blk c = s.heap.blk c) ∧
      (∀ k, k ≠ j * nr + i → (s'.heap.blk b).cell k = (s.heap.blk b).cell k) := by
  have hlt : j * nr + i < s.env.size x := by rw [hsz]; exact cell_lt hj hi
  obtain ⟨b, hp, _, hl, hlen, ha⟩ := r.inv.access hlt
  have h3 : Mach.exec zero (.setElem x (j * nr + i) v) s = _ := r.inv.setElem v hlt hp
  have e : atSetM x (.int (i + 1)) (.int (j + 1)) v s = exec zero (.setElem x (j * nr + i) v) s := by
    rw [h3]
    unfold atSetM
    rw [M.bind_ok (M.get_apply _), atPosM_eq (st := s.st (x, false)) hmp ha (by omega) (by omega) (by omega), if_pos (show j * nr + i < (s.st (x, false)).sz from hlt),
      M.bind_ok (M.lift_apply _ _), hp, onSlot_apply, heapM_ok _ (Heap.store_some hl (by omega))]
    simp only [Mach.put, Prod.mk.injEq, true_and]
    congr 1
    funext z
    split
    · rename_i h; rw [h]
    · rfl
  rw [e]
  exact (C02_write_partial r x _ v).2 hlt

example : ∃ s', atSetM 0 (.int 1) (.int 2) 4 (runAll (0 : Int) sampleMat start).2 = (.ok (), s') ∧ s'.env.get 0 2 = .ok 4 := by
  obtain ⟨s', _, e, _, h, _⟩ := C42_matrix_write_partial sampleMatReach 0 (nr := 2) (nc := 3) (by decide +kernel) (by decide +kernel)
    (i := 0) (j := 1) (by decide) (by decide) (by decide) 4
  exact ⟨s', e, h⟩

/-- What is checked for a matrix: `at(x, i, j)` is rejected, and nothing modified, exactly if the position `(j - 1) * nrow + i - 1` is not
smaller than the length; so every column behind the last one is rejected, but not every row (`C42_false_row`). -/
theorem C42_matrix_characterised {s : Mach V} (x : Nat) {nr nc : Nat} (hmp : s.env.mp x = ⟨true, nr, nc⟩)
    (hal : (s.st (x, false)).allocated = true) {i j : Nat} (hi : i + 1 < 2 ^ 31) (hj : j + 1 < 2 ^ 31) (hnr : nr < 2 ^ 32) (v : V) :
    (s.env.size x ≤ j * nr + i → (∃ m, s.atGetM x (.int (i + 1)) (.int (j + 1)) = .thr m) ∧
      ∃ m, atSetM x (.int (i + 1)) (.int (j + 1)) v s = (.thr m, s)) ∧
    (j * nr + i < s.env.size x → s.atGetM x (.int (i + 1)) (.int (j + 1)) = s.env.get x (j * nr + i)) := by
  have e := atPosM_eq (st := s.st (x, false)) hmp hal hi hj hnr
  constructor
  · intro h
    rw [if_neg (by have : (s.st (x, false)).sz = s.env.size x := rfl; omega)] at e
    exact ⟨⟨_, by unfold atGetM; rw [e, Out.thr_bind]⟩, _, by unfold atSetM; rw [M.bind_ok (M.get_apply _), e]; rfl⟩
  · intro h
    have hlt' : j * nr + i < (s.st (x, false)).sz := h
    rw [if_pos hlt'] at e
    unfold atGetM
    rw [e, Out.ok_bind]
    exact (get_eq_load hal hlt').symm

example : (∃ m, (runAll (0 : Int) sampleMat start).2.atGetM 0 (.int 1) (.int 4) = .thr m) ∧
    (runAll (0 : Int) sampleMat start).2.atGetM 0 (.int 3) (.int 1) = (runAll (0 : Int) sampleMat start).2.env.get 0 2 :=
  ⟨((C42_matrix_characterised 0 (nr := 2) (nc := 3) (by decide +kernel) (by decide +kernel) (i := 0) (j := 3) (by decide) (by decide)
      (by decide) 0).1 (by decide +kernel)).1,
   (C42_matrix_characterised 0 (nr := 2) (nc := 3) (by decide +kernel) (by decide +kernel) (i := 2) (j := 0) (by decide) (by decide)
      (by decide) 0).2 (by decide +kernel)⟩

/-- C42 for a matrix: a column behind the last one is rejected, with any row, and nothing is modified. -/
theorem C42_matrix_column {s : Mach V} (x : Nat) {nr nc : Nat} (hmp : s.env.mp x = ⟨true, nr, nc⟩)
    (hsz : s.env.size x = nr * nc) (hal : (s.st (x, false)).allocated = true) {i j : Nat} (hi : i + 1 < 2 ^ 31) (hj : j + 1 < 2 ^ 31)
    (hnr : nr < 2 ^ 32) (hc : nc ≤ j) (v : V) :
    (∃ m, s.atGetM x (.int (i + 1)) (.int (j + 1)) = .thr m) ∧ ∃ m, atSetM x (.int (i + 1)) (.int (j + 1)) v s = (.thr m, s) := by
  refine (C42_matrix_characterised x hmp hal hi hj hnr v).1 ?_
  have : nc * nr ≤ j * nr := Nat.mul_le_mul_right _ hc
  rw [hsz, Nat.mul_comm nr nc]
  omega

example : ∃ m, (runAll (0 : Int) sampleMat start).2.atGetM 0 (.int 2) (.int 4) = .thr m :=
  (C42_matrix_column 0 (nr := 2) (nc := 3) (by decide +kernel) (by decide +kernel) (by decide +kernel) (i := 1) (j := 3) (by decide) (by decide)
    (by decide) (by decide) 0).1

/-- C42/C39 for `at`: with `at(m, 3, 1)` the row is not checked: for a 2 x 3 matrix it is the
element in row 1 and column 2, and `at(m, 3, 1) = 9` changes it. -/
theorem C42_false_row :
    ∃ s, Reach (0 : Int) s ∧ s.env.mp 0 = ⟨true, 2, 3⟩ ∧
      s.env.get 0 2 = .ok 12 ∧ s.atGetM 0 (.int 3) (.int 1) = .ok 12 ∧
      (atSetM 0 (.int 3) (.int 1) 9 s).1 = .ok () ∧ (atSetM 0 (.int 3) (.int 1) 9 s).2.env.get 0 2 = .ok 9 :=
  ⟨_, ⟨[.declMatVal 2 3 0, .setElem 0 2 12], 
    .cons (by show _ ≤ _; decide) <| .cons (by show _ < _; decide +kernel) trivial,
    Prod.ext (by decide +kernel) rfl⟩, by decide +kernel, by decide +kernel, by decide +kernel,
    by decide +kernel, by decide +kernel⟩

/-- A 2 x 3 matrix: `at(m, 2, 3) = 9` sets the last element, `at(m, 1, 4)` is rejected; a vector is not a matrix. -/
example : ∃ s, Reach (0 : Int) s ∧ s.env.mp 0 = ⟨true, 2, 3⟩ ∧ s.env.size 0 = 6 ∧ (atSetM 0 (.int 2) (.int 3) 9 s).2.env.get 0 5 = .ok 9 ∧
    (s.atGetM 0 (.int 1) (.int 4)).isOk = false :=
  ⟨_, ⟨[.declMatVal 2 3 0], .cons (by show _ ≤ _; decide) trivial, Prod.ext (by decide +kernel) rfl⟩,
    by decide +kernel, by decide +kernel, by decide +kernel, by decide +kernel⟩

example : ∃ s, Reach (0 : Int) s ∧ s.env.size 0 = 4 ∧ (s.env.mp 0).im = false :=
  ⟨_, sampleReach, by decide +kernel, by decide +kernel⟩

/-- The hypotheses of the theorems above hold in a reachable state; `at(x, 4)` is the last of four elements. -/
example : ∃ s, Reach (0 : Int) s ∧ s.env.size 0 = 4 ∧ s.atGet 0 (.int 4) = .ok 7 ∧
    s.atGet 0 (.dbl (.fin (9 / 2))) = .ok 7 ∧ (s.atGet 0 (.int 0)).isOk = false ∧ (s.atGet 0 (.int 5)).isOk = false ∧
    (atSet 0 (.int 4) 9 s).2.env.get 0 3 = .ok 9 :=
  ⟨_, sampleReach, by decide +kernel, by decide +kernel, by decide +kernel, by decide +kernel, by decide +kernel,
    by decide +kernel⟩

end Mach

/-- C42 for temporaries, subsets and operations: the index counts from 0. -/
theorem C42_temporary_characterised {env : Env V} {e : Expr V} {l : List V} (hd : Denotes env e l)
    (hlen : l.length < 2 ^ 64) {k : Nat} (hk : k < l.length) : atR env e (.int k) = .ok l[k] := by
  unfold atR AtIdx.toInt
  rw [Out.ok_bind, wrap64_small (by omega)]
  exact hd.2 k hk

example : atR (listEnv [[1, 2, (3 : Int)]]) (.bin (fun a b => .ok (a + b)) (.leaf 0) (.scal 10)) (.int ((1 : Nat) : Int)) = .ok 12 :=
  C42_temporary_characterised (l := [11, 12, 13]) ⟨by decide, by decide⟩ (by decide) (k := 1) (by decide)

/-- C42 is false for temporaries: `at(c(5, 6), 1)` is the second element, and `at(c(5, 6), 2)`, the
last element for C42, throws. -/
theorem C42_false_temporary :
    atR (listEnv ([] : List (List Int))) (.rvec [5, 6] {}) (.int 1) = .ok 6 ∧
    atR (listEnv ([] : List (List Int))) (.rvec [5, 6] {}) (.int 2)
      = .thr "Error: out of boundaries --> value beyond size of vector" ∧
    atR (listEnv ([] : List (List Int))) (.rvec [5, 6] {}) (.int 0) = .ok 5 := by
  refine ⟨by decide, by decide, by decide⟩

/-- C42 for temporaries that are not matrices: a row and a column are rejected. -/
theorem C42_temporary_not_matrix {env : Env V} {e : Expr V} (hm : e.im env = false) (r c : AtIdx) : ∃ m, atRM env e r c = .thr m := by
  refine ⟨"Input is not a matrix!", ?_⟩
  unfold atRM
  rw [Out.ass_neg (by rw [hm]; decide), Out.thr_bind]

example : ∃ m, atRM (listEnv [[1, 2, (3 : Int)]]) (.bin (fun a b => .ok (a + b)) (.leaf 0) (.scal 10)) (.int 1) (.int 1) = .thr m :=
  C42_temporary_not_matrix (by decide) _ _

/-- C42 for matrix-valued temporaries: here rows and columns do count from 1. -/
theorem C42_temporary_matrix_partial {env : Env V} {e : Expr V} {nr nc : Nat} {l : List V} (hm : IsMat env e nr nc l)
    {i j : Nat} (hi : i < nr) (hj : j < nc) (hlim : nr < 2 ^ 31 ∧ nc < 2 ^ 31 ∧ nr * nc < 2 ^ 64) :
    some (atRM env e (.int (i + 1)) (.int (j + 1))) = (l[j * nr + i]?).map Out.ok := by
  have hlt := cell_lt hj hi
  have hl : j * nr + i < l.length := by rw [hm.len]; exact hlt
  have e1 : ((i : Int) + 1 - 1) = i := by omega
  have e2 : ((j : Int) + 1 - 1) = j := by omega
  have b1 : InI32 (i : Int) := by unfold InI32; omega
  have b2 : InI32 (j : Int) := by unfold InI32; omega
  have e3 : wrap64 ((j : Int) * nr + i) = j * nr + i := by
    have := wrap64_small (n := j * nr + i) (by omega)
    push_cast at this
    exact this
  unfold atRM AtIdx.toInt
  have hs : j * nr + i < e.size env := by rw [hm.den.1]; exact hl
  simp only [Out.ass, hm.im, if_true, Out.ok_bind, e1, e2, ckI32, if_pos b1, if_pos b2, hm.hnr, e3, if_pos hs]
  rw [hm.den.2 _ hl, List.getElem?_eq_getElem hl]
  rfl

example : atRM mat23 (.leaf 0) (.int 2) (.int 3) = .ok 23 ∧ IsMat mat23 (.leaf 0) 2 3 [11, 21, 12, 22, 13, 23] :=
  ⟨by decide, mat23_isMat⟩

end ETR
