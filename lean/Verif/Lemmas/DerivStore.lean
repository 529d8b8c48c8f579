import Verif.Lemmas.Deriv
import Verif.Lemmas.Store

/-! The vectors of the derivative model and the stores of the heap model behave in the same way. -/

namespace ETR
variable {T : Type}

/-- The store represents the vector: same fields, and the memory of the capacity has the same cells. -/
structure Buf.Rep (h : Heap T) (s : Store) (b : Buf T) : Prop where
  sz : s.sz = b.sz
  al : s.allocated = b.allocated
  mp : s.mp = b.mp
  cap : s.capacity = b.cells.length
  le : b.sz ≤ b.cells.length
  ptr : ∀ a, s.p = some a → a < h.next ∧ (h.blk a).live = true ∧ (h.blk a).newed = true ∧
    (h.blk a).len = b.cells.length ∧ (∀ i, i < b.cells.length → b.cells[i]? = some ((h.blk a).cell i)) ∧ b.allocated = true
  null : s.p = none → b.cells = [] ∧ b.allocated = false

/-- Blocks other than the one of the store are kept. -/
def Heap.KeepsOthers (h h' : Heap T) (s : Store) : Prop :=
  h.next ≤ h'.next ∧ h'.sched = h.sched ∧ ∀ c, c < h.next → s.p ≠ some c → h'.blk c = h.blk c

namespace Buf.Rep
variable {h : Heap T} {s : Store} {b : Buf T}

theorem default (h : Heap T) : Rep h {} {} := ⟨rfl, rfl, rfl, rfl, le_refl _, by simp, fun _ => ⟨rfl, rfl⟩⟩

theorem wf (r : Rep h s b) : Store.WF h s := by
  refine ⟨?_, ?_⟩
  · intro a ha
    obtain ⟨h1, h2, h3, h4, _, h6⟩ := r.ptr a ha
    exact ⟨h1, h2, h3, by rw [h4, r.sz]; exact r.le, by rw [h4, r.cap], by rw [r.al, h6]⟩
  · intro hp
    obtain ⟨h1, _⟩ := r.null hp
    have := r.le
    rw [h1] at this
    refine ⟨by rw [r.sz]; simpa using this, by rw [r.cap, h1]; rfl⟩

theorem get (r : Rep h s b) (i : Nat) : s.get h i = b.get i := by
  unfold Store.get Store.checkIdx Buf.get Buf.check
  rw [r.al, r.sz]
  by_cases ha : b.allocated = true
  · by_cases hi : i < b.sz
    · rw [Out.ass_pos ha, Out.ass_pos hi, Out.ok_bind, Out.ok_bind]
      rcases hp : s.p with _ | a
      · have := (r.null hp).2; rw [ha] at this; cases this
      · obtain ⟨_, h2, _, h4, h5, _⟩ := r.ptr a hp
        have hic : i < b.cells.length := lt_of_lt_of_le hi r.le
        rw [Heap.load, Heap.cellAt_some h2 (by omega), h5 i hic]
        rcases (h.blk a).cell i with _ | v <;> rfl
    · rw [Out.ass_pos ha, Out.ass_neg hi]
      rfl
  · rw [Out.ass_neg ha]
    rfl

theorem set (r : Rep h s b) (i : Nat) (v : T) : ∃ h', Store.set i v (h, s) = ((Buf.set i v b).1, (h', s)) ∧
    Rep h' s (Buf.set i v b).2 ∧ h.KeepsOthers h' s := by
  by_cases hc : b.allocated = true ∧ i < b.sz
  · rcases hp : s.p with _ | a
    · have := (r.null hp).2; rw [hc.1] at this; cases this
    · obtain ⟨h1, h2, h3, h4, h5, h6⟩ := r.ptr a hp
      have e := Store.set_ok (v := v) r.wf hp (by rw [r.sz]; exact hc.2)
      rw [Buf.set_ok v ⟨hc.1, rfl, r.le⟩ hc.2]
      refine ⟨_, e, ⟨r.sz, r.al, r.mp, by simpa using r.cap, by simpa using r.le, ?_, ?_⟩, by simp [Heap.setCells, Heap.setBlk], rfl, ?_⟩
      · intro a' ha'
        rw [hp] at ha'
        cases ha'
        refine ⟨by simpa using h1, by simpa using h2, by simpa using h3, by simpa using h4, ?_, h6⟩
        intro j hj
        simp only [List.length_set] at hj
        rw [Heap.setCells_cell]
        by_cases hji : j = i
        · subst hji; simp [hj]
        · rw [List.getElem?_set_ne (Ne.symm hji), h5 j hj, if_neg hji]
      · intro hn; rw [hp] at hn; cases hn
      · intro c _ hne
        refine Heap.setCells_ne _ _ ?_
        intro e'
        rw [e'] at hne
        exact hne hp
  · have hthr : ∃ m, Buf.set i v b = (.thr m, b) ∧ Store.set i v (h, s) = (.thr m, (h, s)) := by
      unfold Buf.set Buf.check Store.set
      by_cases ha : b.allocated = true
      · refine ⟨_, by rw [Out.ass_pos ha, Out.ok_bind, Out.ass_neg (fun h => hc ⟨ha, h⟩)], ?_⟩
        simp only [M.bind_apply, Store.self_apply, M.lift_apply, Store.checkIdx, r.al, r.sz, Out.ass_pos ha, Out.ok_bind,
          Out.ass_neg (show ¬ i < b.sz from fun h => hc ⟨ha, h⟩)]
      · refine ⟨_, by rw [Out.ass_neg ha]; rfl, ?_⟩
        simp only [M.bind_apply, Store.self_apply, M.lift_apply, Store.checkIdx, r.al, Out.ass_neg ha, Out.thr_bind]
    obtain ⟨m, e1, e2⟩ := hthr
    rw [e1]
    exact ⟨h, e2, r, le_refl _, rfl, fun _ _ _ => rfl⟩

theorem resize (r : Rep h s b) (hs : h.sched = []) (zero : T) {n : Nat} (hn : n ≤ 2 ^ 59) :
    ∃ h' s', Store.resize zero n (h, s) = ((Buf.resize zero n b).1, (h', s')) ∧
    Rep h' s' (Buf.resize zero n b).2 ∧ h.KeepsOthers h' s := by
  by_cases h1 : n < 1
  · have : n = 0 := by omega
    subst this
    rw [Store.resize_zero, Buf.resize, if_pos (by omega)]
    exact ⟨h, s, rfl, r, le_refl _, rfl, fun _ _ _ => rfl⟩
  unfold Buf.resize
  rw [if_neg h1]
  obtain ⟨c, e, hlo, hhi⟩ := capOf_spec (n := n) (by omega)
  have cells : ∀ i, i < (List.replicate n (some zero) ++ List.replicate (c - n) none).length →
      (List.replicate n (some zero) ++ List.replicate (c - n) none)[i]? = some (if i < n then some zero else none) := by
    intro i hi
    simp only [List.length_append, List.length_replicate] at hi
    by_cases hin : i < n
    · rw [List.getElem?_append_left (by simpa using hin), if_pos hin]
      simp [hin]
    · rw [List.getElem?_append_right (by simpa using hin), if_neg hin]
      rw [List.getElem?_replicate, if_pos (by simp only [List.length_replicate]; omega)]
  by_cases hc : b.allocated = true ∧ n ≤ b.cells.length
  · rw [if_pos hc]
    refine ⟨h, _, Store.resize_keep (by omega) (by rw [r.al, hc.1]) (by rw [r.cap]; exact hc.2), ?_, le_refl _, rfl, fun _ _ _ => rfl⟩
    exact ⟨rfl, r.al, r.mp, r.cap, hc.2, r.ptr, r.null⟩
  · rw [if_neg hc, e]
    simp only []
    rw [if_neg (by omega), if_neg (by omega)]
    by_cases ha : b.allocated = true
    · rcases hp : s.p with _ | a
      · have := (r.null hp).2; rw [ha] at this; cases this
      · refine ⟨_, _, Store.resize_grow hs (by omega) (by omega) e hlo r.wf.own hp (by rw [r.cap]; by_contra hcc; exact hc ⟨ha, by omega⟩), ?_, ?_⟩
        · refine ⟨rfl, rfl, r.mp, by simp; omega, by simp, ?_, by simp⟩
          intro a' ha'
          cases ha'
          have hz : (((h.kill a).addBlk (Store.zeroBlk zero c n)).blk h.next) = Store.zeroBlk zero c n := by
            have := Heap.addBlk_same (h.kill a) (Store.zeroBlk zero c n)
            simpa using this
          rw [hz]
          refine ⟨by simp, rfl, rfl, by simp [Store.zeroBlk]; omega, ?_, rfl⟩
          intro i hi
          exact cells i hi
        · refine ⟨by simp, by simp, ?_⟩
          intro d hd hne
          rw [Heap.addBlk_lt _ _ (by simpa using hd), Heap.kill_ne _ (by intro e'; rw [e'] at hne; exact hne hp)]
    · have ha' : b.allocated = false := by simpa using ha
      refine ⟨_, _, Store.resize_fresh hs (by omega) (by omega) e hlo (by rw [r.al, ha']), ?_, ?_⟩
      · refine ⟨rfl, rfl, r.mp, by simp; omega, by simp, ?_, by simp⟩
        intro a' ha'
        cases ha'
        rw [Heap.addBlk_same]
        refine ⟨by simp, rfl, rfl, by simp [Store.zeroBlk]; omega, ?_, rfl⟩
        intro i hi
        exact cells i hi
      · refine ⟨by simp, by simp, ?_⟩
        intro d hd _
        exact Heap.addBlk_lt _ _ hd

theorem fill (r : Rep h s b) (hal : b.allocated = true) (v : T) :
    ∃ h', Store.fillScalar v (h, s) = ((Buf.fill v b).1, (h', s)) ∧ Rep h' s (Buf.fill v b).2 ∧ h.KeepsOthers h' s := by
  rcases hp : s.p with _ | a
  · have := (r.null hp).2; rw [hal] at this; cases this
  · obtain ⟨h1, h2, h3, h4, h5, h6⟩ := r.ptr a hp
    have hle := r.le
    unfold Buf.fill
    rw [if_neg (by omega), Store.fillScalar_ok hp h2 (by rw [r.sz, h4]; exact hle)]
    refine ⟨_, rfl, ⟨r.sz, r.al, r.mp, by simp [r.cap]; omega, by simp, ?_, ?_⟩, by simp [Heap.setCells, Heap.setBlk], rfl, ?_⟩
    · intro a' ha'
      rw [hp] at ha'
      cases ha'
      refine ⟨by simpa using h1, by simpa using h2, by simpa using h3, by simp [h4]; omega, ?_, h6⟩
      intro j hj
      simp only [List.length_append, List.length_replicate, List.length_drop] at hj
      rw [Heap.setCells_cell, r.sz]
      by_cases hjs : j < b.sz
      · rw [List.getElem?_append_left (by simpa using hjs), if_pos hjs]
        simp [hjs]
      · rw [List.getElem?_append_right (by simpa using hjs), if_neg hjs]
        simp only [List.length_replicate, List.getElem?_drop]
        rw [← h5 j (by omega)]
        congr 1
        omega
    · intro hn; rw [hp] at hn; cases hn
    · intro c _ hne
      refine Heap.setCells_ne _ _ ?_
      intro e'
      rw [e'] at hne
      exact hne hp

/-- A vector in another block is not affected. -/
theorem frame {h' : Heap T} {s' : Store} (r : Rep h s b) (k : h.KeepsOthers h' s')
    (hne : ∀ a, s.p = some a → s'.p ≠ some a) : Rep h' s b := by
  refine ⟨r.sz, r.al, r.mp, r.cap, r.le, ?_, r.null⟩
  intro a ha
  have h1 := (r.ptr a ha).1
  rw [k.2.2 a h1 (hne a ha)]
  exact ⟨lt_of_lt_of_le h1 k.1, (r.ptr a ha).2⟩

end Buf.Rep
end ETR
