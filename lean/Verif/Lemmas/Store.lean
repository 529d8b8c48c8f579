import Verif.Lemmas.Heap

/-! Lemmas about `BaseStore` operations: what each of them computes, as equations. -/

namespace ETR
namespace Store
variable {V : Type}
open Heap

theorem heapM_apply {α : Type} (m : M (Heap V) α) (h : Heap V) (s : Store) :
    heapM m (h, s) = ((m h).1, ((m h).2, s)) := rfl
@[simp] theorem self_apply (st : Heap V × Store) : self st = (.ok st.2, st) := rfl
@[simp] theorem upd_apply (f : Store → Store) (st : Heap V × Store) :
    upd f st = (.ok (), (st.1, f st.2)) := rfl

theorem heapM_ok {α : Type} {m : M (Heap V) α} {h h' : Heap V} {a : α} (s : Store)
    (e : m h = (.ok a, h')) : heapM m (h, s) = (.ok a, (h', s)) := by
  rw [heapM_apply, e]

/-- Well-formed store: a non-null pointer designates a live block obtained by `new[]` that covers
size and capacity. -/
structure WF (h : Heap V) (s : Store) : Prop where
  ptr : ∀ b, s.p = some b → b < h.next ∧ (h.blk b).live = true ∧ (h.blk b).newed = true ∧
    s.sz ≤ (h.blk b).len ∧ s.capacity ≤ (h.blk b).len ∧ s.allocated = true
  null : s.p = none → s.sz = 0 ∧ s.capacity = 0

/-- The part of `WF` that does not mention the size (all that is needed of `temp`). -/
structure Own (h : Heap V) (s : Store) : Prop where
  ptr : ∀ b, s.p = some b → b < h.next ∧ (h.blk b).live = true ∧ (h.blk b).newed = true ∧
    s.capacity ≤ (h.blk b).len ∧ s.allocated = true
  null : s.p = none → s.capacity = 0

theorem WF.own {h : Heap V} {s : Store} (w : WF h s) : Own h s := by
  refine ⟨fun b hb => ?_, fun hp => (w.null hp).2⟩
  obtain ⟨h1, h2, h3, _, h5, h6⟩ := w.ptr b hb
  exact ⟨h1, h2, h3, h5, h6⟩

theorem Own.default (h : Heap V) : Own h {} := ⟨by simp, by simp⟩

theorem WF.default (h : Heap V) : WF h {} := ⟨by simp, by simp⟩

/-- A new block designated by the store. -/
theorem WF.fresh {h : Heap V} {c : Nat} {f : Nat → Option V} {s : Store} (hp : s.p = some h.next)
    (h1 : s.sz ≤ c) (h2 : s.capacity ≤ c) (h3 : s.allocated = true) :
    WF (h.addBlk ⟨c, f, true, true⟩) s := by
  constructor
  · intro b hb
    rw [hp] at hb
    simp only [Option.some.injEq] at hb
    subst hb
    simp [h1, h2, h3]
  · intro hn; rw [hp] at hn; exact absurd hn (by simp)

theorem WF.setCells {h : Heap V} {s : Store} (w : WF h s) (b : Nat) (f : Nat → Option V) :
    WF (h.setCells b f) s := by
  constructor
  · intro c hc
    have := w.ptr c hc
    simpa using this
  · exact w.null

theorem get_eq_load {h : Heap V} {s : Store} {i : Nat} (ha : s.allocated = true) (hi : i < s.sz) :
    s.get h i = h.load s.p i := by
  simp [get, checkIdx, ha, hi]

theorem get_of_ge {h : Heap V} {s : Store} {i : Nat} (hi : s.sz ≤ i) :
    ∃ m, s.get h i = .thr m := by
  unfold get checkIdx
  by_cases ha : s.allocated = true
  · exact ⟨_, by rw [Out.ass_pos ha, Out.ok_bind, Out.ass_neg (by omega), Out.thr_bind]⟩
  · exact ⟨_, by rw [Out.ass_neg ha, Out.thr_bind, Out.thr_bind]⟩

theorem set_ok {h : Heap V} {s : Store} {b i : Nat} {v : V} (w : WF h s) (hp : s.p = some b)
    (hi : i < s.sz) :
    set i v (h, s)
      = (.ok (), (h.setCells b (fun j => if j = i then some v else (h.blk b).cell j), s)) := by
  obtain ⟨_, h1, _, h3, _, h5⟩ := w.ptr b hp
  unfold set
  simp only [M.bind_apply, self_apply, M.lift_apply, checkIdx, Out.ass_pos h5, Out.ok_bind,
    Out.ass_pos hi]
  rw [heapM_apply, hp, store_some h1 (by omega)]

theorem set_thr {h : Heap V} {s : Store} {i : Nat} {v : V} (hi : s.sz ≤ i) :
    ∃ m, set i v (h, s) = (.thr m, (h, s)) := by
  unfold set
  by_cases ha : s.allocated = true
  · exact ⟨_, by
      simp only [M.bind_apply, self_apply, M.lift_apply, checkIdx, Out.ass_pos ha, Out.ok_bind,
        Out.ass_neg (show ¬ i < s.sz by omega)]; rfl⟩
  · exact ⟨_, by
      simp only [M.bind_apply, self_apply, M.lift_apply, checkIdx, Out.ass_neg ha, Out.thr_bind]
      rfl⟩

/-- Loop that stores computed values into a block, while the values do not depend on that block. -/
theorem loop_store {h : Heap V} {s : Store} {b n : Nat} {g : Heap V × Store → Nat → Out V}
    {f : Nat → V} (h1 : (h.blk b).live = true) (h2 : n ≤ (h.blk b).len)
    (hg : ∀ i, i < n → ∀ cells, g (h.setCells b cells, s) i = .ok (f i)) :
    M.forN n (fun i => do
        let v ← M.reads (fun st => g st i)
        heapM (Heap.store (some b) i v)) (h, s)
      = (.ok (), (h.setCells b (fun j => if j < n then some (f j) else (h.blk b).cell j), s)) := by
  induction n with
  | zero => simp
  | succ n ih =>
    rw [M.forN_succ, M.bind_ok (ih (by omega) (fun i hi => hg i (by omega)))]
    rw [M.bind_ok (s' := (h.setCells b
      (fun j => if j < n then some (f j) else (h.blk b).cell j), s)) (a := f n)
      (by rw [M.reads_apply, hg n (by omega)])]
    rw [heapM_apply, store_some (by simpa using h1) (by simp only [setCells_len]; omega)]
    simp only [setCells_cell, setCells_setCells]
    congr 3; funext j
    rcases Nat.lt_trichotomy j n with hj | hj | hj
    · simp [hj, show j ≠ n by omega, show j < n + 1 by omega]
    · simp [hj]
    · simp [show ¬ j < n by omega, show j ≠ n by omega, show ¬ j < n + 1 by omega]

theorem loop_const {h : Heap V} {s : Store} {b n k : Nat} {v : V} (h1 : (h.blk b).live = true)
    (h2 : n + k ≤ (h.blk b).len) :
    M.forN k (fun i => heapM (Heap.store (some b) (n + i) v)) (h, s)
      = (.ok (), (h.setCells b
          (fun j => if n ≤ j ∧ j < n + k then some v else (h.blk b).cell j), s)) := by
  induction k with
  | zero =>
    have : ∀ j, ¬ (n ≤ j ∧ j < n + 0) := by omega
    simp only [M.forN_zero, M.pure_apply, if_neg (this _)]
    rw [setCells_self]
  | succ k ih =>
    rw [M.forN_succ, M.bind_ok (ih (by omega))]
    rw [heapM_apply, store_some (by simpa using h1) (by simp only [setCells_len]; omega)]
    simp only [setCells_cell, setCells_setCells]
    congr 3; funext j
    by_cases hj : j = n + k
    · rw [if_pos hj, if_pos (by omega)]
    · rw [if_neg hj]
      by_cases hj2 : n ≤ j ∧ j < n + k
      · rw [if_pos hj2, if_pos (by omega)]
      · rw [if_neg hj2, if_neg (by omega)]

theorem fillScalar_ok {h : Heap V} {s : Store} {b : Nat} {v : V} (hp : s.p = some b)
    (h1 : (h.blk b).live = true) (h2 : s.sz ≤ (h.blk b).len) :
    fillScalar v (h, s)
      = (.ok (), (h.setCells b (fun j => if j < s.sz then some v else (h.blk b).cell j), s)) := by
  unfold fillScalar
  simp only [M.bind_apply, self_apply]
  rw [heapM_apply, hp, fillRange_some h1 h2]

/-! ### resize -/

theorem resize_zero {zero : V} (st : Heap V × Store) :
    resize zero 0 st = (.thr "Size has to be larger than 0", st) := by
  simp [resize, M.bind_apply, M.ass]

theorem resize_keep {zero : V} {h : Heap V} {s : Store} {n : Nat} (hn : 1 ≤ n)
    (ha : s.allocated = true) (hc : n ≤ s.capacity) :
    resize zero n (h, s) = (.ok (), (h, { s with sz := n })) := by
  unfold resize
  simp only [M.bind_apply, M.ass, M.lift_apply, Out.ass_pos hn, self_apply]
  rw [if_neg (by simp [ha]), if_neg (by omega)]
  rfl

theorem resize_null {zero : V} {h : Heap V} {s : Store} {n : Nat} (hn : 1 ≤ n)
    (ha : s.allocated = true) (hc : s.capacity < n) (hp : s.p = none) :
    resize zero n (h, s) = (.thr "try to delete nullptr", (h, s)) := by
  unfold resize
  simp only [M.bind_apply, M.ass, M.lift_apply, Out.ass_pos hn, self_apply]
  rw [if_neg (by simp [ha]), if_pos hc]
  simp [M.bind_apply, hp]

/-- Block that a growing `resize` leaves behind. -/
def zeroBlk (zero : V) (c n : Nat) : Block V :=
  ⟨c, fun j => if j < n then some zero else none, true, true⟩

theorem resize_fresh {zero : V} {h : Heap V} {s : Store} {n c : Nat} (hs : h.sched = [])
    (hn : 1 ≤ n) (hb : c < 2 ^ 60) (hc : capOf n = .ok c) (hnc : n ≤ c)
    (ha : s.allocated = false) :
    resize zero n (h, s)
      = (.ok (), (h.addBlk (zeroBlk zero c n),
          { s with p := some h.next, sz := n, capacity := c, allocated := true })) := by
  unfold resize
  simp only [M.bind_apply, M.ass, M.lift_apply, Out.ass_pos hn, self_apply]
  rw [if_pos (by simp [ha])]
  simp only [init, M.bind_apply, self_apply, ha, Bool.false_eq_true, if_false,
    upd_apply, hc, M.lift_apply]
  rw [heapM_apply, new_ok hs hb]
  simp only []
  rw [fillScalar_ok (b := h.next) rfl (by simp) (by simp [hnc])]
  simp [zeroBlk]

theorem resize_grow {zero : V} {h : Heap V} {s : Store} {n c b : Nat} (hs : h.sched = [])
    (hn : 1 ≤ n) (hb : c < 2 ^ 60) (hc : capOf n = .ok c) (hnc : n ≤ c)
    (w : Own h s) (hp : s.p = some b) (hg : s.capacity < n) :
    resize zero n (h, s)
      = (.ok (), ((h.kill b).addBlk (zeroBlk zero c n),
          { s with p := some h.next, sz := n, capacity := c, allocated := true })) := by
  obtain ⟨_, h1, h2, _, ha⟩ := w.ptr b hp
  unfold resize
  simp only [M.bind_apply, M.ass, M.lift_apply, Out.ass_pos hn, self_apply]
  rw [if_neg (by simp [ha]), if_pos hg]
  have : s.p ≠ none := by simp [hp]
  simp only [M.bind_apply, Out.ass_pos this, M.lift_apply]
  rw [heapM_apply, hp, delete_some h2 h1]
  simp only [hc, upd_apply]
  rw [heapM_apply, new_ok (by simpa using hs) hb]
  simp only []
  rw [fillScalar_ok (b := h.next) rfl (by
    rw [show h.next = (h.kill b).next from rfl, addBlk_same]) (by
    rw [show h.next = (h.kill b).next from rfl, addBlk_same]; exact hnc)]
  rw [show h.next = (h.kill b).next from rfl, addBlk_setCells, addBlk_same]
  simp [zeroBlk]

/-! ### construction, copy, destruction -/

theorem ctorSize_ok {zero : V} {h : Heap V} {s : Store} {n c : Nat} (hs : h.sched = [])
    (hn : 1 ≤ n) (hb : c < 2 ^ 60) (hc : capOf n = .ok c) :
    ctorSize zero n (h, s)
      = (.ok (), (h.addBlk (zeroBlk zero c c),
          { s with p := some h.next, sz := n, capacity := c, allocated := true })) := by
  unfold ctorSize
  simp only [M.bind_apply, hc, M.lift_apply, upd_apply, M.ass, Out.ass_pos (show n > 0 by omega)]
  rw [heapM_apply, new_ok hs hb]
  simp only []
  rw [heapM_apply, fillRange_some (by simp) (by simp)]
  simp [zeroBlk]

theorem ctorSize_zero {zero : V} {h : Heap V} {s : Store} :
    ctorSize zero 0 (h, s)
      = (.thr "Size has to be larger than 0", (h, { s with sz := 0, capacity := 0 })) := by
  unfold ctorSize
  simp [M.bind_apply, capOf_zero, M.ass]

theorem copyCtor_unalloc {h : Heap V} {s other : Store} (ha : other.allocated = false) :
    copyCtor other (h, s)
      = (.ok (), (h, { s with sz := other.sz, capacity := other.capacity,
                              allocated := false })) := by
  simp [copyCtor, M.bind_apply, ha]

theorem copyCtor_some {h : Heap V} {s other : Store} {b : Nat} (hs : h.sched = [])
    (w : Own h other) (hp : other.p = some b) (hcap : other.capacity < 2 ^ 60) :
    copyCtor other (h, s)
      = (.ok (), (h.addBlk ⟨other.capacity, fun j => if j < other.capacity
              then (h.blk b).cell j else none, true, true⟩,
          { s with p := some h.next, sz := other.sz, capacity := other.capacity,
                   allocated := true })) := by
  obtain ⟨hb, h1, h2, h4, ha⟩ := w.ptr b hp
  unfold copyCtor
  simp only [M.bind_apply, upd_apply, ha, if_true]
  rw [heapM_apply, new_ok hs hcap]
  simp only []
  rw [heapM_apply, hp, copyRange_some (by omega) (by rw [addBlk_lt _ _ hb]; exact h1)
    (by rw [addBlk_lt _ _ hb]; exact h4) (by simp) (by simp)]
  rw [addBlk_lt _ _ hb]
  simp

theorem copyCtor_null {h : Heap V} {s other : Store} (hs : h.sched = [])
    (ha : other.allocated = true) (hcap : other.capacity = 0) :
    copyCtor other (h, s)
      = (.ok (), (h.addBlk ⟨0, fun _ => none, true, true⟩,
          { s with p := some h.next, sz := other.sz, capacity := 0,
                   allocated := true })) := by
  unfold copyCtor
  simp only [M.bind_apply, upd_apply, ha, if_true, hcap]
  rw [heapM_apply, new_ok hs (by norm_num)]
  simp only []
  rw [heapM_apply, copyRange_zero]

theorem dtor_some {h : Heap V} {s : Store} {b : Nat} (w : Own h s) (hp : s.p = some b) :
    dtor (h, s) = (.ok (), (h.kill b, { s with sz := 0, capacity := 0, p := none,
                                               allocated := false })) := by
  obtain ⟨_, h1, h2, _, ha⟩ := w.ptr b hp
  unfold dtor
  simp only [M.bind_apply, self_apply]
  rw [if_pos (by simp [hp]), if_pos ha]
  simp only [M.bind_apply]
  rw [heapM_apply, hp, delete_some h2 h1]
  rfl

theorem dtor_none {h : Heap V} {s : Store} (hp : s.p = none) :
    dtor (h, s) = (.ok (), (h, s)) := by
  simp [dtor, M.bind_apply, hp]

/-! ### realloc and push_back -/

/-- `realloc` on a store whose first `sz` cells are initialised (with `f`). -/
theorem realloc_some {zero : V} {h : Heap V} {s : Store} {n c b : Nat} {f : Nat → V}
    (hs : h.sched = []) (hb : c < 2 ^ 60) (hc : capOfI32 n = .ok c) (hnc : n ≤ c)
    (hsn : s.sz ≤ n) (w : WF h s) (hp : s.p = some b)
    (hf : ∀ i, i < s.sz → (h.blk b).cell i = some (f i)) :
    realloc zero n (h, s)
      = (.ok (), ((h.kill b).addBlk ⟨c, fun j => if j < s.sz then some (f j)
              else if j < n then some zero else none, true, true⟩,
          { s with p := some h.next, sz := n, capacity := c, allocated := true })) := by
  obtain ⟨hb', h1, h2, h3, _, ha⟩ := w.ptr b hp
  unfold realloc
  simp only [M.bind_apply, hc, M.lift_apply, upd_apply]
  rw [heapM_apply, new_ok hs hb]
  simp only [self_apply]
  rw [loop_store (f := f) (by simp) (by simp; omega)]
  · simp only []
    rw [addBlk_setCells]
    rw [loop_const (by simp) (by simp; omega)]
    simp only [addBlk_setCells, addBlk_same]
    rw [heapM_apply, hp, delete_some (by rw [addBlk_lt _ _ hb']; exact h2)
      (by rw [addBlk_lt _ _ hb']; exact h1)]
    simp only []
    congr 2
    apply ext'
    · intro x
      rw [kill, addBlk_lt _ _ hb', setBlk_blk, addBlk_blk, addBlk_blk]
      have e : (h.kill b).next = h.next := rfl
      rw [e]
      by_cases hx : x = b
      · subst hx
        rw [if_pos rfl, if_neg (by omega), kill, setBlk_same]
      · rw [if_neg hx]
        by_cases hx2 : x = h.next
        · rw [if_pos hx2, if_pos hx2]
          congr 1; funext j
          by_cases hj : j < s.sz
          · rw [if_neg (by omega), if_pos hj, if_pos hj]
          · by_cases hj2 : j < n
            · rw [if_pos (by omega), if_neg hj, if_pos hj2]
            · rw [if_neg (by omega), if_neg hj, if_neg hj, if_neg hj2]
        · rw [if_neg hx2, if_neg hx2, kill_ne _ hx]
    · rfl
    · rfl
  · intro i hi cells
    have e := setCells_ne (h.addBlk ⟨c, fun _ => none, true, true⟩) cells
      (show b ≠ h.next by omega)
    rw [addBlk_lt _ _ hb'] at e
    rw [hp]
    exact load_some (by rw [e]; exact h1) (by rw [e]; omega) (by rw [e]; exact hf i hi)

theorem realloc_empty {zero : V} {h : Heap V} {s : Store} {n c : Nat}
    (hs : h.sched = []) (hb : c < 2 ^ 60) (hc : capOfI32 n = .ok c) (hnc : n ≤ c)
    (hsz : s.sz = 0) (hp : s.p = none) :
    realloc zero n (h, s)
      = (.ok (), (h.addBlk (zeroBlk zero c n),
          { s with p := some h.next, sz := n, capacity := c, allocated := true })) := by
  unfold realloc
  simp only [M.bind_apply, hc, M.lift_apply, upd_apply]
  rw [heapM_apply, new_ok hs hb]
  simp only [self_apply, hsz, M.forN_zero, M.pure_apply]
  rw [loop_const (by simp) (by simp; omega)]
  simp only [addBlk_setCells, addBlk_same]
  rw [heapM_apply, hp, delete_none]
  simp [zeroBlk]

end Store
end ETR
