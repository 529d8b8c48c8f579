import Verif.Lemmas.Cap

/-! Lemmas about the memory model. -/

namespace ETR
namespace Heap
variable {V : Type}

@[simp] theorem setBlk_next (h : Heap V) (b : Nat) (x : Block V) : (h.setBlk b x).next = h.next := rfl
@[simp] theorem setBlk_sched (h : Heap V) (b : Nat) (x : Block V) :
    (h.setBlk b x).sched = h.sched := rfl
@[simp] theorem setBlk_same (h : Heap V) (b : Nat) (x : Block V) : (h.setBlk b x).blk b = x := by
  simp [setBlk]
theorem setBlk_ne (h : Heap V) {b c : Nat} (x : Block V) (hc : c ≠ b) :
    (h.setBlk b x).blk c = h.blk c := by
  simp [setBlk, hc]
theorem setBlk_blk (h : Heap V) (b c : Nat) (x : Block V) :
    (h.setBlk b x).blk c = if c = b then x else h.blk c := rfl
@[simp] theorem setBlk_setBlk (h : Heap V) (b : Nat) (x y : Block V) :
    (h.setBlk b x).setBlk b y = h.setBlk b y := by
  unfold setBlk; congr 1; funext c; dsimp only; split <;> rfl
@[simp] theorem setBlk_self (h : Heap V) (b : Nat) : h.setBlk b (h.blk b) = h := by
  cases h with
  | mk blk next sched =>
    unfold setBlk; congr 1; funext c; dsimp only; split
    · subst_vars; rfl
    · rfl

theorem ext' {h h' : Heap V} (h1 : ∀ b, h.blk b = h'.blk b) (h2 : h.next = h'.next)
    (h3 : h.sched = h'.sched) : h = h' := by
  cases h; cases h'
  simp only at h1 h2 h3
  subst h2; subst h3
  congr 1; funext b; exact h1 b

/-- The heap with one more block. -/
def addBlk (h : Heap V) (x : Block V) : Heap V := { h.setBlk h.next x with next := h.next + 1 }

@[simp] theorem addBlk_next (h : Heap V) (x : Block V) : (h.addBlk x).next = h.next + 1 := rfl
@[simp] theorem addBlk_sched (h : Heap V) (x : Block V) : (h.addBlk x).sched = h.sched := rfl
@[simp] theorem addBlk_same (h : Heap V) (x : Block V) : (h.addBlk x).blk h.next = x := by
  simp [addBlk, setBlk]
theorem addBlk_ne (h : Heap V) (x : Block V) {c : Nat} (hc : c ≠ h.next) :
    (h.addBlk x).blk c = h.blk c := by simp [addBlk, setBlk, hc]
theorem addBlk_lt (h : Heap V) (x : Block V) {c : Nat} (hc : c < h.next) :
    (h.addBlk x).blk c = h.blk c := addBlk_ne h x (by omega)
theorem addBlk_blk (h : Heap V) (x : Block V) (c : Nat) :
    (h.addBlk x).blk c = if c = h.next then x else h.blk c := rfl
@[simp] theorem addBlk_setBlk (h : Heap V) (x y : Block V) :
    (h.addBlk x).setBlk h.next y = h.addBlk y := by
  apply ext'
  · intro b; simp only [setBlk_blk, addBlk_blk]; split <;> rfl
  · rfl
  · rfl

/-- The heap after freeing a block. -/
def kill (h : Heap V) (b : Nat) : Heap V := h.setBlk b { h.blk b with live := false }

@[simp] theorem kill_next (h : Heap V) (b : Nat) : (h.kill b).next = h.next := rfl
@[simp] theorem kill_sched (h : Heap V) (b : Nat) : (h.kill b).sched = h.sched := rfl
theorem kill_ne (h : Heap V) {b c : Nat} (hc : c ≠ b) : (h.kill b).blk c = h.blk c := setBlk_ne _ _ hc
@[simp] theorem kill_live (h : Heap V) (b : Nat) : ((h.kill b).blk b).live = false := by simp [kill]

/-- Overwrite the cells of a block. -/
def setCells (h : Heap V) (b : Nat) (f : Nat → Option V) : Heap V :=
  h.setBlk b { h.blk b with cell := f }

@[simp] theorem setCells_next (h : Heap V) (b : Nat) (f : Nat → Option V) :
    (h.setCells b f).next = h.next := rfl
@[simp] theorem setCells_sched (h : Heap V) (b : Nat) (f : Nat → Option V) :
    (h.setCells b f).sched = h.sched := rfl
@[simp] theorem setCells_live (h : Heap V) (b : Nat) (f : Nat → Option V) (c : Nat) :
    ((h.setCells b f).blk c).live = (h.blk c).live := by
  simp only [setCells, setBlk_blk]; split
  · subst_vars; rfl
  · rfl
@[simp] theorem setCells_newed (h : Heap V) (b : Nat) (f : Nat → Option V) (c : Nat) :
    ((h.setCells b f).blk c).newed = (h.blk c).newed := by
  simp only [setCells, setBlk_blk]; split
  · subst_vars; rfl
  · rfl
@[simp] theorem setCells_len (h : Heap V) (b : Nat) (f : Nat → Option V) (c : Nat) :
    ((h.setCells b f).blk c).len = (h.blk c).len := by
  simp only [setCells, setBlk_blk]; split
  · subst_vars; rfl
  · rfl
@[simp] theorem setCells_cell (h : Heap V) (b : Nat) (f : Nat → Option V) :
    ((h.setCells b f).blk b).cell = f := by simp [setCells]
theorem setCells_ne (h : Heap V) {b c : Nat} (f : Nat → Option V) (hc : c ≠ b) :
    (h.setCells b f).blk c = h.blk c := setBlk_ne _ _ hc
@[simp] theorem setCells_setCells (h : Heap V) (b : Nat) (f g : Nat → Option V) :
    (h.setCells b f).setCells b g = h.setCells b g := by
  simp [setCells]
@[simp] theorem setCells_self (h : Heap V) (b : Nat) : h.setCells b (h.blk b).cell = h :=
  setBlk_self h b
@[simp] theorem addBlk_setCells (h : Heap V) (x : Block V) (f : Nat → Option V) :
    (h.addBlk x).setCells h.next f = h.addBlk { x with cell := f } := by
  simp [setCells]

/-- Allocation succeeds when no fault is scheduled and the request is below `2^60` elements. -/
theorem new_ok {h : Heap V} {n : Nat} (hs : h.sched = []) (hn : n < 2 ^ 60) :
    new n h = (.ok h.next, h.addBlk ⟨n, fun _ => none, true, true⟩) := by
  unfold new
  rw [if_neg (by omega), hs]
  simp only [List.tail_nil]
  congr 1
  apply ext'
  · intro b; rfl
  · rfl
  · exact hs.symm

theorem delete_some {h : Heap V} {b : Nat} (h1 : (h.blk b).newed = true)
    (h2 : (h.blk b).live = true) : delete (some b) h = (.ok (), h.kill b) := by
  simp [delete, h1, h2, kill]

@[simp] theorem delete_none (h : Heap V) : delete none h = (.ok (), h) := rfl

theorem cellAt_some {h : Heap V} {b i : Nat} (h1 : (h.blk b).live = true)
    (h2 : i < (h.blk b).len) : h.cellAt (some b) i = .ok ((h.blk b).cell i) := by
  simp [cellAt, h1, h2]

theorem load_some {h : Heap V} {b i : Nat} {v : V} (h1 : (h.blk b).live = true)
    (h2 : i < (h.blk b).len) (h3 : (h.blk b).cell i = some v) : h.load (some b) i = .ok v := by
  simp [load, cellAt_some h1 h2, h3]

theorem putCell_some {h : Heap V} {b i : Nat} {v : Option V} (h1 : (h.blk b).live = true)
    (h2 : i < (h.blk b).len) :
    putCell (some b) i v h
      = (.ok (), h.setCells b (fun j => if j = i then v else (h.blk b).cell j)) := by
  simp [putCell, h1, h2, setCells]

theorem store_some {h : Heap V} {b i : Nat} {v : V} (h1 : (h.blk b).live = true)
    (h2 : i < (h.blk b).len) :
    store (some b) i v h
      = (.ok (), h.setCells b (fun j => if j = i then some v else (h.blk b).cell j)) :=
  putCell_some h1 h2

theorem fillRange_some {h : Heap V} {b n : Nat} {v : V} (h1 : (h.blk b).live = true)
    (h2 : n ≤ (h.blk b).len) :
    fillRange (some b) n v h
      = (.ok (), h.setCells b (fun j => if j < n then some v else (h.blk b).cell j)) := by
  unfold fillRange
  induction n with
  | zero => simp
  | succ n ih =>
    rw [M.forN_succ, M.bind_ok (ih (by omega)), store_some (by simpa using h1) (by simp only [setCells_len]; omega)]
    simp only [setCells_cell, setCells_setCells]
    congr 2; funext j
    rcases Nat.lt_trichotomy j n with hj | hj | hj
    · simp [hj, show j ≠ n by omega, show j < n + 1 by omega]
    · simp [hj]
    · simp [show ¬ j < n by omega, show j ≠ n by omega, show ¬ j < n + 1 by omega]

@[simp] theorem fillRange_zero (h : Heap V) (p : Ptr) (v : V) : fillRange p 0 v h = (.ok (), h) := rfl

theorem copyRange_some {h : Heap V} {b d n : Nat} (hne : b ≠ d) (h1 : (h.blk b).live = true)
    (h2 : n ≤ (h.blk b).len) (h3 : (h.blk d).live = true) (h4 : n ≤ (h.blk d).len) :
    copyRange (some b) n (some d) h
      = (.ok (), h.setCells d (fun j => if j < n then (h.blk b).cell j else (h.blk d).cell j)) := by
  unfold copyRange
  induction n with
  | zero => simp
  | succ n ih =>
    rw [M.forN_succ, M.bind_ok (ih (by omega) (by omega))]
    have hb := setCells_ne h (b := d) (c := b)
      (fun j => if j < n then (h.blk b).cell j else (h.blk d).cell j) hne
    rw [M.bind_ok (s' := h.setCells d
      (fun j => if j < n then (h.blk b).cell j else (h.blk d).cell j)) (a := (h.blk b).cell n)]
    · rw [putCell_some (by simpa using h3) (by simp only [setCells_len]; omega)]
      simp only [setCells_cell, setCells_setCells]
      congr 2; funext j
      rcases Nat.lt_trichotomy j n with hj | hj | hj
      · simp [hj, show j ≠ n by omega, show j < n + 1 by omega]
      · simp [hj]
      · simp [show ¬ j < n by omega, show j ≠ n by omega, show ¬ j < n + 1 by omega]
    · simp only [M.reads_apply]
      rw [cellAt_some (by rw [hb]; exact h1) (by rw [hb]; omega), hb]

@[simp] theorem copyRange_zero (h : Heap V) (p q : Ptr) : copyRange p 0 q h = (.ok (), h) := rfl

end Heap
end ETR
