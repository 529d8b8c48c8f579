import Verif.Lemmas.Store
import Verif.Spec.Store

/-! Ownership steps: the effect of an operation of one store on the heap. -/

namespace ETR
namespace Store
variable {V : Type}
open Heap

/-- What an operation of the store `s` may do to the heap: blocks of others are not touched, new
live blocks are owned by the store, the old block is kept or released. -/
structure Step (h : Heap V) (s : Store) (h' : Heap V) (s' : Store) : Prop where
  next_le : h.next ≤ h'.next
  frame : ∀ b, b < h.next → s.p ≠ some b → h'.blk b = h.blk b
  ptr : ∀ b, s'.p = some b → s.p = some b ∨ h.next ≤ b
  drop : ∀ b, s.p = some b → s'.p = some b ∨ (h'.blk b).live = false
  fresh : ∀ b, h.next ≤ b → b < h'.next → s'.p = some b ∨ (h'.blk b).live = false
  sched : h.sched = [] → h'.sched = []

theorem Step.refl (h : Heap V) (s : Store) : Step h s h s :=
  ⟨le_refl _, fun _ _ _ => rfl, fun _ hb => Or.inl hb, fun _ hb => Or.inl hb,
    fun _ h1 h2 => absurd h2 (by omega), id⟩

theorem Step.of_ptr {h : Heap V} {s s' : Store} (hp : s'.p = s.p) : Step h s h s' :=
  ⟨le_refl _, fun _ _ _ => rfl, fun _ hb => Or.inl (hp ▸ hb), fun _ hb => Or.inl (by rw [hp, hb]),
    fun _ h1 h2 => absurd h2 (by omega), id⟩

theorem Step.trans {h h1 h2 : Heap V} {s s1 s2 : Store} (w : Own h s)
    (a : Step h s h1 s1) (b : Step h1 s1 h2 s2) : Step h s h2 s2 := by
  have hne : ∀ x, x < h.next → s.p ≠ some x → s1.p ≠ some x := by
    intro x hx hs hs1
    rcases a.ptr x hs1 with h3 | h3
    · exact hs h3
    · omega
  constructor
  · exact le_trans a.next_le b.next_le
  · intro x hx hs
    rw [b.frame x (lt_of_lt_of_le hx a.next_le) (hne x hx hs), a.frame x hx hs]
  · intro x hx
    rcases b.ptr x hx with h3 | h3
    · exact a.ptr x h3
    · exact Or.inr (le_trans a.next_le h3)
  · intro x hx
    rcases a.drop x hx with h3 | h3
    · exact b.drop x h3
    · by_cases hs1 : s1.p = some x
      · exact b.drop x hs1
      · right
        rw [b.frame x (lt_of_lt_of_le (w.ptr x hx).1 a.next_le) hs1]; exact h3
  · intro x hx hx2
    by_cases h3 : x < h1.next
    · rcases a.fresh x hx h3 with h4 | h4
      · exact b.drop x h4
      · by_cases hs1 : s1.p = some x
        · exact b.drop x hs1
        · right; rw [b.frame x h3 hs1]; exact h4
    · exact b.fresh x (by omega) hx2
  · exact fun e => b.sched (a.sched e)

theorem Step.setCells {h : Heap V} {s : Store} {b : Nat} (hp : s.p = some b)
    (f : Nat → Option V) (s' : Store) (hp' : s'.p = s.p) : Step h s (h.setCells b f) s' := by
  constructor
  · simp
  · intro x _ hs
    exact setCells_ne _ _ (by rintro rfl; exact hs hp)
  · intro x hx; left; rw [← hp']; exact hx
  · intro x hx; left; rw [hp']; exact hx
  · intro x h1 h2; simp at h2; omega
  · simp

theorem Step.addBlk {h : Heap V} {s s' : Store} {x : Block V} (hp : s.p = none)
    (hp' : s'.p = some h.next) : Step h s (h.addBlk x) s' := by
  constructor
  · simp
  · intro b hb _; exact addBlk_lt _ _ hb
  · intro b hb; right; rw [hp'] at hb; simp only [Option.some.injEq] at hb; omega
  · intro b hb; rw [hp] at hb; simp at hb
  · intro b h1 h2; left; simp at h2; rw [hp']; congr 1; omega
  · simp

theorem Step.kill_addBlk {h : Heap V} {s s' : Store} {x : Block V} {b : Nat} (hb : b < h.next)
    (hp : s.p = some b) (hp' : s'.p = some h.next) : Step h s ((h.kill b).addBlk x) s' := by
  constructor
  · simp
  · intro c hc hs
    have : c ≠ b := by rintro rfl; exact hs hp
    rw [addBlk_lt _ _ (by simpa using hc), kill_ne _ this]
  · intro c hc; right; rw [hp'] at hc; simp only [Option.some.injEq] at hc; omega
  · intro c hc
    rw [hp] at hc; simp only [Option.some.injEq] at hc; subst hc
    right
    rw [addBlk_lt _ _ (by simpa using hb), kill_live]
  · intro c h1 h2
    left; simp at h2; rw [hp']; congr 1; omega
  · simp

theorem Step.kill {h : Heap V} {s s' : Store} {b : Nat}
    (hp : s.p = some b) (hp' : s'.p = none) : Step h s (h.kill b) s' := by
  constructor
  · simp
  · intro c hc hs
    have : c ≠ b := by rintro rfl; exact hs hp
    exact kill_ne _ this
  · intro c hc; rw [hp'] at hc; simp at hc
  · intro c hc
    rw [hp] at hc; simp only [Option.some.injEq] at hc; subst hc
    right; exact kill_live _ _
  · intro c h1 h2; simp at h2; omega
  · simp

/-! ### Observed contents -/

theorem cell_of_shows {h : Heap V} {s : Store} {l : List V} {b : Nat} (sh : Shows h s l)
    (w : WF h s) (hp : s.p = some b) {i : Nat} (hi : i < l.length) :
    (h.blk b).cell i = some l[i] := by
  obtain ⟨_, h1, _, h3, _, ha⟩ := w.ptr b hp
  have hz := sh.1
  have := sh.2 i hi
  rw [get_eq_load ha (by omega), hp] at this
  unfold Heap.load at this
  rw [cellAt_some h1 (by omega)] at this
  cases hc : (h.blk b).cell i with
  | none => rw [hc] at this; simp at this
  | some v => rw [hc] at this; simp at this; rw [this]

theorem shows_of_cells {h : Heap V} {s : Store} {l : List V} {b : Nat}
    (w : WF h s) (hp : s.p = some b) (hz : s.sz = l.length)
    (hc : ∀ i (hi : i < l.length), (h.blk b).cell i = some l[i]) : Shows h s l := by
  obtain ⟨_, h1, _, h3, _, ha⟩ := w.ptr b hp
  refine ⟨hz, fun i hi => ?_⟩
  rw [get_eq_load ha (by omega), hp]
  exact load_some h1 (by omega) (hc i hi)

theorem shows_nil {h : Heap V} {s : Store} (hz : s.sz = 0) : Shows h s [] :=
  ⟨hz, fun i hi => absurd hi (by simp)⟩

theorem load_frame {h h' : Heap V} {p : Ptr} (hp : ∀ b, p = some b → h'.blk b = h.blk b) (i : Nat) :
    h'.load p i = h.load p i := by
  cases p with
  | none => rfl
  | some b =>
    unfold Heap.load Heap.cellAt
    simp only [hp b rfl]

theorem get_frame {h h' : Heap V} {s : Store} (hp : ∀ b, s.p = some b → h'.blk b = h.blk b)
    (i : Nat) : s.get h' i = s.get h i := by
  unfold get
  rw [load_frame hp]

/-- Contents of a store are not affected by steps of another store. -/
theorem shows_frame {h h' : Heap V} {s : Store} {l : List V}
    (hp : ∀ b, s.p = some b → h'.blk b = h.blk b)
    (sh : Shows h s l) : Shows h' s l :=
  ⟨sh.1, fun i hi => by rw [get_frame hp]; exact sh.2 i hi⟩

theorem WF.frame {h h' : Heap V} {s : Store} (w : WF h s) (hn : h.next ≤ h'.next)
    (hp : ∀ b, s.p = some b → h'.blk b = h.blk b) : WF h' s := by
  constructor
  · intro b hb
    have := w.ptr b hb
    rw [hp b hb]
    exact ⟨lt_of_lt_of_le this.1 hn, this.2⟩
  · exact w.null

/-! ### push_back -/

theorem wrapI32_small {n : Nat} (h : n < 2 ^ 31) : wrapI32 n = n := by
  unfold wrapI32
  have : n % 4294967296 = n := Nat.mod_eq_of_lt (by omega)
  rw [this]; simp; omega

theorem wrap64_small {n : Nat} (h : n < 2 ^ 64) : wrap64 (n : Int) = n := by
  unfold wrap64 two64
  have : ((n : Int) % ((18446744073709551616 : Nat) : Int)) = n := Int.emod_eq_of_lt (by omega) (by
    omega)
  rw [this]; simp

theorem pushBack_next_spec {zero v : V} {h : Heap V} {s : Store} {l : List V} (hs : h.sched = [])
    (w : WF h s) (sh : Shows h s l) (hcap : s.sz ≤ s.capacity)
    (hlim : s.sz = s.capacity → 116 * (2 * s.sz) < 100 * 2 ^ 31) :
    ∃ h' s', pushBack zero v (h, s) = (.ok (), (h', s')) ∧ WF h' s' ∧ Shows h' s' (l ++ [v]) ∧
      Step h s h' s' ∧ s'.sz ≤ s'.capacity ∧ s'.mp = s.mp ∧
      s'.capacity = (if s.sz = s.capacity then (if s.sz = 0 then 1 else 2 * s.sz)
        else s.capacity) ∧
      h'.next = h.next + (if s.sz = s.capacity then 1 else 0) := by
  have hz := sh.1
  by_cases heq : s.sz = s.capacity
  · -- reallocation
    have hl := hlim heq
    set n := if s.sz = 0 then 1 else 2 * s.sz with hn
    have hn1 : s.sz < n := by rw [hn]; split <;> omega
    have hn2 : 116 * n < 100 * 2 ^ 31 := by rw [hn]; split <;> omega
    obtain ⟨c, ec, _, hc1, hc2⟩ := capOfI32_spec hn2
    -- the state after realloc
    have hre : ∃ h1 : Heap V, ∃ f : Nat → Option V,
        realloc zero (if s.sz = 0 then 1 else (s.sz * 2) % two64) (h, s)
          = (.ok (), (h1.addBlk ⟨c, f, true, true⟩,
              { s with p := some h.next, sz := n, capacity := c, allocated := true })) ∧
          h1.next = h.next ∧
          Step h s (h1.addBlk ⟨c, f, true, true⟩)
            { s with p := some h.next, sz := n, capacity := c, allocated := true } ∧
          ∀ i (hi : i < l.length), f i = some l[i] := by
      have e0 : (if s.sz = 0 then 1 else (s.sz * 2) % two64) = n := by
        rw [hn]
        split
        · rfl
        · rw [Nat.mod_eq_of_lt (by unfold two64; omega)]; omega
      rw [e0]
      cases hp : s.p with
      | none =>
        obtain ⟨hz0, _⟩ := w.null hp
        refine ⟨h, _, realloc_empty hs (by omega) ec hc1 hz0 hp, rfl, Step.addBlk hp rfl, ?_⟩
        intro i hi; omega
      | some b =>
        obtain ⟨hb', h1, h2, h3, _, ha⟩ := w.ptr b hp
        refine ⟨h.kill b, _, realloc_some (f := fun i => (l[i]?).getD zero) hs (by omega) ec hc1
          (by omega) w hp ?_, rfl, Step.kill_addBlk hb' hp rfl, ?_⟩
        · intro i hi
          rw [cell_of_shows sh w hp (by omega : i < l.length)]
          simp [show i < l.length by omega]
        · intro i hi
          simp [show i < s.sz by omega, hi]
    obtain ⟨h1, f, e1, hnx, st1, hf⟩ := hre
    set s1 : Store := { s with p := some h.next, sz := n, capacity := c, allocated := true } with hs1
    have w1 : WF (h1.addBlk ⟨c, f, true, true⟩) s1 := WF.fresh (by rw [hnx]) hc1 (le_refl _) rfl
    have hblk : (h1.addBlk ⟨c, f, true, true⟩).blk h.next = ⟨c, f, true, true⟩ := by
      rw [← hnx, addBlk_same]
    have hres : pushBack zero v (h, s)
        = (.ok (), ((h1.addBlk ⟨c, f, true, true⟩).setCells h.next
            (fun j => if j = s.sz then some v else f j),
            { s1 with capacity := n, sz := s.sz + 1 })) := by
      have ewi : wrap64 (wrapI32 s.sz) = s.sz := by
        rw [wrapI32_small (by omega), wrap64_small (by omega)]
      have ek : ckI32 (wrapI32 s.sz + 1) = .ok ((s.sz : Int) + 1) := by
        rw [wrapI32_small (by omega)]
        unfold ckI32; rw [if_pos]; unfold InI32; omega
      have ew : wrap64 ((s.sz : Int) + 1) = s.sz + 1 := by
        have := @wrap64_small (s.sz + 1) (by omega)
        push_cast at this; exact this
      have est : Heap.store (some h.next) s.sz v (h1.addBlk ⟨c, f, true, true⟩)
          = (.ok (), (h1.addBlk ⟨c, f, true, true⟩).setCells h.next
            (fun j => if j = s.sz then some v else f j)) := by
        rw [store_some (by rw [hblk]) (by rw [hblk]; show s.sz < c; omega), hblk]
      unfold pushBack
      rw [M.bind_ok (self_apply _)]
      rw [if_pos heq, M.bind_ok e1, M.bind_ok (upd_apply _ _), M.bind_ok (self_apply _), ewi, ek]
      rw [M.bind_ok (heapM_ok _ est), M.bind_ok (M.lift_apply _ _), upd_apply, ew]
    refine ⟨_, _, hres, ?_, ?_, ?_, ?_, ?_, ?_, ?_⟩
    · constructor
      · intro b hb
        simp only [hs1, Option.some.injEq] at hb
        subst hb
        simp only [setCells_next, addBlk_next, setCells_live, setCells_newed, setCells_len, hblk, hs1]
        exact ⟨by omega, trivial, trivial, by omega, hc1, trivial⟩
      · intro hb; simp [hs1] at hb
    · refine shows_of_cells (b := h.next) ?_ rfl (by simp [hz]) ?_
      · constructor
        · intro b hb
          simp only [hs1, Option.some.injEq] at hb
          subst hb
          simp only [setCells_next, addBlk_next, setCells_live, setCells_newed, setCells_len, hblk, hs1]
          exact ⟨by omega, trivial, trivial, by omega, hc1, trivial⟩
        · intro hb; simp [hs1] at hb
      · intro i hi
        rw [setCells_cell]
        simp only [List.length_append, List.length_singleton] at hi
        by_cases hi2 : i = s.sz
        · subst hi2
          simp [hz]
        · rw [if_neg hi2, hf i (by omega), List.getElem_append_left (by omega)]
    · exact Step.trans w.own st1 (Step.setCells (by simp [hs1]) _ _ rfl)
    · simp only []; omega
    · rfl
    · simp [heq, hn]
    · simp [heq, hnx]
  · -- room left
    have hlt : s.sz < s.capacity := by omega
    cases hp : s.p with
    | none => exfalso; have := w.null hp; omega
    | some b =>
      obtain ⟨hb', h1, h2, h3, h4, ha⟩ := w.ptr b hp
      have hres : pushBack zero v (h, s)
          = (.ok (), (h.setCells b (fun j => if j = s.sz then some v else (h.blk b).cell j),
              { s with sz := s.sz + 1 })) := by
        unfold pushBack
        simp only [M.bind_apply, self_apply]
        rw [if_neg heq, if_pos hlt]
        simp only [M.bind_apply]
        rw [heapM_apply, hp, store_some h1 (by omega)]
        simp only [upd_apply, hp]
      have w' : WF (h.setCells b (fun j => if j = s.sz then some v else (h.blk b).cell j))
          { s with sz := s.sz + 1 } := by
        constructor
        · intro c hc
          simp only [] at hc
          rw [hp] at hc
          simp only [Option.some.injEq] at hc
          subst hc
          simp only [setCells_next, setCells_live, setCells_newed, setCells_len]
          exact ⟨hb', h1, h2, by omega, h4, ha⟩
        · intro hc; simp only [] at hc; rw [hp] at hc; simp at hc
      refine ⟨_, _, hres, w', ?_, Step.setCells hp _ _ rfl, by simp only []; omega, rfl, by
        simp [heq], by simp [heq]⟩
      refine shows_of_cells (b := b) w' hp (by simp [hz]) ?_
      intro i hi
      rw [setCells_cell]
      simp only [List.length_append, List.length_singleton] at hi
      by_cases hi2 : i = s.sz
      · subst hi2; simp [hz]
      · rw [if_neg hi2, cell_of_shows sh w hp (by omega), List.getElem_append_left (by omega)]

theorem pushBack_spec {zero v : V} {h : Heap V} {s : Store} {l : List V} (hs : h.sched = [])
    (w : WF h s) (sh : Shows h s l) (hcap : s.sz ≤ s.capacity)
    (hlim : s.sz = s.capacity → 116 * (2 * s.sz) < 100 * 2 ^ 31) :
    ∃ h' s', pushBack zero v (h, s) = (.ok (), (h', s')) ∧ WF h' s' ∧ Shows h' s' (l ++ [v]) ∧
      Step h s h' s' ∧ s'.sz ≤ s'.capacity ∧ s'.mp = s.mp ∧
      s'.capacity = (if s.sz = s.capacity then (if s.sz = 0 then 1 else 2 * s.sz)
        else s.capacity) := by
  obtain ⟨h', s', a, b, c, d, e, f, g, _⟩ := pushBack_next_spec (zero := zero) (v := v) hs w sh hcap hlim
  exact ⟨h', s', a, b, c, d, e, f, g⟩

end Store
end ETR
