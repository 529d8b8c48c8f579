import Verif.Lemmas.Step

/-! Functional specifications of the store operations (no allocation fault). -/

namespace ETR
namespace Store
variable {V : Type}
open Heap

theorem shows_zeroBlk {zero : V} {h : Heap V} {s : Store} {c n : Nat} (hp : s.p = some h.next)
    (hz : s.sz = n) (hc : s.capacity ≤ c) (hn : n ≤ c) (ha : s.allocated = true) :
    Shows (h.addBlk (zeroBlk zero c n)) s (List.replicate n zero) := by
  refine shows_of_cells (b := h.next) (WF.fresh hp (by omega) hc ha) hp (by simp [hz]) ?_
  intro i hi
  rw [addBlk_same]
  simp only [List.length_replicate] at hi
  simp [zeroBlk, hi]

/-- `resize` of a store that owns its memory. -/
theorem resize_spec {zero : V} {h : Heap V} {s : Store} {n : Nat} (hs : h.sched = [])
    (w : Own h s) (hal : s.allocated = true → s.p ≠ none) (h1 : 1 ≤ n) (h2 : n ≤ 2 ^ 59) :
    ∃ h' s', resize zero n (h, s) = (.ok (), (h', s')) ∧ WF h' s' ∧ Step h s h' s' ∧
      s'.sz = n ∧ s'.allocated = true ∧ s'.mp = s.mp ∧ n ≤ s'.capacity ∧
      (n ≤ s.capacity → h' = h ∧ s' = { s with sz := n }) ∧
      (s.capacity < n → 100 * s'.capacity ≤ 116 * n ∧ Shows h' s' (List.replicate n zero)) := by
  obtain ⟨c, ec, hc1, hc2⟩ := capOf_spec (n := n) (by omega)
  cases hp : s.p with
  | none =>
    have hc0 := w.null hp
    have ha : s.allocated = false := by
      cases ha : s.allocated with
      | false => rfl
      | true => exact absurd hp (hal ha)
    refine ⟨_, _, resize_fresh hs h1 (by omega) ec hc1 ha, WF.fresh rfl hc1 (le_refl _) rfl,
      Step.addBlk hp rfl, rfl, rfl, rfl, hc1, fun h => by omega, fun _ => ⟨hc2, ?_⟩⟩
    exact shows_zeroBlk rfl rfl (le_refl _) hc1 rfl
  | some b =>
    obtain ⟨hb, hl, hnw, hlen, ha⟩ := w.ptr b hp
    by_cases hk : n ≤ s.capacity
    · refine ⟨_, _, resize_keep h1 ha hk, ?_, Step.of_ptr rfl, rfl, ha, rfl, hk,
        fun _ => ⟨rfl, by rw [hp]⟩, fun h => by omega⟩
      constructor
      · intro b' hb'
        simp only [] at hb'
        obtain ⟨a1, a2, a3, a4, a5⟩ := w.ptr b' hb'
        exact ⟨a1, a2, a3, by simp only []; omega, a4, a5⟩
      · intro hp'; simp only [] at hp'; rw [hp] at hp'; simp at hp'
    · refine ⟨_, _, resize_grow hs h1 (by omega) ec hc1 w hp (by omega),
        WF.fresh rfl hc1 (le_refl _) rfl, Step.kill_addBlk hb hp rfl, rfl, rfl, rfl, hc1,
        fun h => by omega, fun _ => ⟨hc2, ?_⟩⟩
      exact shows_zeroBlk rfl rfl (le_refl _) hc1 rfl

theorem get_spec_lt {h : Heap V} {s : Store} {i : Nat} (w : WF h s) (hi : i < s.sz) :
    ∃ b, s.p = some b ∧ s.get h i = h.load (some b) i ∧
      h.cellAt (some b) i = .ok ((h.blk b).cell i) := by
  cases hp : s.p with
  | none => have := w.null hp; omega
  | some b =>
    obtain ⟨_, h1, _, h3, _, ha⟩ := w.ptr b hp
    exact ⟨b, rfl, by rw [get_eq_load ha hi, hp], cellAt_some h1 (by omega)⟩

/-- Element write. -/
theorem set_spec {h : Heap V} {s : Store} {l : List V} {i : Nat} {v : V} (w : WF h s)
    (sh : Shows h s l) (hi : i < l.length) :
    ∃ h', set i v (h, s) = (.ok (), (h', s)) ∧ WF h' s ∧ Shows h' s (l.set i v) ∧
      Step h s h' s := by
  have hz := sh.1
  cases hp : s.p with
  | none => have := w.null hp; omega
  | some b =>
    refine ⟨_, set_ok w hp (by omega), w.setCells _ _, ?_, Step.setCells hp _ _ rfl⟩
    refine shows_of_cells (w.setCells _ _) hp (by simp [hz]) ?_
    intro j hj
    simp only [List.length_set] at hj
    rw [setCells_cell]
    by_cases hji : j = i
    · subst hji; simp
    · rw [if_neg hji, cell_of_shows sh w hp hj, List.getElem_set_ne (by omega)]

theorem fillScalar_spec {h : Heap V} {s : Store} {v : V} (w : WF h s) :
    ∃ h', fillScalar v (h, s) = (.ok (), (h', s)) ∧ WF h' s ∧
      Shows h' s (List.replicate s.sz v) ∧ Step h s h' s := by
  cases hp : s.p with
  | none =>
    obtain ⟨hz, _⟩ := w.null hp
    refine ⟨h, ?_, w, ?_, Step.refl _ _⟩
    · unfold fillScalar
      rw [M.bind_ok (self_apply _), heapM_apply]
      simp [hz]
    · rw [hz]; exact shows_nil hz
  | some b =>
    obtain ⟨_, h1, _, h3, _, ha⟩ := w.ptr b hp
    refine ⟨_, fillScalar_ok hp h1 h3, w.setCells _ _, ?_, Step.setCells hp _ _ rfl⟩
    refine shows_of_cells (w.setCells _ _) hp (by simp) ?_
    intro j hj
    simp only [List.length_replicate] at hj
    rw [setCells_cell]
    simp [hj]

/-- The loop `for (i < n) p[i] = f(i)` when `f` does not read the written block. -/
theorem loop_shows {h : Heap V} {s : Store} {b : Nat} {g : Heap V × Store → Nat → Out V}
    {l : List V} (w : WF h s) (hp : s.p = some b) (hz : s.sz = l.length)
    (hg : ∀ i (hi : i < l.length), ∀ cells, g (h.setCells b cells, s) i = .ok l[i]) :
    ∃ h', M.forN s.sz (fun i => do
        let v ← M.reads (fun st => g st i)
        heapM (Heap.store s.p i v)) (h, s) = (.ok (), (h', s)) ∧ WF h' s ∧ Shows h' s l ∧
      Step h s h' s := by
  obtain ⟨_, h1, _, h3, _, ha⟩ := w.ptr b hp
  rcases Nat.eq_zero_or_pos s.sz with h0 | hpos
  · refine ⟨h, by rw [h0]; rfl, w, ?_, Step.refl _ _⟩
    have : l = [] := List.length_eq_zero_iff.mp (by omega)
    subst this
    exact shows_nil h0
  · have hne : l ≠ [] := by intro hl; subst hl; simp at hz; omega
    have d : V := l.head hne
    refine ⟨_, ?_, w.setCells _ _, ?_, Step.setCells hp (fun j => if j < s.sz then
        some ((l[j]?).getD d) else (h.blk b).cell j) _ rfl⟩
    · rw [hp]
      refine loop_store (g := g) (f := fun i => (l[i]?).getD d) h1 h3 ?_
      intro i hi cells
      rw [hg i (by omega)]
      simp [show i < l.length by omega]
    · refine shows_of_cells (w.setCells _ _) hp hz ?_
      intro j hj
      rw [setCells_cell]
      simp [show j < s.sz by omega, hj]

/-- Copy constructor on a default object, for a source whose capacity covers its size. -/
theorem copyCtor_spec {h : Heap V} {other : Store} {l : List V} (hs : h.sched = [])
    (w : WF h other) (sh : Shows h other l) (hal : other.allocated = true → other.p ≠ none)
    (hc : other.sz ≤ other.capacity) (hcap : other.capacity < 2 ^ 60) :
    ∃ h' s', copyCtor other (h, ({} : Store)) = (.ok (), (h', s')) ∧ WF h' s' ∧ Shows h' s' l ∧
      Step h {} h' s' ∧ s'.sz = other.sz ∧ s'.capacity = other.capacity ∧
      s'.mp = ({} : MP) ∧ (∀ b, b < h.next → h'.blk b = h.blk b) ∧
      (s'.allocated = true → s'.p ≠ none) := by
  have hz := sh.1
  cases hp : other.p with
  | none =>
    obtain ⟨hz0, hc0⟩ := w.null hp
    have ha : other.allocated = false := by
      cases ha : other.allocated with
      | false => rfl
      | true => exact absurd hp (hal ha)
    refine ⟨_, _, copyCtor_unalloc ha, ?_, ?_, Step.of_ptr rfl, rfl, rfl, rfl, fun _ _ => rfl,
      by simp⟩
    · exact ⟨by simp, by simp [hz0, hc0]⟩
    · have : l = [] := List.length_eq_zero_iff.mp (by omega)
      subst this
      exact shows_nil hz0
  | some b =>
    obtain ⟨hb, h1, h2, h3, h4, ha⟩ := w.ptr b hp
    refine ⟨_, _, copyCtor_some hs w.own hp hcap, WF.fresh rfl hc (le_refl _) rfl, ?_,
      Step.addBlk rfl rfl, rfl, rfl, rfl, fun b hb => addBlk_lt _ _ hb, by simp⟩
    refine shows_of_cells (b := h.next) (WF.fresh rfl hc (le_refl _) rfl) rfl hz ?_
    intro i hi
    rw [addBlk_same]
    simp only [show i < other.capacity by omega, if_true]
    exact cell_of_shows sh w hp hi

/-- Store assignment from a source that is at least as long. -/
theorem assign_spec {zero : V} {h : Heap V} {s other : Store} {l l0 : List V} (hs : h.sched = [])
    (w : WF h s) (sh0 : Shows h s l0) (w' : WF h other) (sh : Shows h other l)
    (hal : s.allocated = true → s.p ≠ none)
    (hsep : ∀ b, other.p = some b → s.p ≠ some b) (hlen : s.sz ≤ other.sz)
    (hlim : 116 * other.sz < 100 * 2 ^ 31) :
    ∃ h' s', assign zero other (h, s) = (.ok (), (h', s')) ∧ WF h' s' ∧ Shows h' s' l ∧
      Step h s h' s' ∧ Shows h' other l ∧ s'.mp = s.mp := by
  have hz := sh.1
  -- first phase: the target gets the size of the source
  have key : ∃ h1 s1, (do
      let s ← self
      if other.sz > s.sz then
        if s.allocated then
          realloc zero (s.sz + (other.sz - s.sz))
        else
          resize zero other.sz : SM V Unit) (h, s) = (.ok (), (h1, s1)) ∧ WF h1 s1 ∧
        s1.sz = other.sz ∧ Step h s h1 s1 ∧ s1.mp = s.mp := by
    rw [M.bind_ok (self_apply _)]
    by_cases hgt : other.sz > s.sz
    · rw [if_pos hgt]
      have e : s.sz + (other.sz - s.sz) = other.sz := by omega
      cases hp : s.p with
      | none =>
        have ha : s.allocated = false := by
          cases ha : s.allocated with
          | false => rfl
          | true => exact absurd hp (hal ha)
        rw [if_neg (by simp [ha])]
        obtain ⟨h1, s1, e1, w1, st1, z1, _, m1, _⟩ :=
          resize_spec (zero := zero) (n := other.sz) hs w.own hal (by omega) (by omega)
        exact ⟨h1, s1, e1, w1, z1, st1, m1⟩
      | some b =>
        obtain ⟨hb, hl, hnw, hz3, _, ha⟩ := w.ptr b hp
        rw [if_pos ha, e]
        obtain ⟨c, ec, _, hc1, hc2⟩ := capOfI32_spec hlim
        have hz0 := sh0.1
        refine ⟨_, _, realloc_some (f := fun i => (l0[i]?).getD zero) hs (by omega) ec hc1
          (by omega) w hp ?_, WF.fresh rfl hc1 (le_refl _) rfl, rfl,
          Step.kill_addBlk hb hp rfl, rfl⟩
        intro i hi
        rw [cell_of_shows sh0 w hp (by omega)]
        simp [show i < l0.length by omega]
    · rw [if_neg hgt]
      exact ⟨h, s, rfl, w, by omega, Step.refl _ _, rfl⟩
  obtain ⟨h1, s1, e1, w1, z1, st1, m1⟩ := key
  -- the source is still intact
  have hfr : ∀ b, other.p = some b → h1.blk b = h.blk b := fun b hb =>
    st1.frame b (w'.ptr b hb).1 (hsep b hb)
  have sho : Shows h1 other l := shows_frame hfr sh
  have wo : WF h1 other := w'.frame st1.next_le hfr
  have hsplit : assign zero other (h, s) = (do
      let s ← self
      M.forN s.sz (fun i => do
        let v ← M.reads (fun st => other.get st.1 i)
        heapM (Heap.store s.p i v)) : SM V Unit) (h1, s1) := by
    have : assign zero other = ((do
      let s ← self
      if other.sz > s.sz then
        if s.allocated then
          realloc zero (s.sz + (other.sz - s.sz))
        else
          resize zero other.sz : SM V Unit) >>= fun _ => do
      let s ← self
      M.forN s.sz (fun i => do
        let v ← M.reads (fun st => other.get st.1 i)
        heapM (Heap.store s.p i v))) := by
      unfold assign
      rw [bind_assoc]
      congr 1
      funext s0
      by_cases c1 : other.sz > s0.sz
      · by_cases c2 : s0.allocated = true
        · rw [if_pos c1, if_pos c1, if_pos c2, if_pos c2]
        · rw [if_pos c1, if_pos c1, if_neg c2, if_neg c2]
      · rw [if_neg c1, if_neg c1, pure_bind]
    rw [this, M.bind_ok e1]
  rw [hsplit, M.bind_ok (self_apply _)]
  simp only []
  cases hp1 : s1.p with
  | none =>
    obtain ⟨hz1, _⟩ := w1.null hp1
    have : l = [] := List.length_eq_zero_iff.mp (by omega)
    subst this
    refine ⟨h1, s1, by rw [hz1]; rfl, w1, shows_nil hz1, st1, sho, m1⟩
  | some b1 =>
    have hb1 : other.p ≠ some b1 := by
      intro ho
      rcases st1.ptr b1 hp1 with h3 | h3
      · exact hsep b1 ho h3
      · have := (w'.ptr b1 ho).1; omega
    obtain ⟨h2, e2, w2, sh2, st2⟩ := loop_shows (g := fun st i => other.get st.1 i) (l := l)
      w1 hp1 (by omega) (by
        intro i hi cells
        rw [get_frame (h := h1) (fun b hb => setCells_ne _ _ (by rintro rfl; exact hb1 hb))]
        exact sho.2 i hi)
    refine ⟨h2, s1, by rw [hp1] at e2; exact e2, w2, sh2, Step.trans w.own st1 st2, ?_, m1⟩
    refine shows_frame (h := h1) (fun b hb => ?_) sho
    exact st2.frame b (wo.ptr b hb).1 (by rw [hp1]; rintro ⟨rfl⟩; exact hb1 hb)

theorem fillVec_thr {h : Heap V} {s other : Store} (hne : other.sz ≠ s.sz) :
    fillVec other (h, s)
      = (.thr "cannot use fill with vectors of different lengths", (h, s)) := by
  unfold fillVec fillLoop
  rw [M.bind_ok (self_apply _)]
  simp [M.bind_apply, M.ass, hne]

/-- Reading does not notice changes in other cells. -/
theorem get_setCells {h : Heap V} {o : Store} {b i : Nat} {f : Nat → Option V} (hf : f i = (h.blk b).cell i) :
    o.get (h.setCells b f) i = o.get h i := by
  unfold Store.get
  congr 1
  funext _
  unfold Heap.load Heap.cellAt
  cases o.p with
  | none => rfl
  | some c =>
    simp only [setCells_live, setCells_len]
    by_cases hc : c = b
    · subst hc; rw [setCells_cell, hf]
    · rw [setCells_ne _ _ hc]

/-- The element loop writes the elements that the source shows, also if both use the same memory. -/
theorem fillVec_cells {h : Heap V} {s other : Store} {l : List V} {b : Nat} (hp : s.p = some b) (h1 : (h.blk b).live = true)
    (h2 : s.sz ≤ (h.blk b).len) (sh : Shows h other l) (hz : other.sz = s.sz) :
    fillVec other (h, s) = (.ok (), (h.setCells b (fun j => if j < s.sz then l[j]? else (h.blk b).cell j), s)) := by
  unfold fillVec fillLoop
  rw [M.bind_ok (self_apply _), M.bind_ok (s' := (h, s)) (a := ()) (by simp [M.ass, hz])]
  simp only [hp]
  have hl := sh.1
  have key : ∀ n, n ≤ s.sz → M.forN n (fun i => do
        let v ← M.reads (fun st : Heap V × Store => other.get st.1 i)
        heapM (Heap.store (some b) i v)) (h, s)
      = (.ok (), (h.setCells b (fun j => if j < n then l[j]? else (h.blk b).cell j), s)) := by
    intro n
    induction n with
    | zero => intro _; simp
    | succ n ih =>
      intro hn
      rw [M.forN_succ, M.bind_ok (ih (by omega))]
      have hr : other.get (h.setCells b (fun j => if j < n then l[j]? else (h.blk b).cell j)) n = .ok (l[n]'(by omega)) := by
        rw [get_setCells (by simp)]
        exact sh.2 n (by omega)
      rw [M.bind_ok (s' := (h.setCells b (fun j => if j < n then l[j]? else (h.blk b).cell j), s)) (a := l[n]'(by omega))
        (by simp only [M.reads_apply, hr]),
        heapM_ok _ (store_some (by simpa using h1) (by simp only [setCells_len]; omega))]
      simp only [setCells_cell, setCells_setCells]
      congr 3; funext j
      rcases Nat.lt_trichotomy j n with hj | hj | hj
      · simp [hj, show j ≠ n by omega, show j < n + 1 by omega]
      · subst hj
        simp [show j < l.length by omega]
      · simp [show ¬ j < n by omega, show j ≠ n by omega, show ¬ j < n + 1 by omega]
  exact key _ (le_refl _)

theorem fillVec_nil {h : Heap V} {s other : Store} (hz : other.sz = s.sz) (h0 : s.sz = 0) : fillVec other (h, s) = (.ok (), (h, s)) := by
  unfold fillVec fillLoop
  rw [M.bind_ok (self_apply _), M.bind_ok (s' := (h, s)) (a := ()) (by simp [M.ass, hz]), h0]
  rfl

theorem fillVec_spec {h : Heap V} {s other : Store} {l : List V}
    (w : WF h s) (sh : Shows h other l) (hlen : other.sz = s.sz) :
    ∃ h', fillVec other (h, s) = (.ok (), (h', s)) ∧ WF h' s ∧ Shows h' s l ∧ Step h s h' s := by
  have hz := sh.1
  cases hp : s.p with
  | none =>
    obtain ⟨hz0, _⟩ := w.null hp
    have : l = [] := List.length_eq_zero_iff.mp (by omega)
    subst this
    exact ⟨h, fillVec_nil hlen hz0, w, shows_nil hz0, Step.refl _ _⟩
  | some b =>
    obtain ⟨_, h1, _, h3, _, ha⟩ := w.ptr b hp
    refine ⟨_, fillVec_cells hp h1 h3 sh hlen, w.setCells _ _, ?_, Step.setCells hp _ _ rfl⟩
    refine shows_of_cells (w.setCells _ _) hp (by omega) ?_
    intro i hi
    rw [setCells_cell]
    simp [show i < s.sz by omega, hi]

end Store
end ETR
