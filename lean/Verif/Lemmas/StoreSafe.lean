import Verif.Lemmas.StoreSpec

/-! Memory safety of the store operations in every state that can arise (also with indeterminate
elements), for sizes up to `2^30`. -/

namespace ETR
namespace Store
variable {V : Type}
open Heap

/-- Invariant of the data member `d` of a `Buffer` vector. -/
structure DInv (h : Heap V) (s : Store) : Prop where
  wf : WF h s
  al : s.allocated = true → s.p ≠ none
  sz : s.sz ≤ 2 ^ 30
  cap : s.capacity < 2 ^ 31

theorem DInv.default (h : Heap V) : DInv h {} := ⟨WF.default h, by simp, by simp, by simp⟩

/-- The state keeps the invariant and the heap changes only as the store may change it. -/
def Keeps (h0 : Heap V) (s0 : Store) (st : Heap V × Store) : Prop :=
  DInv st.1 st.2 ∧ Step h0 s0 st.1 st.2

theorem DInv.alloc_false {h : Heap V} {s : Store} (i : DInv h s) (hp : s.p = none) :
    s.allocated = false := by
  cases ha : s.allocated with
  | false => rfl
  | true => exact absurd hp (i.al ha)

theorem resize_safe {zero : V} {h : Heap V} {s : Store} {n : Nat} (hs : h.sched = [])
    (i : DInv h s) (hn : n ≤ 2 ^ 30) :
    M.Safe (fun st => st = (h, s)) (resize zero n) (fun _ st => Keeps h s st ∧ st.2.sz = n ∧
      st.2.p ≠ none) (Keeps h s) := by
  rintro _ rfl
  rcases Nat.eq_zero_or_pos n with h0 | h1
  · subst h0; rw [resize_zero]; exact ⟨i, Step.refl _ _⟩
  · obtain ⟨h', s', e, w, st, z, a, _, _, k, g⟩ := resize_spec (zero := zero) hs i.wf.own i.al h1
      (by omega)
    rw [e]
    have hp : s'.p ≠ none := by intro hp; have := w.null hp; omega
    refine ⟨⟨⟨w, fun _ => hp, by simp only []; omega, ?_⟩, st⟩, z, hp⟩
    simp only []
    by_cases hk : n ≤ s.capacity
    · rw [(k hk).2]; exact i.cap
    · have := (g (by omega)).1; omega

/-- `temp.resize`: the old size does not matter; a null pointer with the flag set is rejected. -/
theorem resize_temp_safe {zero : V} {h : Heap V} {s : Store} {n : Nat} (hs : h.sched = [])
    (o : Own h s) (hc : s.capacity < 2 ^ 31) (hn : n ≤ 2 ^ 30) :
    M.Safe (fun st => st = (h, s)) (resize zero n) (fun _ st => Keeps h s st ∧ st.2.sz = n ∧
      st.2.p ≠ none ∧ st.2.allocated = true) (fun st => st = (h, s)) := by
  rintro _ rfl
  rcases Nat.eq_zero_or_pos n with h0 | h1
  · subst h0; rw [resize_zero]
  · by_cases hal : s.allocated = true → s.p ≠ none
    · obtain ⟨h', s', e, w, st, z, a, _, _, k, g⟩ := resize_spec (zero := zero) hs o hal h1
        (by omega)
      rw [e]
      have hp : s'.p ≠ none := by intro hp; have := w.null hp; omega
      refine ⟨⟨⟨w, fun _ => hp, by simp only []; omega, ?_⟩, st⟩, z, hp, a⟩
      simp only []
      by_cases hk : n ≤ s.capacity
      · rw [(k hk).2]; exact hc
      · have := (g (by omega)).1; omega
    · have ha : s.allocated = true ∧ s.p = none := by
        by_contra hcon; apply hal; intro h1 h2; exact hcon ⟨h1, h2⟩
      have := o.null ha.2
      rw [resize_null h1 ha.1 (by omega) ha.2]

theorem set_safe {h : Heap V} {s : Store} {j : Nat} {v : V} (i : DInv h s) :
    M.Safe (fun st => st = (h, s)) (set j v) (fun _ st => Keeps h s st ∧ st.2 = s)
      (fun st => st = (h, s)) := by
  rintro _ rfl
  by_cases hj : j < s.sz
  · cases hp : s.p with
    | none => have := i.wf.null hp; omega
    | some b =>
      rw [set_ok i.wf hp hj]
      exact ⟨⟨⟨i.wf.setCells _ _, i.al, i.sz, i.cap⟩, Step.setCells hp _ _ rfl⟩, rfl⟩
  · obtain ⟨m, e⟩ := set_thr (h := h) (s := s) (i := j) (v := v) (by omega)
    rw [e]

theorem fillScalar_safe {h : Heap V} {s : Store} {v : V} (i : DInv h s) :
    M.Safe (fun st => st = (h, s)) (fillScalar v) (fun _ st => Keeps h s st ∧ st.2 = s)
      (fun _ => False) := by
  rintro _ rfl
  obtain ⟨h', e, w, _, st⟩ := fillScalar_spec (v := v) i.wf
  rw [e]
  exact ⟨⟨⟨w, i.al, i.sz, i.cap⟩, st⟩, rfl⟩

theorem load_no_memory {h : Heap V} {b i : Nat} (h1 : (h.blk b).live = true)
    (h2 : i < (h.blk b).len) (k : UB) (e : h.load (some b) i = .ub k) : k.memory = false := by
  unfold Heap.load at e
  rw [cellAt_some h1 h2] at e
  cases hc : (h.blk b).cell i with
  | none => rw [hc] at e; simp only [Out.ub.injEq] at e; subst e; rfl
  | some v => rw [hc] at e; simp at e

/-- `operator[]` never makes a memory error. -/
theorem get_no_memory {h : Heap V} {s : Store} (w : WF h s) (i : Nat) (k : UB)
    (e : s.get h i = .ub k) : k.memory = false := by
  by_cases hi : i < s.sz
  · obtain ⟨b, hp, e1, _⟩ := get_spec_lt w hi
    rw [e1] at e
    obtain ⟨_, h1, _, h3, _, _⟩ := w.ptr b hp
    exact load_no_memory h1 (by omega) k e
  · obtain ⟨m, e1⟩ := get_of_ge (h := h) (s := s) (i := i) (by omega)
    rw [e1] at e; simp at e

/-- `realloc` in any state. -/
theorem realloc_safe {zero : V} {h : Heap V} {s : Store} {n : Nat} (hs : h.sched = [])
    (i : DInv h s) (hn : 116 * n < 100 * 2 ^ 31) (hsn : s.sz ≤ n) :
    M.Safe (fun st => st = (h, s)) (realloc zero n)
      (fun _ st => ∃ c, n ≤ c ∧ 100 * c ≤ 116 * n ∧ (st.1.blk h.next).live = true ∧
        (st.1.blk h.next).newed = true ∧ (st.1.blk h.next).len = c ∧ h.next < st.1.next ∧
        Step h s st.1 st.2 ∧
        st.2 = { s with p := some h.next, sz := n, capacity := c, allocated := true })
      (fun _ => False) := by
  obtain ⟨c, ec, _, hc1, hc2⟩ := capOfI32_spec hn
  unfold realloc
  let J : Heap V × Store → Prop := fun st => ∃ cells,
    st = (h.addBlk ⟨c, cells, true, true⟩, { s with capacity := c })
  -- capacity and new block
  refine M.Safe.bind (R := fun a st => st = (h, s) ∧ a = c) ?_ ?_
  · rintro _ rfl; rw [M.lift_apply, ec]; exact ⟨rfl, rfl⟩
  intro c'
  refine M.Safe.bind (R := fun _ st => st = (h, { s with capacity := c }) ∧ c' = c) ?_ ?_
  · rintro _ ⟨rfl, rfl⟩; rw [upd_apply]; exact ⟨rfl, rfl⟩
  intro _
  refine M.Safe.bind (R := fun b st => J st ∧ b = h.next) ?_ ?_
  · rintro _ ⟨rfl, rfl⟩
    rw [heapM_apply, new_ok hs (by omega)]
    exact ⟨⟨_, rfl⟩, rfl⟩
  intro b
  refine M.Safe.bind (R := fun s1 st => J st ∧ b = h.next ∧ s1 = { s with capacity := c }) ?_ ?_
  · rintro _ ⟨⟨cells, rfl⟩, rfl⟩
    rw [self_apply]
    exact ⟨⟨cells, rfl⟩, rfl, rfl⟩
  intro s1
  refine M.Safe.fix ?_
  rintro st0 ⟨hJ0, rfl, rfl⟩
  -- writing to the new block keeps `J`
  have hstore : ∀ (j : Nat) (v : V), j < c → M.Safe J (heapM (Heap.store (some h.next) j v))
      (fun _ => J) (fun _ => False) := by
    rintro j v hj _ ⟨cells, rfl⟩
    rw [heapM_apply, store_some (by simp) (by simpa using hj)]
    exact ⟨fun i => if i = j then some v else cells i, by simp⟩
  refine M.Safe.conseq (P := J) ?_ (by rintro _ rfl; exact hJ0) (fun _ _ h => h) (fun _ h => h)
  refine M.Safe.bind (R := fun _ => J) ?_ ?_
  · refine M.Safe.forN (I := fun _ => J) _ ?_
    intro j hj
    simp only [] at hj
    refine M.Safe.bind (R := fun _ => J) ?_ (fun v => hstore j v (by omega))
    rintro _ ⟨cells, rfl⟩
    rw [M.reads_apply]
    cases hp : s.p with
    | none => have := i.wf.null hp; omega
    | some b =>
      obtain ⟨hb, h1, _, h3, _, _⟩ := i.wf.ptr b hp
      have hbb : (h.addBlk ⟨c, cells, true, true⟩).blk b = h.blk b := addBlk_lt _ _ hb
      rcases hf : (h.addBlk ⟨c, cells, true, true⟩).load (some b) j with a | m | k
      · exact ⟨cells, by rw [hp]⟩
      · exfalso
        unfold Heap.load at hf
        rw [cellAt_some (by rw [hbb]; exact h1) (by rw [hbb]; omega)] at hf
        split at hf <;> simp_all
      · exact load_no_memory (b := b) (by rw [hbb]; exact h1) (by rw [hbb]; omega) k hf
  intro _
  refine M.Safe.bind (R := fun _ => J) ?_ ?_
  · refine M.Safe.forN (I := fun _ => J) _ ?_
    intro j hj
    simp only [] at hj ⊢
    exact hstore _ _ (by omega)
  intro _
  rintro _ ⟨cells, rfl⟩
  rw [M.bind_apply, heapM_apply]
  cases hp : s.p with
  | none =>
    simp only [Heap.delete_none, upd_apply]
    refine ⟨c, hc1, hc2, by simp, by simp, by simp, by simp, Step.addBlk hp rfl, ?_⟩
    rfl
  | some b =>
    obtain ⟨hb, h1, h2, h3, _, _⟩ := i.wf.ptr b hp
    have hbb : (h.addBlk ⟨c, cells, true, true⟩).blk b = h.blk b := addBlk_lt _ _ hb
    simp only []
    rw [delete_some (by rw [hbb]; exact h2) (by rw [hbb]; exact h1)]
    simp only [upd_apply]
    have hne : h.next ≠ b := by omega
    refine ⟨c, hc1, hc2, by rw [kill_ne _ hne]; simp, by rw [kill_ne _ hne]; simp,
      by rw [kill_ne _ hne]; simp, by simp, ?_, rfl⟩
    have : (h.addBlk ⟨c, cells, true, true⟩).kill b = (h.kill b).addBlk ⟨c, cells, true, true⟩ := by
      apply ext'
      · intro x
        by_cases hx : x = b
        · subst hx
          rw [addBlk_lt _ _ (by simpa using hb)]
          simp only [Heap.kill, setBlk_same, hbb]
        · rw [kill_ne _ hx]
          by_cases hx2 : x = h.next
          · subst hx2; rw [addBlk_same]
            rw [show h.next = (h.kill b).next from rfl, addBlk_same]
          · rw [addBlk_ne _ _ hx2, addBlk_ne _ _ (by simpa using hx2), kill_ne _ hx]
      · rfl
      · rfl
    rw [this]
    exact Step.kill_addBlk hb hp rfl

theorem pushBack_safe {zero v : V} {h : Heap V} {s : Store} (hs : h.sched = [])
    (i : DInv h s) (hlim : s.sz < 2 ^ 29) :
    M.Safe (fun st => st = (h, s)) (pushBack zero v) (fun _ => Keeps h s) (Keeps h s) := by
  unfold pushBack
  refine M.Safe.bind (R := fun a st => a = s ∧ st = (h, s)) ?_ ?_
  · rintro _ rfl; exact ⟨rfl, rfl⟩
  intro a
  refine M.Safe.fix ?_
  rintro _ ⟨rfl, rfl⟩
  by_cases heq : a.sz = a.capacity
  · rw [if_pos heq]
    set n := if a.sz = 0 then 1 else (a.sz * 2) % two64 with hn
    have hn1 : a.sz < n ∧ n ≤ 2 ^ 30 := by
      rw [hn]; split
      · omega
      · rw [Nat.mod_eq_of_lt (by unfold two64; omega)]; omega
    have ewi : wrap64 (wrapI32 a.sz) = a.sz := by
      rw [wrapI32_small (by omega), wrap64_small (by omega)]
    have ek : ckI32 (wrapI32 a.sz + 1) = .ok ((a.sz : Int) + 1) := by
      rw [wrapI32_small (by omega)]
      unfold ckI32; rw [if_pos]; unfold InI32; omega
    have ew : wrap64 ((a.sz : Int) + 1) = a.sz + 1 := by
      have := @wrap64_small (a.sz + 1) (by omega)
      push_cast at this; exact this
    refine M.Safe.bind (M.Safe.conseq (realloc_safe hs i (by omega) (by omega)) (fun _ h => h)
      (fun _ _ h => h) (fun _ h => absurd h id)) ?_
    intro _
    rintro ⟨h1, s1⟩ ⟨c, hc1, hc2, hl, hnw, hlen, hnx, st, es⟩
    simp only [] at es hl hnw hlen hnx st
    subst es
    rw [M.bind_ok (upd_apply _ _), M.bind_ok (self_apply _), ewi, ek]
    simp only []
    have est : heapM (V := V) (Heap.store (some h.next) a.sz v) (h1,
        { a with p := some h.next, sz := n, capacity := n, allocated := true })
        = (.ok (), (h1.setCells h.next (fun j => if j = a.sz then some v
            else (h1.blk h.next).cell j),
          { a with p := some h.next, sz := n, capacity := n, allocated := true })) := by
      rw [heapM_apply, store_some hl (by omega)]
    rw [M.bind_ok est, M.bind_ok (M.lift_apply _ _), upd_apply, ew]
    refine ⟨⟨?_, by simp, by simp only []; omega, by simp only []; omega⟩,
      Step.trans i.wf.own st (Step.setCells rfl _ _ rfl)⟩
    constructor
    · intro b hb
      simp only [Option.some.injEq] at hb
      subst hb
      simp only [setCells_next, setCells_live, setCells_newed, setCells_len]
      exact ⟨hnx, hl, hnw, by omega, by omega, trivial⟩
    · intro hb; simp at hb
  · rw [if_neg heq]
    by_cases hlt : a.sz < a.capacity
    · rw [if_pos hlt]
      cases hp : a.p with
      | none => have := i.wf.null hp; omega
      | some b =>
        obtain ⟨hb', h1, h2, h3, h4, ha⟩ := i.wf.ptr b hp
        rintro _ rfl
        rw [M.bind_ok (heapM_ok _ (store_some h1 (by omega))), upd_apply]
        refine ⟨⟨?_, by simp only []; exact i.al, by simp only []; omega, i.cap⟩,
          Step.setCells hp _ _ rfl⟩
        constructor
        · intro c hc
          simp only [] at hc
          rw [hp] at hc
          simp only [Option.some.injEq] at hc
          subst hc
          simp only [setCells_next, setCells_live, setCells_newed, setCells_len]
          exact ⟨hb', h1, h2, by omega, h4, ha⟩
        · intro hc; simp only [] at hc; rw [hp] at hc; simp at hc
    · rw [if_neg hlt]
      rintro _ rfl
      exact ⟨i, Step.refl _ _⟩

/-- The loop `p[i] = f(i)` keeps the invariant, whatever `f` does (short of a memory error). -/
theorem loop_safe {h : Heap V} {s : Store} {g : Heap V × Store → Nat → Out V} (i : DInv h s)
    (n : Nat) (hn : n ≤ s.sz)
    (hg : ∀ st, Keeps h s st → st.2 = s → ∀ j k, g st j = .ub k → k.memory = false) :
    M.Safe (fun st => st = (h, s)) (M.forN n (fun j => do
        let v ← M.reads (fun st => g st j)
        heapM (Heap.store s.p j v))) (fun _ st => Keeps h s st ∧ st.2 = s)
      (fun st => Keeps h s st ∧ st.2 = s) := by
  refine M.Safe.conseq (M.Safe.forN (I := fun _ st => Keeps h s st ∧ st.2 = s) n ?_)
    (by rintro _ rfl; exact ⟨⟨i, Step.refl _ _⟩, rfl⟩) (fun _ _ h => h) (fun _ h => h)
  intro j hj
  refine M.Safe.bind (R := fun _ st => Keeps h s st ∧ st.2 = s)
    (M.Safe.conseq (M.Safe.reads (P := fun st => Keeps h s st ∧ st.2 = s)
      (E := fun st => Keeps h s st ∧ st.2 = s) (fun st ⟨h1, h2⟩ k => hg st h1 h2 j k)
      (fun _ h => h)) (fun _ h => h) (fun _ _ h => h.1) (fun _ h => h)) ?_
  rintro v ⟨h1, s1⟩ ⟨⟨i1, st1⟩, e1⟩
  simp only [] at e1
  subst e1
  simp only [] at i1 st1
  cases hp : s1.p with
  | none => have := i.wf.null hp; omega
  | some b =>
    obtain ⟨hb', h1', h2, h3, h4, ha⟩ := i1.wf.ptr b hp
    rw [heapM_ok _ (store_some h1' (by omega))]
    exact ⟨⟨⟨i1.wf.setCells _ _, i1.al, i1.sz, i1.cap⟩,
      Step.trans i.wf.own st1 (Step.setCells hp _ _ rfl)⟩, rfl⟩

theorem assign_safe {zero : V} {h : Heap V} {s other : Store} (hs : h.sched = [])
    (i : DInv h s) (i' : DInv h other) (hsep : ∀ b, other.p = some b → s.p ≠ some b) :
    M.Safe (fun st => st = (h, s)) (assign zero other) (fun _ => Keeps h s) (Keeps h s) := by
  have hz := i'.sz
  unfold assign
  refine M.Safe.bind (R := fun a st => a = s ∧ st = (h, s)) ?_ ?_
  · rintro _ rfl; exact ⟨rfl, rfl⟩
  intro a
  refine M.Safe.fix ?_
  rintro _ ⟨rfl, rfl⟩
  -- the common second phase
  have loop : M.Safe (Keeps h a) (do
      let s ← self
      M.forN s.sz (fun i => do
        let v ← M.reads (fun st => other.get st.1 i)
        heapM (Heap.store s.p i v)) : SM V Unit) (fun _ => Keeps h a) (Keeps h a) := by
    refine M.Safe.fix ?_
    rintro ⟨h1, s1⟩ ⟨i1, st1⟩
    simp only [] at i1 st1
    refine M.Safe.bind (R := fun b st => b = s1 ∧ st = (h1, s1)) ?_ ?_
    · rintro _ rfl; exact ⟨rfl, rfl⟩
    intro b
    refine M.Safe.fix ?_
    rintro _ ⟨rfl, rfl⟩
    refine M.Safe.conseq (loop_safe (g := fun st j => other.get st.1 j) i1 b.sz (le_refl _) ?_)
      (fun _ h => h) ?_ ?_
    · rintro ⟨h2, s2⟩ ⟨i2, st2⟩ _ j k e
      refine get_no_memory (h := h2) ?_ j k e
      have fr1 : ∀ x, other.p = some x → h1.blk x = h.blk x := fun x hx =>
        st1.frame x (i'.wf.ptr x hx).1 (hsep x hx)
      have w1 : WF h1 other := i'.wf.frame st1.next_le fr1
      refine w1.frame st2.next_le (fun x hx => st2.frame x (w1.ptr x hx).1 ?_)
      intro hbx
      rcases st1.ptr x hbx with h3 | h3
      · exact hsep x hx h3
      · have := (i'.wf.ptr x hx).1; omega
    · rintro _ ⟨h2, s2⟩ ⟨⟨i2, st2⟩, _⟩
      exact ⟨i2, Step.trans i.wf.own st1 st2⟩
    · rintro ⟨h2, s2⟩ ⟨⟨i2, st2⟩, _⟩
      exact ⟨i2, Step.trans i.wf.own st1 st2⟩
  by_cases c1 : other.sz > a.sz
  · rw [if_pos c1]
    by_cases c2 : a.allocated = true
    · rw [if_pos c2]
      refine M.Safe.bind (R := fun _ => Keeps h a) (M.Safe.conseq
        (realloc_safe hs i (n := a.sz + (other.sz - a.sz)) (by omega) (by omega)) (fun _ h => h)
        ?_ (fun _ h => absurd h id)) (fun _ => loop)
      rintro _ ⟨h1, s1⟩ ⟨c, hc1, hc2, hl, hnw, hlen, hnx, st, es⟩
      simp only [] at es hl hnw hlen hnx st
      subst es
      refine ⟨⟨?_, by simp, by simp only []; omega, by simp only []; omega⟩, st⟩
      constructor
      · intro b hb
        simp only [Option.some.injEq] at hb
        subst hb
        exact ⟨hnx, hl, hnw, by simp only []; omega, by simp only []; omega, rfl⟩
      · intro hb; simp at hb
    · rw [if_neg c2]
      exact M.Safe.bind (R := fun _ => Keeps h a) (M.Safe.conseq (resize_safe hs i (by omega))
        (fun _ h => h) (fun _ _ h => h.1) (fun _ h => h)) (fun _ => loop)
  · rw [if_neg c1]
    exact M.Safe.conseq loop (by rintro _ rfl; exact ⟨i, Step.refl _ _⟩) (fun _ _ h => h)
      (fun _ h => h)

theorem ctorSize_safe {zero : V} {h : Heap V} {n : Nat} (hs : h.sched = []) (hn : n ≤ 2 ^ 30) :
    M.Safe (fun st => st = (h, ({} : Store))) (ctorSize zero n)
      (fun _ st => Keeps h {} st ∧ st.2.sz = n) (fun st => st.1 = h ∧ st.2.p = none ∧ st.2.sz = 0 ∧
        st.2.capacity = 0 ∧ st.2.allocated = false) := by
  rintro _ rfl
  rcases Nat.eq_zero_or_pos n with h0 | h1
  · subst h0; rw [ctorSize_zero]; exact ⟨rfl, rfl, rfl, rfl, rfl⟩
  · obtain ⟨c, ec, hc1, hc2⟩ := capOf_spec (n := n) (by omega)
    rw [ctorSize_ok hs h1 (by omega) ec]
    exact ⟨⟨⟨WF.fresh rfl hc1 (le_refl _) rfl, by simp, by simp only []; omega,
      by simp only []; omega⟩, Step.addBlk rfl rfl⟩, rfl⟩

theorem ctorInt_one {zero : V} {h : Heap V} (hs : h.sched = []) :
    ctorInt zero 1 (h, ({} : Store))
      = (.ok (), (h.addBlk (zeroBlk zero 1 1),
          { p := some h.next, sz := 1, capacity := 1, allocated := true })) := by
  have ec : capOfInt 1 = .ok 1 := by decide +kernel
  have ew : wrap64 1 = 1 := by decide
  unfold ctorInt
  simp only [M.bind_apply, ec, M.lift_apply, upd_apply, M.ass]
  rw [Out.ass_pos (by omega)]
  simp only []
  rw [heapM_apply, new_ok hs (by omega)]
  simp only [ew]
  rw [heapM_apply, fillRange_some (by simp) (by simp)]
  simp [zeroBlk]

theorem ctorInt_safe {zero : V} {h : Heap V} (hs : h.sched = []) :
    M.Safe (fun st => st = (h, ({} : Store))) (ctorInt zero 1)
      (fun _ st => Keeps h {} st ∧ st.2.sz = 1) (fun _ => False) := by
  rintro _ rfl
  rw [ctorInt_one hs]
  exact ⟨⟨⟨WF.fresh rfl (le_refl _) (le_refl _) rfl, by simp, by simp, by simp⟩,
    Step.addBlk rfl rfl⟩, rfl⟩

/-- Copy of a `temp` member: ownership is all that matters. -/
theorem copyCtor_own {h : Heap V} {other : Store} (hs : h.sched = []) (o : Own h other)
    (hcap : other.capacity < 2 ^ 31) :
    M.Safe (fun st => st = (h, ({} : Store))) (copyCtor other)
      (fun _ st => Own st.1 st.2 ∧ Step h {} st.1 st.2 ∧ st.2.sz = other.sz ∧
        st.2.capacity = other.capacity ∧ st.2.mp = {}) (fun _ => False) := by
  rintro _ rfl
  cases hp : other.p with
  | none =>
    have hc0 := o.null hp
    cases ha : other.allocated with
    | false =>
      rw [copyCtor_unalloc ha]
      exact ⟨⟨by simp, by simp [hc0]⟩, Step.of_ptr rfl, rfl, rfl, rfl⟩
    | true =>
      rw [copyCtor_null hs ha hc0]
      refine ⟨⟨?_, by simp⟩, Step.addBlk rfl rfl, rfl, hc0.symm, rfl⟩
      intro b hb
      simp only [Option.some.injEq] at hb
      subst hb
      simp
  | some b =>
    rw [copyCtor_some hs o hp (by omega)]
    refine ⟨⟨?_, by simp⟩, Step.addBlk rfl rfl, rfl, rfl, rfl⟩
    intro c hc
    simp only [Option.some.injEq] at hc
    subst hc
    simp

/-- Copy of a `d` member whose capacity covers its size. -/
theorem copyCtor_safe {h : Heap V} {other : Store} (hs : h.sched = []) (i : DInv h other)
    (hc : other.sz ≤ other.capacity) :
    M.Safe (fun st => st = (h, ({} : Store))) (copyCtor other) (fun _ st => Keeps h {} st)
      (fun _ => False) := by
  rintro _ rfl
  cases hp : other.p with
  | none =>
    have ha := i.alloc_false hp
    obtain ⟨hz0, hc0⟩ := i.wf.null hp
    rw [copyCtor_unalloc ha]
    exact ⟨⟨⟨by simp, by simp [hz0, hc0]⟩, by simp, i.sz, i.cap⟩, Step.of_ptr rfl⟩
  | some b =>
    rw [copyCtor_some hs i.wf.own hp (by have := i.cap; omega)]
    exact ⟨⟨WF.fresh rfl hc (le_refl _) rfl, by simp, i.sz, i.cap⟩, Step.addBlk rfl rfl⟩

theorem dtor_safe {h : Heap V} {s : Store} (o : Own h s) :
    M.Safe (fun st => st = (h, s)) dtor (fun _ st => st.2.p = none ∧
      Step h s st.1 { st.2 with p := none } ∧ Own st.1 st.2 ∧
      (st.2 = s ∨ (st.2.sz = 0 ∧ st.2.capacity = 0 ∧ st.2.allocated = false)))
      (fun _ => False) := by
  rintro _ rfl
  cases hp : s.p with
  | none =>
    rw [dtor_none hp]
    exact ⟨hp, Step.of_ptr hp.symm, o, Or.inl rfl⟩
  | some b =>
    rw [dtor_some o hp]
    exact ⟨rfl, Step.kill hp rfl, ⟨by simp, by simp⟩, Or.inr ⟨rfl, rfl, rfl⟩⟩

end Store
end ETR
