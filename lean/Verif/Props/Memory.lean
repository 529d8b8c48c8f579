import Verif.Lemmas.Blocks
import Mathlib.Data.List.Perm.Subperm
import Mathlib.Data.List.Nodup
import Mathlib.Algebra.BigOperators.Group.List.Basic

/-! # Memory consumption: C82 (blocks per vector), C83 (allocations of repeated assignments) -/

namespace ETR.Mach
open Store
variable {V : Type}

/-! ## C82 -/

/-- The vectors that exist after a successful operation: a declaration adds one, a destruction removes one. -/
def afterList (s : Mach V) (L : List Nat) (c : Cmd V) : List Nat :=
  if c.isDecl then newId s c :: L else
    match c with
    | .destroy x => L.filter (· ≠ x)
    | _ => L

/-- The vectors that exist after a history: declared and not yet destroyed.  `L`: those at its beginning. -/
def existing (zero : V) : List (Cmd V) → Mach V → List Nat → List Nat
  | [], _, L => L
  | c :: cs, s, L =>
    match exec zero c s with
    | (.ok _, s') => existing zero cs s' (afterList s L c)
    | (.thr _, s') => existing zero cs s' L
    | (.ub _, _) => L

/-- Every operation of the history is applied to a vector that exists. -/
def UsesExisting (zero : V) : List (Cmd V) → Mach V → List Nat → Prop
  | [], _, _ => True
  | c :: cs, s, L => (∀ x, c.target = some x → x ∈ L) ∧
    match exec zero c s with
    | (.ok _, s') => UsesExisting zero cs s' (afterList s L c)
    | (.thr _, s') => UsesExisting zero cs s' L
    | (.ub _, _) => True

theorem existing_Z {zero : V} (cs : List (Cmd V)) : ∀ (s s' : Mach V) (L : List Nat), Z (· ∈ L) s →
    UsesExisting zero cs s L → runAll zero cs s = (none, s') → Z (· ∈ existing zero cs s L) s' := by
  induction cs with
  | nil =>
    intro s s' L h _ e
    simp only [runAll, Prod.mk.injEq, true_and] at e
    subst e; exact h
  | cons c cs ih =>
    intro s s' L h hu e
    have hz := exec_Z (zero := zero) (c := c) h hu.1
    have hu := hu.2
    rw [runAll] at e
    rw [existing]
    rcases hm : exec zero c s with ⟨o, s1⟩
    rw [hm] at hz hu e
    cases o with
    | ub k => simp at e
    | thr m => exact ih s1 s' L hz hu e
    | ok u =>
      refine ih s1 s' (afterList s L c) (Z.mono (show Z (After (· ∈ L) s c) s1 from hz) (fun x hx => ?_)) hu e
      unfold afterList
      rcases hx with ⟨hx, hd⟩ | ⟨hd, hx⟩
      · by_cases hde : c.isDecl = true
        · rw [if_pos hde]; exact List.mem_cons_of_mem _ hx
        · rw [if_neg hde]
          cases c with
          | destroy y =>
            exact List.mem_filter.mpr ⟨hx, by simpa using fun e => hd (by rw [e])⟩
          | _ => exact hx
      · rw [if_pos hd, hx]; exact List.mem_cons_self

/-- No operation of the history is one that is deleted for borrowed memory (`push_back`, Borrow.hpp 160) or that the model has for own memory only (the assignment of the data member). -/
def OwningAll (zero : V) : List (Cmd V) → Mach V → Prop
  | [], _ => True
  | c :: cs, s => Owning s c ∧
    match exec zero c s with
    | (.ub _, _) => True
    | (_, s') => OwningAll zero cs s'

theorem existing_WB {zero : V} (cs : List (Cmd V)) : ∀ (s s' : Mach V) (L : List Nat) (N : Nat), WB N s → (∀ x ∈ L, x < N) →
    UsesExisting zero cs s L → OwningAll zero cs s → runAll zero cs s = (none, s') → ∃ N', WB N' s' ∧
    ∀ x ∈ existing zero cs s L, x < N' := by
  induction cs with
  | nil =>
    intro s s' L N h hL _ _ e
    simp only [runAll, Prod.mk.injEq, true_and] at e
    subst e; exact ⟨N, h, hL⟩
  | cons c cs ih =>
    intro s s' L N h hL hu ho e
    have hz := exec_WB (zero := zero) (c := c) h (fun x hx => hL x (hu.1 x hx)) ho.1
    have hu := hu.2
    have ho := ho.2
    rw [runAll] at e
    rcases hm : exec zero c s with ⟨o, s1⟩
    rw [hm] at hz hu ho e
    rw [existing, hm]
    cases o with
    | ub k => simp at e
    | thr m =>
      obtain ⟨k, hk, hz⟩ := hz
      exact ih s1 s' L k hz (fun x hx => by have := hL x hx; omega) hu ho e
    | ok u =>
      obtain ⟨⟨k, hk, hw⟩, hd⟩ := hz
      refine ih s1 s' (afterList s L c) k hw (fun x hx => ?_) hu ho e
      unfold afterList at hx
      by_cases hde : c.isDecl = true
      · rw [if_pos hde] at hx
        rcases List.mem_cons.mp hx with rfl | hx
        · obtain ⟨k', hk', hw'⟩ := hd hde
          have : k' = k := by rw [← hw'.1.n, hw.1.n]
          omega
        · have := hL x hx; omega
      · rw [if_neg hde] at hx
        have : x ∈ L := by
          cases c with
          | destroy y => exact (List.mem_filter.mp hx).1
          | _ => exact hx
        have := hL x this; omega

/-- C82.  After every history (exceptions are caught, allocations may fail at any time), whatever its length, the library holds at most two
blocks of memory per existing vector.  (The history is one that a C++ program can perform: it uses existing vectors and no deleted function.
No restriction on the sizes.) -/
theorem C82_two_blocks_per_vector {zero : V} (sched : List Bool) (cs : List (Cmd V)) (ho : OwningAll zero cs (start sched))
    (hu : UsesExisting zero cs (start sched) []) {s : Mach V} (e : runAll zero cs (start sched) = (none, s)) (bs : List Nat)
    (hnd : bs.Nodup) (hb : ∀ b ∈ bs, b < s.heap.next ∧ (s.heap.blk b).live = true ∧ (s.heap.blk b).newed = true) :
    bs.length ≤ 2 * (existing zero cs (start sched) []).length := by
  have hz := existing_Z cs (start sched) s [] (fun z _ => rfl) hu e
  obtain ⟨N, hw, _⟩ := existing_WB cs (start sched) s [] 0 (WB.start sched) (by simp) hu ho e
  have hex : ∀ b ∈ bs, ∃ y : Slot, (s.st y).p = some b := fun b h => by
    obtain ⟨z, _, h2⟩ := hw.1.held b (hb b h)
    exact ⟨z, h2.1⟩
  set L := existing zero cs (start sched) [] with hL
  classical
  let f : Nat → Slot := fun b => if h : b ∈ bs then (hex b h).choose else (0, false)
  have hf : ∀ b ∈ bs, (s.st (f b)).p = some b := fun b h => by
    simp only [f, dif_pos h]; exact (hex b h).choose_spec
  have hn : (bs.map f).Nodup := by
    rw [List.nodup_map_iff_inj_on hnd]
    intro a ha b hb' hab
    have h1 := hf a ha
    have h2 := hf b hb'
    rw [hab, h2] at h1
    exact (Option.some.inj h1).symm
  have hs : bs.map f ⊆ L ×ˢ [false, true] := by
    intro y hy
    obtain ⟨b, h, rfl⟩ := List.mem_map.mp hy
    have : (f b).1 ∈ L := by
      by_contra hc
      have := hf b h
      rw [hz (f b) hc] at this
      simp at this
    rw [show f b = ((f b).1, (f b).2) from rfl]
    exact List.pair_mem_product.mpr ⟨this, by cases (f b).2 <;> simp⟩
  have := (hn.subperm hs).length_le
  rw [List.length_map, List.length_product] at this
  simp only [List.length_cons, List.length_nil] at this
  omega

/-- C06, no leak: after every history at the end of which no vector exists any more, no memory of the library is in use.  (As in C82:
exceptions are caught, allocations may fail at any time, no restriction on the sizes.) -/
theorem C06_no_leak {zero : V} (sched : List Bool) (cs : List (Cmd V)) (ho : OwningAll zero cs (start sched))
    (hu : UsesExisting zero cs (start sched) []) {s : Mach V} (e : runAll zero cs (start sched) = (none, s))
    (hd : existing zero cs (start sched) [] = []) (b : Nat) (hb : b < s.heap.next) (hn : (s.heap.blk b).newed = true) :
    (s.heap.blk b).live = false := by
  by_contra hl
  have := C82_two_blocks_per_vector sched cs ho hu e [b] (by simp) (by simpa using ⟨hb, by simpa using hl, hn⟩)
  rw [hd] at this
  simp at this

/-- Two vectors, one of them assigned twice and the other destroyed: two blocks are in use, as many as allowed for one vector.  The third
allocation fails. -/
def memoryHistory : List (Cmd Int) :=
  [.declSize 3, .declSize 2, .assign .ok 0 (.leaf 1), .assign .ok 0 (.leaf 1), .setElem 0 9 1, .assign .ok 0 (.leaf 1), .destroy 1]

def memorySched : List Bool := [false, false, true]

theorem UsesExisting.cons {zero : V} {c : Cmd V} {cs : List (Cmd V)} {s : Mach V} {L : List Nat} (h1 : ∀ x, c.target = some x → x ∈ L)
    (h2 : UsesExisting zero cs (exec zero c s).2 (match (exec zero c s).1 with | .ok _ => afterList s L c | _ => L)) :
    UsesExisting zero (c :: cs) s L := by
  refine ⟨h1, ?_⟩
  rcases hm : exec zero c s with ⟨o, s'⟩
  rw [hm] at h2
  cases o <;> trivial

theorem OwningAll.cons {zero : V} {c : Cmd V} {cs : List (Cmd V)} {s : Mach V} (h1 : Owning s c)
    (h2 : OwningAll zero cs (exec zero c s).2) : OwningAll zero (c :: cs) s := by
  refine ⟨h1, ?_⟩
  rcases hm : exec zero c s with ⟨o, s'⟩
  rw [hm] at h2
  cases o <;> trivial

/-- The hypotheses hold and the bound is reached. -/
example : UsesExisting 0 memoryHistory (start memorySched) [] ∧ OwningAll 0 memoryHistory (start memorySched) := by
  refine ⟨?_, ?_⟩
  · refine .cons (by simp [Cmd.target]) <| .cons (by simp [Cmd.target]) <| .cons ?_ <| .cons ?_ <| .cons ?_ <| .cons ?_ <| .cons ?_ trivial
    all_goals
      intro x h
      cases h
      decide +kernel
  · exact .cons trivial <| .cons trivial <| .cons trivial <| .cons trivial <| .cons trivial <| .cons trivial <| .cons trivial trivial

example : existing 0 memoryHistory (start memorySched) [] = [0] ∧ (runAll 0 memoryHistory (start memorySched)).1 = none ∧
    ((List.range (runAll 0 memoryHistory (start memorySched)).2.heap.next).filter (fun b =>
      ((runAll 0 memoryHistory (start memorySched)).2.heap.blk b).live)).length = 2 := by decide +kernel

/-- Also the vector is destroyed: nothing is left, although blocks have been allocated. -/
example : existing 0 (memoryHistory ++ [.destroy 0]) (start memorySched) [] = [] ∧
    (runAll 0 (memoryHistory ++ [.destroy 0]) (start memorySched)).1 = none ∧
    (runAll 0 (memoryHistory ++ [.destroy 0]) (start memorySched)).2.heap.next = 3 := by decide +kernel

/-! ## C83 -/

/-- `resize` allocates at most once, and only if the capacity is too small. -/
theorem resize_count {zero : V} {h : Heap V} {s : Store} {n : Nat} (hs : h.sched = []) (o : Own h s) (hn : n ≤ 2 ^ 30) :
    Kept (fun st => (st.1.next = h.next ∧ st.2.capacity = s.capacity) ∨
      (st.1.next = h.next + 1 ∧ s.capacity < n ∧ n ≤ st.2.capacity)) (Store.resize zero n (h, s)) := by
  rcases Nat.eq_zero_or_pos n with h0 | h1
  · subst h0; rw [resize_zero]; exact Or.inl ⟨rfl, rfl⟩
  · obtain ⟨c, ec, hc1, hc2⟩ := capOf_spec (n := n) (by omega)
    by_cases ha : s.allocated = true
    · by_cases hc : n ≤ s.capacity
      · rw [resize_keep h1 ha hc]; exact Or.inl ⟨rfl, rfl⟩
      · cases hp : s.p with
        | none => rw [resize_null h1 ha (by omega) hp]; exact Or.inl ⟨rfl, rfl⟩
        | some b =>
          rw [resize_grow hs h1 (by omega) ec hc1 o hp (by omega)]
          exact Or.inr ⟨rfl, by omega, hc1⟩
    · have hp : s.p = none := by
        cases hp : s.p with
        | none => rfl
        | some b => exact absurd (o.ptr b hp).2.2.2.2 ha
      rw [resize_fresh hs h1 (by omega) ec hc1 (by simpa using ha)]
      exact Or.inr ⟨rfl, by rw [o.null hp]; exact h1, hc1⟩

theorem putCell_next {p : Ptr} {i : Nat} {v : Option V} {k : Nat} : KP (fun h : Heap V => h.next = k) (Heap.putCell p i v) := by
  intro h hh
  unfold Heap.putCell
  split
  · trivial
  · split
    · trivial
    · split
      · trivial
      · exact hh

/-- Writing an element neither allocates nor changes the object. -/
theorem set_count {i k : Nat} {v : V} {s : Store} : KP (fun st => st.1.next = k ∧ st.2 = s) (Store.set i v) := by
  rintro ⟨h, s'⟩ ⟨h1, h2⟩
  unfold Store.set
  rw [M.bind_ok (self_apply _), M.bind_apply, M.lift_apply]
  cases checkIdx s' i with
  | ub e => trivial
  | thr e => exact ⟨h1, h2⟩
  | ok u =>
    simp only []
    rw [heapM_apply]
    have := putCell_next (V := V) (p := s'.p) (i := i) (v := some v) h h1
    unfold Heap.store
    rcases hm : Heap.putCell s'.p i (some v) h with ⟨o, h'⟩
    rw [hm] at this
    cases o with
    | ub e => trivial
    | thr e => exact ⟨this, h2⟩
    | ok u => exact ⟨this, h2⟩

/-- The capacity of member `z` is below the length `W` of its vector. -/
def lack (W : Nat → Nat) (s : Mach V) (z : Slot) : Nat := if W z.1 ≤ (s.st z).capacity then 0 else 1

/-- Allocations so far plus possible allocations in the future. -/
def budget (W : Nat → Nat) (xs : List Nat) (s : Mach V) : Nat :=
  s.heap.next + (xs.map (fun x => lack W s (x, false) + lack W s (x, true))).sum

variable {W : Nat → Nat} {xs : List Nat}

theorem budget_le {s s' : Mach V} (hn : s'.heap.next = s.heap.next) (hc : ∀ z, (s'.st z).capacity = (s.st z).capacity) :
    budget W xs s' = budget W xs s := by
  unfold budget lack
  simp only [hn, hc]

theorem sum_le_of {f g : Nat → Nat} (h : ∀ x ∈ xs, f x ≤ g x) : (xs.map f).sum ≤ (xs.map g).sum := by
  induction xs with
  | nil => simp
  | cons a l ih =>
    simp only [List.map_cons, List.sum_cons]
    have := h a (by simp)
    have := ih (fun x hx => h x (by simp [hx]))
    omega

theorem sum_lt_of {f g : Nat → Nat} {a : Nat} (ha : a ∈ xs) (h : ∀ x ∈ xs, f x ≤ g x) (h1 : f a + 1 ≤ g a) :
    (xs.map f).sum + 1 ≤ (xs.map g).sum := by
  induction xs with
  | nil => simp at ha
  | cons b l ih =>
    simp only [List.map_cons, List.sum_cons]
    rcases List.mem_cons.mp ha with rfl | hm
    · have := sum_le_of (xs := l) (fun x hx => h x (by simp [hx]))
      omega
    · have := h b (by simp)
      have := ih hm (fun x hx => h x (by simp [hx]))
      omega

/-- What an assignment of length `W t` to `t` may do: exchange the capacities of the two members of `t`, and allocate once
if the capacity of one of them was too small and is not any more. -/
theorem budget_step {s s' : Mach V} {t : Nat} (ht : t ∈ xs) (ho : ∀ z : Slot, z.1 ≠ t → (s'.st z).capacity = (s.st z).capacity)
    (hc : s'.heap.next + lack W s' (t, false) + lack W s' (t, true) ≤ s.heap.next + lack W s (t, false) + lack W s (t, true))
    (hn : s'.heap.next ≤ s.heap.next + 1) (hm : s.heap.next ≤ s'.heap.next) : budget W xs s' ≤ budget W xs s := by
  have hx : ∀ x ∈ xs, x ≠ t → lack W s' (x, false) + lack W s' (x, true) = lack W s (x, false) + lack W s (x, true) := by
    intro x _ hne
    unfold lack
    rw [ho (x, false) hne, ho (x, true) hne]
  have hle : ∀ x ∈ xs, lack W s' (x, false) + lack W s' (x, true) ≤ lack W s (x, false) + lack W s (x, true) := by
    intro x hx'
    by_cases h : x = t
    · subst h; omega
    · exact le_of_eq (hx x hx' h)
  unfold budget
  by_cases h : s'.heap.next = s.heap.next
  · rw [h]; exact Nat.add_le_add_left (sum_le_of hle) _
  · have := sum_lt_of ht hle (by omega)
    omega

/-- State after the evaluation of a right-hand side of length `n` into the buffer of `t`. -/
def FC (s : Mach V) (t n : Nat) (s' : Mach V) : Prop :=
  (∀ z, z ≠ (t, true) → s'.st z = s.st z) ∧
    ((s'.heap.next = s.heap.next ∧ (s'.st (t, true)).capacity = (s.st (t, true)).capacity) ∨
      (s'.heap.next = s.heap.next + 1 ∧ (s.st (t, true)).capacity < n ∧ n ≤ (s'.st (t, true)).capacity))

/-- What keeps the number of allocations and the member it is called on keeps all members. -/
theorem slot_count {z : Slot} {m : SM V Unit} (hm : ∀ (k : Nat) (d : Store), KP (fun st => st.1.next = k ∧ st.2 = d) m) {k : Nat}
    {f : Slot → Store} : KP (fun s : Mach V => s.heap.next = k ∧ s.st = f) (onSlot z m) := by
  rintro s ⟨h1, h2⟩
  have := hm k (s.st z) (s.heap, s.st z) ⟨h1, rfl⟩
  rw [onSlot_apply]
  rcases hm : m (s.heap, s.st z) with ⟨o, st'⟩
  rw [hm] at this
  have key : st'.1.next = k ∧ st'.2 = s.st z → (s.put z st').heap.next = k ∧ (s.put z st').st = f := by
    rintro ⟨a1, a2⟩
    refine ⟨a1, ?_⟩
    rw [← h2]
    funext w
    by_cases hw : w = z
    · subst hw; rw [put_same, a2]
    · rw [put_ne _ _ hw]
  cases o with
  | ub k => trivial
  | thr e => exact key this
  | ok u => exact key this

theorem slotSet_count {z : Slot} {i k : Nat} {v : V} {f : Slot → Store} :
    KP (fun s : Mach V => s.heap.next = k ∧ s.st = f) (onSlot z (Store.set i v)) :=
  slot_count (fun _ _ => set_count)

theorem fill_count {k : Nat} {v : V} {d : Store} : KP (fun st => st.1.next = k ∧ st.2 = d) (Store.fillScalar v) := by
  rintro ⟨h, s'⟩ ⟨h1, h2⟩
  unfold Store.fillScalar
  rw [M.bind_ok (self_apply _), heapM_apply]
  have := KP.forN (P := fun h : Heap V => h.next = k) (f := fun i => Heap.store s'.p i v) s'.sz (fun i _ => putCell_next) h h1
  unfold Heap.fillRange
  rcases hm : M.forN s'.sz (fun i => Heap.store s'.p i v) h with ⟨o, h'⟩
  rw [hm] at this
  cases o with
  | ub e => trivial
  | thr e => exact ⟨this, h2⟩
  | ok u => exact ⟨this, h2⟩

theorem fillTemp_count {zero : V} {conv : V → Out V} {t : Nat} {e : Expr V} {s : Mach V} (I : Inv s)
    (hn : e.size s.env ≤ 2 ^ 30) : Kept (FC s t (e.size s.env)) (fillTemp zero conv t e s) := by
  unfold fillTemp
  rw [M.bind_ok (M.get_apply _), M.bind_apply, onSlot_apply]
  have h := resize_count (zero := zero) I.sched (I.t t).own hn
  rcases hm : Store.resize zero (e.size s.env) (s.heap, s.st (t, true)) with ⟨o, st'⟩
  rw [hm] at h
  have key : ((st'.1.next = s.heap.next ∧ st'.2.capacity = (s.st (t, true)).capacity) ∨
      (st'.1.next = s.heap.next + 1 ∧ (s.st (t, true)).capacity < e.size s.env ∧ e.size s.env ≤ st'.2.capacity)) →
      FC s t (e.size s.env) (s.put (t, true) st') := by
    intro h
    refine ⟨fun z hz => put_ne _ _ hz, ?_⟩
    rw [put_same]
    exact h
  cases o with
  | ub k => trivial
  | thr m => exact key h
  | ok u =>
    have hk := key h
    simp only []
    refine kept_mono (KP.forN (P := fun s1 : Mach V => s1.heap.next = (s.put (t, true) st').heap.next ∧
      s1.st = (s.put (t, true) st').st) _ (fun i _ => KP.bind (KP.reads _) (fun v => KP.bind (KP.lift _) (fun w =>
        slotSet_count))) _ ⟨rfl, rfl⟩) (fun s1 h1 => ?_)
    unfold FC
    rw [h1.1, h1.2]
    exact hk

theorem lack_le_one (s : Mach V) (z : Slot) : lack W s z ≤ 1 := by unfold lack; split <;> omega

theorem budget_FC {s s' : Mach V} {t : Nat} (ht : t ∈ xs) (h : FC s t (W t) s') : budget W xs s' ≤ budget W xs s := by
  obtain ⟨h1, h2⟩ := h
  have e : lack W s' (t, false) = lack W s (t, false) := by unfold lack; rw [h1 (t, false) (by simp)]
  refine budget_step ht (fun z hz => by rw [h1 z (by rintro rfl; exact hz rfl)]) ?_ (by omega) (by omega)
  rw [e]
  rcases h2 with ⟨a, b⟩ | ⟨a, b, c⟩
  · have : lack W s' (t, true) = lack W s (t, true) := by unfold lack; rw [b]
    omega
  · have e1 : lack W s' (t, true) = 0 := by unfold lack; rw [if_pos c]
    have e2 : lack W s (t, true) = 1 := by unfold lack; rw [if_neg (by simp only; omega)]
    omega

theorem kept_bind_of {α β : Type} {P : Mach V → Prop} {m : M (Mach V) α} {f : α → M (Mach V) β} {s : Mach V}
    (hm : Kept P (m s)) (hf : ∀ a s', P s' → Kept P (f a s')) : Kept P ((m >>= f) s) := by
  rw [M.bind_apply]
  rcases h : m s with ⟨o, s'⟩
  rw [h] at hm
  cases o with
  | ub k => trivial
  | thr e => exact hm
  | ok a => exact hf a s' hm

theorem assign_budget {zero : V} {conv : V → Out V} {x : Nat} {e : Expr V} {s : Mach V} (I : Inv s)
    (hal : s.Allowed (.assign conv x e)) (hx : x ∈ xs) (hw : e.size s.env = W x) :
    Kept (fun s' => budget W xs s' ≤ budget W xs s) (assign zero conv x e s) := by
  obtain ⟨hlt, hc, hf, hn⟩ := hal
  have hft := fillTemp_count (zero := zero) (conv := conv) (t := x) I hn
  have hsafe := safe_fillTemp (zero := zero) (t := x) hlt hc hf (J.of I) hn s rfl
  rw [hw] at hft
  -- changes of `mp` and `sz` do not matter
  have hput : ∀ {s1 : Mach V} {d : Store}, d.capacity = (s1.st (x, false)).capacity →
      budget W xs (s1.put (x, false) (s1.heap, d)) = budget W xs s1 := by
    intro s1 d hd
    refine budget_le rfl (fun z => ?_)
    by_cases hz : z = (x, false)
    · subst hz; rw [put_same]; exact hd
    · rw [put_ne _ _ hz]
  have hdim : ∀ s1 : Mach V, budget W xs s1 ≤ budget W xs s →
      Kept (fun s' => budget W xs s' ≤ budget W xs s) (setDims x e s1) := by
    intro s1 h1
    rw [setDims_ok]
    exact le_trans (le_of_eq (hput rfl)) h1
  unfold Mach.assign
  rw [M.bind_ok (M.get_apply _)]
  by_cases hb : s.bor x = true
  · rw [if_pos hb]
    unfold assignBorrow
    rw [M.bind_ok (M.get_apply _)]
    by_cases h1 : e.size s.env ≤ (s.st (x, false)).capacity
    · rw [M.bind_ok (M.ass_pos h1 _), M.bind_apply]
      rcases hm : fillTemp zero conv x e s with ⟨o, s1⟩
      rw [hm] at hft
      cases o with
      | ub k => trivial
      | thr m => exact budget_FC hx hft
      | ok u =>
        have hk := budget_FC hx hft
        simp only []
        rw [M.bind_ok (M.get_apply _)]
        by_cases h2 : (s1.st (x, false)).sz ≤ e.size s1.env
        · rw [M.bind_ok (M.ass_pos h2 _), M.bind_ok (onSlot_ok (upd_apply _ _)), M.bind_ok (M.get_apply _)]
          set s2 := s1.put (x, false) (s1.heap, { s1.st (x, false) with sz := e.size s1.env }) with hs2
          have hb2 : budget W xs s2 = budget W xs s1 := hput rfl
          have hl := KP.forN (P := fun s3 : Mach V => s3.heap.next = s2.heap.next ∧ s3.st = s2.st)
            (f := fun i => M.reads (fun s => (s.st (x, true)).get s.heap i) >>= fun v => onSlot (x, false) (Store.set i v))
            (e.size s2.env) (fun i _ => KP.bind (KP.reads _) (fun v => slotSet_count)) s2 ⟨rfl, rfl⟩
          have hb3 : ∀ s3 : Mach V, (s3.heap.next = s2.heap.next ∧ s3.st = s2.st) → budget W xs s3 ≤ budget W xs s :=
            fun s3 h => by rw [budget_le h.1 (fun z => by rw [h.2]), hb2]; exact hk
          exact kept_bind_of (kept_mono hl hb3) (fun _ s3 h3 => hdim s3 h3)
        · rw [M.bind_thr (M.ass_neg h2 _)]
          exact hk
    · rw [M.bind_thr (M.ass_neg h1 _)]
      exact le_refl _
  · rw [if_neg hb]
    unfold assignBuffer
    rw [M.bind_apply]
    rcases hm : fillTemp zero conv x e s with ⟨o, s1⟩
    rw [hm] at hft hsafe
    cases o with
    | ub k => trivial
    | thr m => exact budget_FC hx hft
    | ok u =>
      have hk := budget_FC hx hft
      obtain ⟨J1, F1, _⟩ := hsafe
      simp only [moveTemp]
      rw [M.bind_ok (M.modify_apply _ _)]
      refine hdim _ (le_trans ?_ hk)
      have e2 : wrap64 (wrapI32 (s1.st (x, true)).capacity) = (s1.st (x, true)).capacity := by
        have := F1.inv.cap
        rw [wrapI32_small (by omega), wrap64_small (by omega)]
      refine budget_step hx (fun z hz => ?_) ?_ (Nat.le_succ _) (le_refl _)
      · simp only []
        rw [if_neg (by rintro rfl; exact hz rfl), if_neg (by rintro rfl; exact hz rfl)]
      · have : ∀ a b : Nat, s1.heap.next + a + b ≤ s1.heap.next + b + a := by intros; omega
        refine le_trans (le_of_eq ?_) (this (lack W s1 (x, true)) (lack W s1 (x, false)))
        simp only [lack, Store.moveit, e2, if_true]
        simp

/-- The operation is an assignment of length `W x` to a vector `x` of `xs`, or writes elements only. -/
def Steady (W : Nat → Nat) (xs : List Nat) (s : Mach V) : Cmd V → Prop
  | .assign _ x e => x ∈ xs ∧ e.size s.env = W x
  | .setElem _ _ _ | .subAssignScalar _ _ _ | .fill _ _ => True
  | _ => False

theorem exec_budget {zero : V} {c : Cmd V} {s : Mach V} (I : Inv s) (hal : s.Allowed c) (hst : Steady W xs s c) :
    Kept (fun s' => budget W xs s' ≤ budget W xs s) (exec zero c s) := by
  have fin : ∀ s1 : Mach V, s1.heap.next = s.heap.next ∧ s1.st = s.st → budget W xs s1 ≤ budget W xs s := fun s1 h =>
    le_of_eq (budget_le h.1 (fun z => by rw [h.2]))
  cases c with
  | assign conv x e => exact assign_budget I hal hst.1 hst.2
  | setElem x i v =>
    exact kept_mono (slotSet_count (k := s.heap.next) (f := s.st) s ⟨rfl, rfl⟩) fin
  | subAssignScalar x ind v =>
    refine kept_mono (KP.forN (P := fun s1 : Mach V => s1.heap.next = s.heap.next ∧ s1.st = s.st) _ (fun i _ =>
      KP.getB (fun s1 _ => KP.bind (KP.lift _) (fun k => KP.bind (KP.lift _) (fun j => slotSet_count)))) s ⟨rfl, rfl⟩) fin
  | fill x v =>
    exact kept_mono (slot_count (fun _ _ => fill_count) (k := s.heap.next) (f := s.st) s ⟨rfl, rfl⟩) fin
  | _ => exact hst.elim

/-- Every operation of the history is of this kind when it is called. -/
def SteadyAll (W : Nat → Nat) (xs : List Nat) (zero : V) : List (Cmd V) → Mach V → Prop
  | [], _ => True
  | c :: cs, s => Steady W xs s c ∧ match exec zero c s with
    | (.ub _, _) => True
    | (_, s') => SteadyAll W xs zero cs s'

theorem runAll_budget {zero : V} (cs : List (Cmd V)) : ∀ s s' : Mach V, Inv s → AllowedAll zero cs s →
    SteadyAll W xs zero cs s → runAll zero cs s = (none, s') → budget W xs s' ≤ budget W xs s := by
  induction cs with
  | nil =>
    intro s s' _ _ _ e
    simp only [runAll, Prod.mk.injEq, true_and] at e
    rw [e]
  | cons c cs ih =>
    intro s s' I ha hst e
    have hb := exec_budget (zero := zero) I ha.1 hst.1
    have hal := ha.2
    have hst := hst.2
    rw [runAll] at e
    rcases hm : exec zero c s with ⟨o, s1⟩
    rw [hm] at hb hal hst e
    cases o with
    | ub k => simp at e
    | thr m => exact le_trans (ih s1 s' (I.exec ha.1 hm (by simp)) hal hst e) hb
    | ok u => exact le_trans (ih s1 s' (I.exec ha.1 hm (by simp)) hal hst e) hb

/-- C83.  Any number of assignments to the vectors in `xs`, each always with the same length, and of element writes: together they allocate at
most two blocks per vector.  (`heap.next` is the number of blocks ever allocated.) -/
theorem C83_two_allocations_partial {zero : V} {s s' : Mach V} (r : Reach zero s) (W : Nat → Nat) (xs : List Nat)
    (cs : List (Cmd V)) (ha : AllowedAll zero cs s) (hst : SteadyAll W xs zero cs s) (e : runAll zero cs s = (none, s')) :
    s'.heap.next ≤ s.heap.next + 2 * xs.length := by
  have h := runAll_budget cs s s' r.inv ha hst e
  have h2 : (xs.map (fun x => lack W s (x, false) + lack W s (x, true))).sum ≤ 2 * xs.length := by
    clear h hst
    induction xs with
    | nil => simp
    | cons a l ih =>
      simp only [List.map_cons, List.sum_cons, List.length_cons]
      have := lack_le_one (W := W) s (a, false)
      have := lack_le_one (W := W) s (a, true)
      omega
  unfold budget at h
  omega

/-- Five assignments of length three to two vectors, and a failing access: four allocations, the largest number that is allowed. -/
def steadyHistory : List (Cmd Int) :=
  [.assign .ok 0 (.rvec [1, 2, 3] {}), .setElem 0 7 1, .assign .ok 1 (.leaf 0),
   .assign .ok 0 (.leaf 1), .assign .ok 1 (.leaf 0), .fill 1 4, .assign .ok 0 (.leaf 1)]

/-- The state before: two vectors of length two. -/
def steadyStart : Mach Int := (runAll 0 [.declSize 2, .declSize 2] start).2

theorem steadyReach : Reach 0 steadyStart :=
  ⟨[.declSize 2, .declSize 2], .cons (by show _ ≤ _; decide) <| .cons (by show _ ≤ _; decide) trivial, Prod.ext (by decide +kernel) rfl⟩

example : steadyStart.heap.next = 2 ∧ (runAll 0 steadyHistory steadyStart).2.heap.next = 2 + 2 * [0, 1].length := by
  decide +kernel

theorem SteadyAll.cons {zero : V} {c : Cmd V} {cs : List (Cmd V)} {s : Mach V} (h1 : Steady W xs s c)
    (h2 : SteadyAll W xs zero cs (exec zero c s).2) : SteadyAll W xs zero (c :: cs) s := by
  refine ⟨h1, ?_⟩
  rcases hm : exec zero c s with ⟨o, s'⟩
  rw [hm] at h2
  cases o <;> trivial

theorem steadySteady : SteadyAll (fun _ => 3) [0, 1] 0 steadyHistory steadyStart :=
  .cons ⟨by decide, by decide +kernel⟩ <| .cons trivial <| .cons ⟨by decide, by decide +kernel⟩ <|
    .cons ⟨by decide, by decide +kernel⟩ <| .cons ⟨by decide, by decide +kernel⟩ <| .cons trivial <|
    .cons ⟨by decide, by decide +kernel⟩ trivial

end ETR.Mach
