import Verif.Props.Assign
import Verif.Lemmas.MachFrame

/-! Element access and `resize`: C02, C03, C04. -/


namespace ETR
namespace Mach
open Store Spec

variable {V : Type}

/-! ## C02 checked element access -/

/-- An element that exists lies in a live block that covers it. -/
theorem Inv.access {s : Mach V} (I : Inv s) {x i : Nat} (hi : i < s.env.size x) :
    ∃ b, (s.st (x, false)).p = some b ∧ b < s.heap.next ∧ (s.heap.blk b).live = true ∧
      s.env.size x ≤ (s.heap.blk b).len ∧ (s.st (x, false)).allocated = true := by
  replace hi : i < (s.st (x, false)).sz := hi
  show ∃ b, _ ∧ _ ∧ _ ∧ (s.st (x, false)).sz ≤ _ ∧ _
  cases hb : s.bor x with
  | true =>
    obtain ⟨b, h1, h2, h3, _, h5⟩ := (I.b x hb).ptr
    have := (I.b x hb).sz
    exact ⟨b, h1, h2, h3, by omega, (I.b x hb).al⟩
  | false =>
    have w := (I.d x hb).wf
    cases hp : (s.st (x, false)).p with
    | none => have := w.null hp; omega
    | some b =>
      obtain ⟨h1, h2, _, h4, _, h6⟩ := w.ptr b hp
      exact ⟨b, rfl, h1, h2, h4, h6⟩

/-- C02, reading (partial: an element may be indeterminate, see C04; a vector that was copied
from a just initialised one is excluded, see `C02_false_copied`).  In every reachable state: an index
outside the vector throws; an index inside reads the cell with that index of a live block that
covers the whole vector. -/
theorem C02_read_partial {zero : V} {s : Mach V} (r : Reach zero s) (x i : Nat) :
    (s.env.size x ≤ i → ∃ m, s.env.get x i = .thr m) ∧
    (i < s.env.size x → ∃ b, (s.heap.blk b).live = true ∧ s.env.size x ≤ (s.heap.blk b).len ∧
      s.env.get x i = match (s.heap.blk b).cell i with
        | some v => .ok v
        | none => .ub .uninit) := by
  refine ⟨fun h => get_of_ge h, fun h => ?_⟩
  obtain ⟨b, hp, _, hl, hlen, ha⟩ := r.inv.access h
  refine ⟨b, hl, hlen, ?_⟩
  show (s.st (x, false)).get s.heap i = _
  rw [get_eq_load ha h, hp, Heap.load, Heap.cellAt_some hl (by omega)]
  cases (s.heap.blk b).cell i <;> rfl

theorem Inv.setElem {s : Mach V} (I : Inv s) {x i b : Nat} (v : V) (hi : i < s.env.size x)
    (hp : (s.st (x, false)).p = some b) :
    Mach.setElem x i v s = (.ok (), { s with heap := (s.heap.setCells b
      (fun j => if j = i then some v else (s.heap.blk b).cell j)) }) := by
  obtain ⟨b', hp', _, hl, hlen, ha⟩ := I.access hi
  rw [hp] at hp'; cases hp'
  have : Store.set i v (s.heap, s.st (x, false)) = (.ok (), (s.heap.setCells b
      (fun j => if j = i then some v else (s.heap.blk b).cell j), s.st (x, false))) := by
    unfold Store.set
    rw [M.bind_ok (self_apply _)]
    have hck : (s.st (x, false)).checkIdx i = .ok () := by
      have hi : i < (s.st (x, false)).sz := hi
      unfold checkIdx; simp [ha, hi]
    simp only [hck]
    rw [M.bind_ok (M.lift_apply _ _), hp, heapM_ok _ (Heap.store_some hl (by omega))]
  unfold Mach.setElem
  rw [onSlot_apply, this]
  simp only [Mach.put, Prod.mk.injEq, true_and]
  congr 1
  funext z
  split
  · rename_i h; rw [h]
  · rfl

/-- C02, writing: an index outside the vector throws and changes nothing; otherwise that element, and
no other memory cell, changes. -/
theorem C02_write_partial {zero : V} {s : Mach V} (r : Reach zero s) (x i : Nat) (v : V) :
    (s.env.size x ≤ i → ∃ m, exec zero (.setElem x i v) s = (.thr m, s)) ∧
    (i < s.env.size x → ∃ s' b, exec zero (.setElem x i v) s = (.ok (), s') ∧
      (s.st (x, false)).p = some b ∧ s'.env.get x i = .ok v ∧
      (∀ y, s'.env.size y = s.env.size y) ∧ (∀ k, k ≠ i → s'.env.get x k = s.env.get x k) ∧
      (∀ c, c ≠ b → s'.heap.blk c = s.heap.blk c) ∧
      (∀ k, k ≠ i → (s'.heap.blk b).cell k = (s.heap.blk b).cell k)) := by
  constructor
  · intro h
    obtain ⟨m, e⟩ := set_thr (h := s.heap) (s := s.st (x, false)) (v := v) (i := i) h
    refine ⟨m, ?_⟩
    show Mach.setElem x i v s = _
    unfold Mach.setElem
    rw [onSlot_apply, e]
    simp only [Mach.put, Prod.mk.injEq, true_and]
    congr 1
    funext z
    split
    · rename_i h; rw [h]
    · rfl
  · intro h
    obtain ⟨b, hp, _, hl, hlen, ha⟩ := r.inv.access h
    have h : i < (s.st (x, false)).sz := h
    refine ⟨_, b, r.inv.setElem v h hp, hp, ?_, fun _ => rfl, ?_, ?_, ?_⟩
    · show (s.st (x, false)).get _ i = _
      rw [get_eq_load ha h, hp]
      exact Heap.load_some (by simpa using hl) (by simp; omega) (by simp)
    · intro k hk
      show (s.st (x, false)).get _ k = (s.st (x, false)).get _ k
      unfold Store.get Heap.load Heap.cellAt
      rw [hp]
      simp [hk]
    · intro c hc; exact Heap.setCells_ne _ _ hc
    · intro k hk; simp [hk]

/-- Element access never has a memory error. -/
theorem C02_no_memory_error_partial {zero : V} {s : Mach V} (r : Reach zero s) (x i : Nat) (k : UB)
    (h : s.env.get x i = .ub k) : k.memory = false := r.inv.env_noMem x i k h

/-- C02 is false for vectors copied from a vector that was initialised from a temporary: the copy
reports the elements but has no memory for them.  `Vec a = c(1, 2); Vec b = a; b[0]` -/
theorem C02_false_copied :
    let s := (runAll (0 : Int) [.declTemp [1, 2] {}, .declCopy 1] start).2
    s.env.size 2 = 2 ∧ s.env.get 2 0 = .ub .oob := by
  decide +kernel

example : ∃ s, Reach (0 : Int) s ∧ s.env.size 0 = 4 ∧ s.env.get 0 3 = .ok 7 ∧
    (s.env.get 0 4).isThr = true ∧ s.env.size 2 = 4 :=
  ⟨_, sampleReach, by decide +kernel, by decide +kernel, by decide +kernel, by decide +kernel⟩

/-! ## C03 resize -/

/-- C03.  `resize(0)` throws and changes nothing. -/
theorem C03_resize_zero {zero : V} (s : Mach V) (x : Nat) :
    ∃ m, exec zero (.resize x 0) s = (.thr m, s) := by
  refine ⟨"Size has to be larger than 0", ?_⟩
  have hput : s.put (x, false) (s.heap, s.st (x, false)) = s := by
    simp only [Mach.put]
    congr 1
    funext z
    split
    · rename_i h; rw [h]
    · rfl
  show Mach.resize zero x 0 s = _
  unfold Mach.resize
  rw [M.bind_ok (M.get_apply _)]
  split
  · rw [onSlot_apply]
    have : borrowResize 0 (s.heap, s.st (x, false))
        = (.thr "Size has to be larger than 0", (s.heap, s.st (x, false))) := by
      unfold borrowResize
      rw [M.bind_thr (M.ass_neg (by omega) _)]
    rw [this, hput]
  · rw [onSlot_apply, resize_zero, hput]

/-- C03 (`n` up to `2^59`, beyond which `new` fails anyway) for vectors that own their memory:
`resize(n)` succeeds, the size is then `n`; within the capacity the elements stay as they are; beyond
the capacity all elements are zero.  The matrix attribute and all other vectors are unchanged. -/
theorem C03_resize {zero : V} {s : Mach V} (r : Reach zero s) (x n : Nat)
    (hb : s.bor x = false) (h1 : 1 ≤ n) (h2 : n ≤ 2 ^ 59) :
    ∃ s', exec zero (.resize x n) s = (.ok (), s') ∧ s'.env.size x = n ∧
      (n ≤ (s.st (x, false)).capacity →
        ∀ i, i < n → i < s.env.size x → s'.env.get x i = s.env.get x i) ∧
      ((s.st (x, false)).capacity < n → ∀ i, i < n → s'.env.get x i = .ok zero) ∧
      s'.env.mp x = s.env.mp x ∧ ∀ y, y ≠ x → SameVar s s' y := by
  have I := r.inv
  have D := I.d x hb
  obtain ⟨h', d', e, w, st, z, a, m, c, k, g⟩ := resize_spec (zero := zero) I.sched D.wf.own D.al h1 h2
  refine ⟨s.put (x, false) (h', d'), ?_, ?_, ?_, ?_, ?_, ?_⟩
  · show Mach.resize zero x n s = _
    unfold Mach.resize
    rw [M.bind_ok (M.get_apply _), if_neg (by rw [hb]; simp)]
    exact onSlot_ok e
  · show ((s.put (x, false) (h', d')).st (x, false)).sz = n
    rw [put_same]; exact z
  · intro hc i hi hi'
    obtain ⟨k1, k2⟩ := k hc
    have hi' : i < (s.st (x, false)).sz := hi'
    show ((s.put (x, false) (h', d')).st (x, false)).get h' i = (s.st (x, false)).get _ i
    rw [put_same, get_eq_load a (by rw [z]; exact hi), get_eq_load (by rw [k2] at a; exact a) hi',
      k1, k2]
  · intro hc i hi
    show ((s.put (x, false) _).st (x, false)).get h' i = _
    rw [put_same]
    have := (g hc).2.2 i (by simpa using hi)
    simpa using this
  · show ((s.put (x, false) (h', d')).st (x, false)).mp = _
    rw [put_same]; exact m
  · intro y hy
    have hy' : (y, false) ≠ (x, false) := by simpa using hy
    refine ⟨?_, fun i => ?_, ?_⟩
    · show ((s.put (x, false) (h', d')).st (y, false)).sz = _
      rw [put_ne _ _ hy']; rfl
    · show ((s.put (x, false) (h', d')).st (y, false)).get h' i = (s.st (y, false)).get s.heap i
      rw [put_ne _ _ hy']
      refine get_frame (fun b hpb => ?_) i
      cases hby : s.bor y with
      | false => exact I.frame_step (r := (h', d')) (Or.inr hb) (Or.inr hby) hy' st b hpb
      | true =>
        obtain ⟨b', h1, h2, _, h4, _⟩ := (I.b y hby).ptr
        rw [hpb] at h1; cases h1
        refine st.frame b h2 (fun hyb => ?_)
        have := (D.wf.own.ptr b hyb).2.2.1
        rw [h4] at this; simp at this
    · show ((s.put (x, false) (h', d')).st (y, false)).mp = _
      rw [put_ne _ _ hy']; rfl

/-- C03 for borrowed vectors: within the borrowed range the size is set and nothing else changes, the elements in range stay as they are;
beyond it the call throws and changes nothing. -/
theorem C03_resize_borrowed {zero : V} (s : Mach V) (x n : Nat) (hb : s.bor x = true) (h1 : 1 ≤ n) :
    (n ≤ (s.st (x, false)).capacity → ∃ s', exec zero (.resize x n) s = (.ok (), s') ∧
      s'.env.size x = n ∧ (∀ i, i < n → i < s.env.size x → s'.env.get x i = s.env.get x i) ∧ s'.env.mp x = s.env.mp x ∧
      s'.heap = s.heap ∧ ∀ z, z ≠ (x, false) → s'.st z = s.st z) ∧
    ((s.st (x, false)).capacity < n → ∃ m, exec zero (.resize x n) s = (.thr m, s)) := by
  have hput : s.put (x, false) (s.heap, s.st (x, false)) = s := by
    simp only [Mach.put]
    congr 1
    funext z
    split
    · rename_i h; rw [h]
    · rfl
  have e0 : exec zero (.resize x n) s = onSlot (x, false) (borrowResize n) s := by
    show Mach.resize zero x n s = _
    unfold Mach.resize
    rw [M.bind_ok (M.get_apply _), if_pos hb]
  constructor
  · intro hc
    refine ⟨s.put (x, false) (s.heap, { s.st (x, false) with sz := n }), ?_, ?_, fun i h1 h2 => ?_, ?_, rfl,
      fun z hz => put_ne _ _ hz⟩
    rotate_left 2
    · have h2' : i < (s.st (x, false)).sz := h2
      show ((s.put (x, false) _).st (x, false)).get s.heap i = (s.st (x, false)).get s.heap i
      rw [put_same]
      simp only [Store.get, checkIdx, Out.ass, h1, h2', if_true]
    · show ((s.put (x, false) _).st (x, false)).mp = _
      rw [put_same]
      rfl
    · rw [e0]
      refine onSlot_ok ?_
      unfold borrowResize
      rw [M.bind_ok (M.ass_pos h1 _), M.bind_ok (self_apply _), if_pos hc, upd_apply]
    · show ((s.put (x, false) _).st (x, false)).sz = n
      rw [put_same]
  · intro hc
    refine ⟨"Cannot resize Borrow element above size of borrowed object", ?_⟩
    rw [e0, onSlot_apply]
    have : borrowResize n (s.heap, s.st (x, false))
        = (.thr "Cannot resize Borrow element above size of borrowed object",
            (s.heap, s.st (x, false))) := by
      unfold borrowResize
      rw [M.bind_ok (M.ass_pos h1 _), M.bind_ok (self_apply _), if_neg (by
        show ¬ n ≤ (s.st (x, false)).capacity; omega)]
      rfl
    rw [this, hput]

/-- A vector of 3 elements 1, 2, 3 (capacity 3): `resize(2)` keeps 1, 2 and `resize(5)` then gives five
zeros. -/
example :
    let s := (runAll (0 : Int) [.declSize 3, .setElem 0 0 1, .setElem 0 1 2, .setElem 0 2 3,
      .resize 0 2] start).2
    (List.range 2).map (s.env.get 0) = [1, 2].map Out.ok ∧
    (List.range 5).map ((exec 0 (.resize 0 5) s).2.env.get 0) = [0, 0, 0, 0, 0].map Out.ok := by
  decide +kernel

/-! ## C04 no garbage -/

/-- C04 is false: the part of the block between size and capacity is not initialised, and `resize`
within the capacity exposes it.  `Vec a; a.resize(20); a.resize(22); a[21]` -/
theorem C04_false_uninitialised :
    ∃ s s', Reach (0 : Int) s ∧ exec 0 (.resize 0 22) s = (.ok (), s') ∧ s'.env.size 0 = 22 ∧
      s'.env.get 0 21 = .ub .uninit :=
  ⟨(runAll 0 [.declDefault, .resize 0 20] start).2, _,
    ⟨[.declDefault, .resize 0 20], .cons trivial (.cons ⟨by decide +kernel, by decide⟩ trivial),
      Prod.ext (by decide +kernel) rfl⟩, Prod.ext (by decide +kernel) rfl, by decide +kernel,
    by decide +kernel⟩

/-- C04 is false also when all memory is initialised: an element that was cut off by a shorter
`resize` comes back.  The element at index 2 does not exist before the last `resize(3)`, afterwards
it is 7, not 0. -/
theorem C04_false_stale :
    ∃ s s', Reach (0 : Int) s ∧ exec 0 (.resize 0 3) s = (.ok (), s') ∧ s.env.size 0 = 1 ∧
      s'.env.get 0 2 = .ok 7 :=
  ⟨(runAll 0 [.declSize 3, .setElem 0 2 7, .resize 0 1] start).2, _,
    ⟨[.declSize 3, .setElem 0 2 7, .resize 0 1], .cons (by show _ ≤ _; decide)
      (.cons (by show _ < _; decide +kernel) (.cons ⟨by decide +kernel, by decide⟩ trivial)),
      Prod.ext (by decide +kernel) rfl⟩, Prod.ext (by decide +kernel) rfl, by decide +kernel,
    by decide +kernel⟩

/-- C04 (partial: the vector is not extended within its capacity). -/
theorem C04_determinate_partial {zero : V} {s : Mach V} (r : Reach zero s) (x n : Nat) (l : List V)
    (hb : s.bor x = false) (hl : ShowsVar s x l) (h1 : 1 ≤ n) (h2 : n ≤ 2 ^ 59)
    (hn : (n ≤ l.length ∧ n ≤ (s.st (x, false)).capacity) ∨ (s.st (x, false)).capacity < n) :
    ∃ s', exec zero (.resize x n) s = (.ok (), s') ∧
      ShowsVar s' x (if (s.st (x, false)).capacity < n then List.replicate n zero else l.take n) := by
  obtain ⟨s', e, z, k, g, _⟩ := C03_resize (zero := zero) r x n hb h1 h2
  refine ⟨s', e, ?_⟩
  split
  · rename_i hc
    exact ⟨by rw [z]; simp, fun i hi => by simpa using g hc i (by simpa using hi)⟩
  · rename_i hc
    have hn : n ≤ l.length ∧ n ≤ (s.st (x, false)).capacity := hn.resolve_right hc
    refine ⟨by rw [z, List.length_take]; omega, fun i hi => ?_⟩
    rw [List.length_take] at hi
    rw [k hn.2 i (by omega) (by rw [hl.1]; omega), hl.2 i (by omega), List.getElem_take]

example : ∃ s, Reach (0 : Int) s ∧ (List.range 2).map (s.env.get 0) = [0, 5].map Out.ok ∧
    (s.st (0, false)).capacity = 2 ∧
    (List.range 1).map ((exec 0 (.resize 0 1) s).2.env.get 0) = [0].map Out.ok ∧
    (List.range 3).map ((exec 0 (.resize 0 3) s).2.env.get 0) = [0, 0, 0].map Out.ok :=
  ⟨(runAll 0 [.declSize 2, .setElem 0 1 5] start).2,
    ⟨[.declSize 2, .setElem 0 1 5], .cons (by show _ ≤ _; decide)
      (.cons (by show _ < _; decide +kernel) trivial), Prod.ext (by decide +kernel) rfl⟩,
    by decide +kernel, by decide +kernel, by decide +kernel, by decide +kernel⟩

example : (∃ m, (runAll (0 : Int) sampleHistory start).2.env.get 0 4 = .thr m) ∧
    (∃ m, exec 0 (.setElem 0 9 5) (runAll (0 : Int) sampleHistory start).2 = (.thr m, (runAll (0 : Int) sampleHistory start).2)) ∧
    ∃ s', exec 0 (.setElem 0 2 5) (runAll (0 : Int) sampleHistory start).2 = (.ok (), s') ∧ s'.env.get 0 2 = .ok 5 := by
  refine ⟨(C02_read_partial sampleReach 0 4).1 (by decide +kernel), (C02_write_partial sampleReach 0 9 5).1 (by decide +kernel), ?_⟩
  obtain ⟨s', b, h1, _, h2, _⟩ := (C02_write_partial sampleReach 0 2 5).2 (by decide +kernel)
  exact ⟨s', h1, h2⟩

example (i : Nat) (k : UB) (h : (runAll (0 : Int) sampleHistory start).2.env.get 0 i = .ub k) : k ≠ .oob ∧ k ≠ .nullDeref := by
  have := C02_no_memory_error_partial sampleReach 0 i k h
  constructor <;> rintro rfl <;> cases this

example : (∃ m, exec 0 (.resize 0 0) (runAll (0 : Int) sampleHistory start).2 = (.thr m, (runAll (0 : Int) sampleHistory start).2)) ∧
    ∃ s', exec 0 (.resize 0 100) (runAll (0 : Int) sampleHistory start).2 = (.ok (), s') ∧ s'.env.size 0 = 100 ∧ s'.env.get 0 3 = .ok 0 := by
  refine ⟨C03_resize_zero _ 0, ?_⟩
  obtain ⟨s', h1, h2, _, h3, _⟩ := C03_resize sampleReach 0 100 (by decide +kernel) (by decide) (by decide)
  exact ⟨s', h1, h2, h3 (by decide +kernel) 3 (by decide)⟩

end Mach
end ETR
