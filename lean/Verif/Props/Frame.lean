import Verif.Props.Vector

/-! Independence of vectors and the memory of the caller: C07, C19, C21. -/

namespace ETR
namespace Mach
open Store Spec

variable {V : Type}

/-! ## Vectors that are not the target of an operation -/

theorem Block.ext_cells {B B' : Block V} (h1 : ∀ j, B.cell j = B'.cell j) (h2 : B.live = B'.live)
    (h3 : B.newed = B'.newed) (h4 : B.len = B'.len) : B = B' := by
  cases B; cases B'
  simp only at h1 h2 h3 h4
  subst h2 h3 h4
  congr
  exact funext h1

theorem FI.init {s : Mach V} (I : Inv s) {y b : Nat} (j : Nat) (hb : s.bor y = false)
    (hp : (s.st (y, false)).p = some b) : FI y b j (s.heap.blk b) (s.st (y, false)) s := by
  obtain ⟨h1, h2, h3, _⟩ := (I.d y hb).wf.ptr b hp
  refine ⟨⟨h1, rfl, rfl, rfl, rfl⟩, ?_, ?_, rfl, hb⟩
  · intro z hz ho hzb
    exact hz (I.inj z (y, false) b ho (Or.inr hb) hzb hp)
  · intro x hx hxb
    obtain ⟨b', e, _, _, hn, _⟩ := (I.b x hx).ptr
    rw [hxb] at e; cases e
    rw [h3] at hn; simp at hn

theorem Inv.exec {zero : V} {c : Cmd V} {s s' : Mach V} (I : Inv s) (ha : s.Allowed c)
    {o : Out Unit} (e : Mach.exec zero c s = (o, s')) (ho : ∀ k, o ≠ .ub k) : Inv s' := by
  have := exec_safe (zero := zero) I ha s rfl
  rw [e] at this
  cases o with
  | ub k => exact absurd rfl (ho k)
  | ok u => exact this
  | thr m => exact this

/-- One operation leaves the vectors alone that it is not applied to: data member and memory. -/
theorem exec_same {zero : V} {c : Cmd V} {s s' : Mach V} (I : Inv s) (ha : s.Allowed c) {y b : Nat}
    (hy : y < s.n) (hb : s.bor y = false) (hp : (s.st (y, false)).p = some b)
    (ht : c.target ≠ some y) {o : Out Unit} (e : Mach.exec zero c s = (o, s'))
    (ho : ∀ k, o ≠ .ub k) :
    s'.st (y, false) = s.st (y, false) ∧ s'.heap.blk b = s.heap.blk b := by
  obtain ⟨h1, h2, h3, _⟩ := (I.d y hb).wf.ptr b hp
  have key : ∀ j, FI y b j (s.heap.blk b) (s.st (y, false)) s' := by
    intro j
    have := exec_frame (zero := zero) I ha (Or.inl hy) ht (by
      rintro p n rfl hpb
      have := ha.2.2 b hpb
      rw [h3] at this; simp at this) (FI.init I j hb hp)
    rw [e] at this
    cases o with
    | ub k => exact absurd rfl (ho k)
    | ok u => exact this
    | thr m => exact this
  refine ⟨(key 0).fr, Block.ext_cells (fun j => (key j).k.cell) (key 0).k.live (key 0).k.newed
    (key 0).k.len⟩

theorem runAll_same {zero : V} (ds : List (Cmd V)) : ∀ (s s' : Mach V), Inv s →
    AllowedAll zero ds s → ∀ {y b : Nat}, y < s.n → s.bor y = false →
    (s.st (y, false)).p = some b → (∀ c ∈ ds, c.target ≠ some y) →
    runAll zero ds s = (none, s') →
    s'.st (y, false) = s.st (y, false) ∧ s'.heap.blk b = s.heap.blk b := by
  induction ds with
  | nil =>
    intro s s' _ _ y b _ _ _ _ e
    simp only [runAll, Prod.mk.injEq, true_and] at e
    rw [← e]; exact ⟨rfl, rfl⟩
  | cons c ds ih =>
    intro s s' I ha y b hy hb hp ht e
    have hal := ha.2
    have nb := exec_nb (zero := zero) (c := c) (x := y) (s := s) ⟨hy, hb⟩
    rw [runAll] at e
    rcases hm : exec zero c s with ⟨o, s1⟩
    rw [hm] at e hal nb
    have fin : (∀ k, o ≠ .ub k) → NB y s1 → AllowedAll zero ds s1 → runAll zero ds s1 = (none, s') →
        s'.st (y, false) = s.st (y, false) ∧ s'.heap.blk b = s.heap.blk b := by
      intro ho nb hal e
      obtain ⟨e1, e2⟩ := exec_same I ha.1 hy hb hp (ht c (by simp)) hm ho
      obtain ⟨e3, e4⟩ := ih s1 s' (I.exec ha.1 hm ho) hal nb.1 nb.2 (by rw [e1]; exact hp)
        (fun c hc => ht c (by simp [hc])) e
      exact ⟨e3.trans e1, e4.trans e2⟩
    cases o with
    | ub k => simp at e
    | ok u => exact fin (by simp) nb hal e
    | thr m => exact fin (by simp) nb hal e

/-! ## C07 copies -/

/-- Every allowed history that does not operate on the (non-empty, owning) vector `y` leaves its
length, its elements and its dimensions as they were, whatever it does to all other vectors, copies of
`y` included. -/
theorem C07_independent {zero : V} {s s' : Mach V} (r : Reach zero s) (y : Nat) (hy : y < s.n)
    (hb : s.bor y = false) (hne : 1 ≤ s.env.size y) (ds : List (Cmd V))
    (ha : AllowedAll zero ds s) (ht : ∀ c ∈ ds, c.target ≠ some y)
    (e : runAll zero ds s = (none, s')) : SameVar s s' y := by
  obtain ⟨b, hp, _⟩ := r.inv.access (x := y) (i := 0) (by omega)
  obtain ⟨e1, e2⟩ := runAll_same ds s s' r.inv ha hy hb hp ht e
  refine ⟨?_, fun i => ?_, ?_⟩
  · show (s'.st (y, false)).sz = (s.st (y, false)).sz; rw [e1]
  · show (s'.st (y, false)).get s'.heap i = (s.st (y, false)).get s.heap i
    rw [e1]
    refine get_frame (fun b' hb' => ?_) i
    rw [hp] at hb'; cases hb'; exact e2
  · show (s'.st (y, false)).mp = (s.st (y, false)).mp; rw [e1]

example : SameVar (runAll (0 : Int) sampleHistory start).2
    (runAll 0 [.setElem 2 0 5, .destroy 2] (runAll (0 : Int) sampleHistory start).2).2 0 :=
  C07_independent sampleReach 0 (by decide +kernel) (by decide +kernel) (by decide +kernel) [.setElem 2 0 5, .destroy 2]
    (.cons (by show _ < _; decide +kernel) (.cons (by show _ < _; decide +kernel) trivial)) (by simp [Cmd.target])
    (Prod.ext (by decide +kernel) rfl)

/-- The second half of the copy constructor never fails and does not touch existing memory. -/
theorem copyTemp {h : Heap V} {t : Store} (hs : h.sched = []) (T : TInv h t) :
    ∃ h' t', Store.copyCtor t (h, ({} : Store)) = (.ok (), (h', t')) ∧ h.next ≤ h'.next ∧
      ∀ b, b < h.next → h'.blk b = h.blk b := by
  cases hp : t.p with
  | some b =>
    refine ⟨_, _, copyCtor_some hs T.own hp (by have := T.cap; omega), by simp, fun c hc => ?_⟩
    exact Heap.addBlk_lt _ _ hc
  | none =>
    cases hal : t.allocated with
    | false => exact ⟨_, _, copyCtor_unalloc hal, le_refl _, fun _ _ => rfl⟩
    | true =>
      refine ⟨_, _, copyCtor_null hs hal (T.own.null hp), by simp, fun c hc => ?_⟩
      exact Heap.addBlk_lt _ _ hc

/-- C07 (partial: the matrix dimensions are not copied, see `C07_false_dims`; the source must have
capacity for its elements, which is not so if it was just initialised from a temporary, see
`C07_false_moved_in`).  The copy of an owning vector shows the same list, the source is unchanged,
the copy owns its memory; `C07_independent` then applies to both. -/
theorem C07_copy_partial {zero : V} {s : Mach V} (r : Reach zero s) (y : Nat) (l : List V)
    (hb : s.bor y = false) (hl : ShowsVar s y l) (hne : l ≠ [])
    (hc : (s.st (y, false)).sz ≤ (s.st (y, false)).capacity) :
    ∃ s', exec zero (.declCopy y) s = (.ok (), s') ∧ ShowsVar s' s.n l ∧ SameVar s s' y ∧
      s'.bor s.n = false ∧ s'.n = s.n + 1 ∧ s'.env.mp s.n = {} := by
  have I := r.inv
  have D := I.d y hb
  obtain ⟨f1, f2, f3⟩ := I.fresh s.n (le_refl _)
  have hpos := List.length_pos_iff.mpr hne
  have hsz : (s.st (y, false)).sz = l.length := hl.1
  have hyn : y ≠ s.n := by
    rintro rfl
    rw [f1] at hsz; simp only [] at hsz; omega
  obtain ⟨h1, d1, q1, w1, sh1, st1, z1, c1, m1, fr1, a1⟩ := copyCtor_spec I.sched D.wf
    (l := l) ⟨hl.1, hl.2⟩ D.al hc (by have := D.cap; omega)
  have T : TInv h1 (s.st (y, true)) := (I.t y).frame st1.next_le (fun b hpb =>
    fr1 b ((I.t y).own.ptr b hpb).1)
  obtain ⟨h2, t2, q2, hn2, fr2⟩ := copyTemp (st1.sched I.sched) T
  refine ⟨(s.bump.put (s.n, false) (h1, d1)).put (s.n, true) (h2, t2), ?_, ?_, ?_, ?_, rfl, ?_⟩
  · show Mach.declCopy y s = _
    unfold Mach.declCopy
    refine decl_ok (a := ()) ?_
    rw [M.bind_ok (M.get_apply _), if_neg (by simp only [Mach.bump]; rw [hb]; simp)]
    have b1 : onSlot (s.n, false) (Store.copyCtor (s.bump.st (y, false))) s.bump
        = (.ok (), s.bump.put (s.n, false) (h1, d1)) := by
      refine onSlot_ok (r := (h1, d1)) ?_
      rw [show s.bump.st (s.n, false) = {} from f1]; exact q1
    rw [M.bind_ok b1]
    refine onSlot_ok (r := (h2, t2)) ?_
    rw [put_ne _ _ (by simp), show s.bump.st (s.n, true) = {} from f2]; exact q2
  · have : Shows h2 d1 l := shows_frame (fun b hpb => fr2 b (w1.ptr b hpb).1) sh1
    refine ⟨?_, fun i hi => ?_⟩
    · show (((s.bump.put (s.n, false) (h1, d1)).put (s.n, true) (h2, t2)).st (s.n, false)).sz = _
      rw [put_ne _ _ (by simp), put_same]; exact this.1
    · show (((s.bump.put (s.n, false) (h1, d1)).put (s.n, true) (h2, t2)).st (s.n, false)).get h2 i = _
      rw [put_ne _ _ (by simp), put_same]; exact this.2 i hi
  · have est : ((s.bump.put (s.n, false) (h1, d1)).put (s.n, true) (h2, t2)).st (y, false)
        = s.st (y, false) := by
      rw [put_ne _ _ (by simp), put_ne _ _ (by simpa using hyn)]; rfl
    refine ⟨?_, fun i => ?_, ?_⟩
    · show (((s.bump.put (s.n, false) (h1, d1)).put (s.n, true) (h2, t2)).st (y, false)).sz = _
      rw [est]; rfl
    · show (((s.bump.put (s.n, false) (h1, d1)).put (s.n, true) (h2, t2)).st (y, false)).get h2 i
        = (s.st (y, false)).get s.heap i
      rw [est]
      refine get_frame (fun b hpb => ?_) i
      have := (D.wf.ptr b hpb).1
      rw [fr2 b (by have := st1.next_le; omega), fr1 b this]
    · show (((s.bump.put (s.n, false) (h1, d1)).put (s.n, true) (h2, t2)).st (y, false)).mp = _
      rw [est]; rfl
  · exact f3
  · show (((s.bump.put (s.n, false) (h1, d1)).put (s.n, true) (h2, t2)).st (s.n, false)).mp = _
    rw [put_ne _ _ (by simp), put_same]; exact m1

/-- Copy of a vector with elements 1, 2; then the original is changed and the copy appended to. -/
example :
    let cs : List (Cmd Int) := [.declSize 2, .setElem 0 0 1, .setElem 0 1 2, .declCopy 0,
      .setElem 0 0 9, .pushBack 1 3]
    let s := (runAll 0 cs start).2
    (runAll 0 cs start).1 = none ∧ (List.range 2).map (s.env.get 0) = [9, 2].map Out.ok ∧
      (List.range 3).map (s.env.get 1) = [1, 2, 3].map Out.ok := by
  decide +kernel

example : ∃ s, Reach (0 : Int) s ∧ s.bor 0 = false ∧ 1 ≤ s.env.size 0 ∧ s.n = 3 ∧
    AllowedAll 0 [.setElem 2 0 5, .destroy 2] s ∧
    (∀ c ∈ [Cmd.setElem 2 0 5, Cmd.destroy (V := Int) 2], c.target ≠ some 0) ∧
    (runAll 0 [.setElem 2 0 5, .destroy 2] s).1 = none :=
  ⟨_, sampleReach, by decide +kernel, by decide +kernel, by decide +kernel,
    .cons (by show _ < _; decide +kernel) (.cons (by show _ < _; decide +kernel) trivial),
    by simp [Cmd.target], by decide +kernel⟩

/-- C07 is false: the copy of a matrix is no matrix. -/
theorem C07_false_dims : ∃ s s', Reach (0 : Int) s ∧ exec 0 (.declCopy 0) s = (.ok (), s') ∧
    s'.env.mp 0 = ⟨true, 2, 2⟩ ∧ s'.env.mp 1 = ⟨false, 0, 0⟩ :=
  ⟨(runAll 0 [.declMat 2 2] start).2, _,
    ⟨[.declMat 2 2], .cons (by show _ ≤ _; decide) trivial, Prod.ext (by decide +kernel) rfl⟩,
    Prod.ext (by decide +kernel) rfl, by decide +kernel, by decide +kernel⟩

/-- C07 is false: the copy of a vector that was initialised from a temporary has the right length,
but no elements: reading or writing one is an access outside of the allocated memory. -/
theorem C07_false_moved_in : ∃ s s', Reach (0 : Int) s ∧ exec 0 (.declCopy 1) s = (.ok (), s') ∧
    (List.range 2).map (s.env.get 1) = [1, 2].map Out.ok ∧ s'.env.size 2 = 2 ∧
    s'.env.get 2 0 = .ub .oob ∧ (exec 0 (.setElem 2 0 5) s').1 = .ub .oob :=
  ⟨(runAll 0 [.declTemp [1, 2] {}] start).2, _,
    ⟨[.declTemp [1, 2] {}], .cons (by show _ ≤ _; decide) trivial, Prod.ext (by decide +kernel) rfl⟩,
    Prod.ext (by decide +kernel) rfl, by decide +kernel, by decide +kernel, by decide +kernel,
    by decide +kernel⟩

/-! ## C19 and C21 the memory of the caller -/

/-- No borrowed vector reaches cell `j` of block `b`. -/
def OutOfReach (b j : Nat) (s : Mach V) : Prop :=
  ∀ x, s.bor x = true → (s.st (x, false)).p = some b → (s.st (x, false)).capacity ≤ j

theorem exec_foreign {zero : V} {c : Cmd V} {s s' : Mach V} (I : Inv s) (ha : s.Allowed c)
    {b j : Nat} (hb : b < s.heap.next) (hn : (s.heap.blk b).newed = false) (hr : OutOfReach b j s)
    (hbw : ∀ p n, c = .declBorrow p n → p = some b → n ≤ j)
    {o : Out Unit} (e : Mach.exec zero c s = (o, s')) (ho : ∀ k, o ≠ .ub k) :
    CellOK b j (s.heap.blk b) s'.heap ∧ OutOfReach b j s' := by
  obtain ⟨f1, f2, f3⟩ := I.fresh (s.n + 2) (by omega)
  obtain ⟨y, hy1, hy2⟩ : ∃ y, s.n + 1 < y ∧ c.target ≠ some y := by
    cases h : c.target with
    | none => exact ⟨s.n + 2, by omega, by simp⟩
    | some t =>
      refine ⟨s.n + 2 + t, by omega, ?_⟩
      simp only [ne_eq, Option.some.injEq]; omega
  obtain ⟨f1, f2, f3⟩ := I.fresh y (by omega)
  have F : FI y b j (s.heap.blk b) {} s := by
    refine ⟨⟨hb, rfl, rfl, rfl, rfl⟩, ?_, ?_, f1, f3⟩
    · intro z _ hz hzb
      have := ((I.ownOf hz).ptr b hzb).2.2.1
      rw [hn] at this; simp at this
    · intro x hx hxb
      have B := I.b x hx
      exact ⟨B.cap, B.sz, hr x hx hxb⟩
  have := exec_frame (zero := zero) I ha (Or.inr hy1) hy2 hbw F
  rw [e] at this
  have fin : FI y b j (s.heap.blk b) {} s' → CellOK b j (s.heap.blk b) s'.heap ∧ OutOfReach b j s' :=
    fun F => ⟨F.k, fun x hx hxb => (F.brw x hx hxb).2.2⟩
  cases o with
  | ub k => exact absurd rfl (ho k)
  | ok u => exact fin this
  | thr m => exact fin this

theorem runAll_foreign {zero : V} (b j : Nat) (ds : List (Cmd V)) : ∀ (s s' : Mach V), Inv s →
    AllowedAll zero ds s → b < s.heap.next → (s.heap.blk b).newed = false → OutOfReach b j s →
    (∀ p n, Cmd.declBorrow p n ∈ ds → p = some b → n ≤ j) → runAll zero ds s = (none, s') →
    CellOK b j (s.heap.blk b) s'.heap ∧ OutOfReach b j s' := by
  induction ds with
  | nil =>
    intro s s' _ _ hb _ hr _ e
    simp only [runAll, Prod.mk.injEq, true_and] at e
    rw [← e]; exact ⟨⟨hb, rfl, rfl, rfl, rfl⟩, hr⟩
  | cons c ds ih =>
    intro s s' I ha hb hn hr hbw e
    have hal := ha.2
    rw [runAll] at e
    rcases hm : exec zero c s with ⟨o, s1⟩
    rw [hm] at e hal
    have fin : (∀ k, o ≠ .ub k) → AllowedAll zero ds s1 → runAll zero ds s1 = (none, s') →
        CellOK b j (s.heap.blk b) s'.heap ∧ OutOfReach b j s' := by
      intro ho hal e
      obtain ⟨k1, r1⟩ := exec_foreign I ha.1 hb hn hr
        (fun p n h hp => hbw p n (by simp [h]) hp) hm ho
      obtain ⟨k2, r2⟩ := ih s1 s' (I.exec ha.1 hm ho) hal k1.lt (by rw [k1.newed]; exact hn) r1
        (fun p n h hp => hbw p n (by simp [h]) hp) e
      exact ⟨⟨k2.lt, k2.cell.trans k1.cell, k2.live.trans k1.live, k2.newed.trans k1.newed,
        k2.len.trans k1.len⟩, r2⟩
    cases o with
    | ub k => simp at e
    | ok u => exact fin (by simp) hal e
    | thr m => exact fin (by simp) hal e

/-- C19, access: element `i` of a borrowed vector is cell `i` of the memory of the caller, for reading
and for writing; a write changes only that cell. -/
theorem C19_in_place {zero : V} {s : Mach V} (r : Reach zero s) (x i b : Nat) (v : V)
    (hi : i < s.env.size x) (hp : (s.st (x, false)).p = some b) :
    s.env.get x i = s.heap.load (some b) i ∧
    ∃ s', exec zero (.setElem x i v) s = (.ok (), s') ∧ s'.heap.load (some b) i = .ok v ∧
      (∀ k, k ≠ i → (s'.heap.blk b).cell k = (s.heap.blk b).cell k) ∧
      (∀ c, c ≠ b → s'.heap.blk c = s.heap.blk c) ∧ s'.st = s.st := by
  obtain ⟨b', hp', _, hl, hlen, ha⟩ := r.inv.access hi
  rw [hp] at hp'; cases hp'
  constructor
  · show (s.st (x, false)).get s.heap i = _
    rw [get_eq_load ha hi, hp]
  · refine ⟨_, r.inv.setElem v hi hp, ?_, ?_, ?_, rfl⟩
    · exact Heap.load_some (by simpa using hl) (by simp; omega) (by simp)
    · intro k hk; simp [hk]
    · intro c hc; exact Heap.setCells_ne _ _ hc

example : ∃ s', exec 0 (.setElem 0 1 9) (runAll (0 : Int) sampleBorrow start).2 = (.ok (), s') ∧ s'.heap.load (some 0) 1 = .ok 9 := by
  obtain ⟨_, s', e, h, _⟩ := C19_in_place sampleBorrowReach 0 1 0 9 (by decide +kernel) (by decide +kernel)
  exact ⟨s', e, h⟩

/-- C19, frame (partial: `fill` from a temporary is not an operation of the histories, see
`C21_false_fill_temporary`).  A cell of the caller's memory outside of all borrowed ranges is not
changed by any allowed history, whatever vectors it uses. -/
theorem C19_frame_partial {zero : V} {s s' : Mach V} (r : Reach zero s) (b j : Nat)
    (hb : b < s.heap.next) (hn : (s.heap.blk b).newed = false) (hr : OutOfReach b j s)
    (ds : List (Cmd V)) (ha : AllowedAll zero ds s)
    (hbw : ∀ p n, Cmd.declBorrow p n ∈ ds → p = some b → n ≤ j)
    (e : runAll zero ds s = (none, s')) : (s'.heap.blk b).cell j = (s.heap.blk b).cell j :=
  (runAll_foreign b j ds s s' r.inv ha hb hn hr hbw e).1.cell

/-- Borrow 2 of 3 cells, assign, shrink, extend: the third cell keeps its value. -/
def borrowHistory : List (Cmd Int) :=
  [.declBorrow (some 0) 2, .assign .ok 0 (.rvec [8, 9] {}), .resize 0 1, .resize 0 3, .resize 0 2,
   .setElem 0 1 5]

example : ∃ s s', Reach (0 : Int) s ∧ OutOfReach 0 2 s ∧ AllowedAll 0 borrowHistory s ∧
    runAll 0 borrowHistory s = (none, s') ∧
    (List.range 3).map (s'.heap.load (some 0)) = [8, 5, 3].map Out.ok := by
  refine ⟨(runAll 0 [.callerArray [1, 2, 3]] start).2, _,
    ⟨[.callerArray [1, 2, 3]], .cons trivial trivial, Prod.ext (by decide +kernel) rfl⟩,
    ?_, ?_, Prod.ext (by decide +kernel) rfl, by decide +kernel⟩
  · intro x hx; exact absurd hx (by simp [runAll, exec, callerArray, start, M.modify])
  · refine .cons ⟨by decide, ⟨0, rfl, by decide +kernel, by decide +kernel, by decide +kernel⟩, ?_⟩ <|
      .cons ⟨by decide +kernel, fun v => Out.NoMem.ok v, trivial, by decide +kernel⟩ <|
      .cons ⟨by decide +kernel, by decide⟩ <| .cons ⟨by decide +kernel, by decide⟩ <|
      .cons ⟨by decide +kernel, by decide⟩ <| .cons ?_ trivial
    · intro b hb; cases hb; decide +kernel
    · show _ < _; decide +kernel

/-- C21 (partial: without `fill` from a temporary).  No allowed history releases or replaces memory of
the caller. -/
theorem C21_never_freed_partial {zero : V} {s s' : Mach V} (r : Reach zero s) (b : Nat)
    (hb : b < s.heap.next) (hn : (s.heap.blk b).newed = false) (ds : List (Cmd V))
    (ha : AllowedAll zero ds s) (e : runAll zero ds s = (none, s')) :
    (s'.heap.blk b).live = (s.heap.blk b).live ∧ (s'.heap.blk b).len = (s.heap.blk b).len := by
  -- induction: the length of the block never changes, so no borrowed range reaches beyond it
  suffices h : ∀ (ds : List (Cmd V)) (s s' : Mach V), Inv s → AllowedAll zero ds s →
      b < s.heap.next → (s.heap.blk b).newed = false → runAll zero ds s = (none, s') →
      (s'.heap.blk b).live = (s.heap.blk b).live ∧ (s'.heap.blk b).len = (s.heap.blk b).len from
    h ds s s' r.inv ha hb hn e
  intro ds
  induction ds with
  | nil =>
    intro s s' _ _ _ _ e
    simp only [runAll, Prod.mk.injEq, true_and] at e
    rw [← e]; exact ⟨rfl, rfl⟩
  | cons c ds ih =>
    intro s s' I ha hb hn e
    have hal := ha.2
    rw [runAll] at e
    rcases hm : exec zero c s with ⟨o, s1⟩
    rw [hm] at e hal
    have fin : (∀ k, o ≠ .ub k) → AllowedAll zero ds s1 → runAll zero ds s1 = (none, s') →
        (s'.heap.blk b).live = (s.heap.blk b).live ∧ (s'.heap.blk b).len = (s.heap.blk b).len := by
      intro ho hal e
      obtain ⟨k1, _⟩ := exec_foreign (j := (s.heap.blk b).len) I ha.1 hb hn (by
        intro x hx hxb
        obtain ⟨b', h1, _, _, _, h5⟩ := (I.b x hx).ptr
        rw [hxb] at h1; cases h1; exact h5) (by
        rintro p n rfl hpb
        obtain ⟨_, ⟨b', h1, _, _, h4⟩, _⟩ := ha.1
        rw [hpb] at h1; cases h1; exact h4) hm ho
      obtain ⟨e1, e2⟩ := ih s1 s' (I.exec ha.1 hm ho) hal k1.lt (by rw [k1.newed]; exact hn) e
      exact ⟨e1.trans k1.live, e2.trans k1.len⟩
    cases o with
    | ub k => simp at e
    | ok u => exact fin (by simp) hal e
    | thr m => exact fin (by simp) hal e

example : ((runAll 0 [.assign .ok 0 (.rvec [7, 8, 9] {}), .destroy 0] (runAll (0 : Int) sampleBorrow start).2).2.heap.blk 0).live = true :=
  (C21_never_freed_partial sampleBorrowReach 0 (by decide +kernel) (by decide +kernel) [.assign .ok 0 (.rvec [7, 8, 9] {}), .destroy 0]
    (.cons ⟨by decide +kernel, fun v => Out.NoMem.ok v, trivial, by decide +kernel⟩ (.cons (by show _ < _; decide +kernel) trivial))
    (Prod.ext (by decide +kernel) rfl)).1.trans (by decide +kernel)

/-- C21 is false: `fill` of a borrowed vector from a temporary of the same length and type releases
the memory of the caller (Borrow.hpp 106-111; the code is the same as in BaseStore.hpp 169-174). -/
theorem C21_false_fill_temporary :
    let h0 := ((Heap.empty : Heap Int).foreign [1, 2, 3]).1
    let bor : Store := { p := some 0, sz := 3, capacity := 3, allocated := true }
    let t := Store.ctorSize 0 3 (h0, {})
    t.1 = .ok () ∧ (Store.fillRVec t.2.2 (t.2.1, bor)).1 = .ub .badFree := by
  decide +kernel

/-- And if the borrowed memory came from `new[]`, it is gone afterwards. -/
theorem C21_false_fill_temporary_new :
    let c := Store.ctorSize (0 : Int) 3 (Heap.empty, {})
    let bor : Store := { p := c.2.2.p, sz := 3, capacity := 3, allocated := true }
    let t := Store.ctorSize 0 3 (c.2.1, {})
    let f := Store.fillRVec t.2.2 (t.2.1, bor)
    f.1.isOk = true ∧ f.2.1.load c.2.2.p 0 = .ub .useAfterFree := by
  decide +kernel

end Mach
end ETR
