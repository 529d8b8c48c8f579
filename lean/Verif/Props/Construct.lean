import Verif.Props.Frame
import Verif.Lemmas.ProgOwn

/-! Scalar assignment, `fill`, constructors, failed allocations: C09, C10, C14, C15, C17. -/

namespace ETR
namespace Mach
open Store Spec

variable {V : Type}

/-- A change of one slot of an owning vector does not show in any other vector. -/
theorem Inv.same_put {s : Mach V} (I : Inv s) {x y : Nat} (hb : s.bor x = false) (hy : y ≠ x)
    {r : Heap V × Store} (st : Step s.heap (s.st (x, false)) r.1 r.2) :
    SameVar s (s.put (x, false) r) y := by
  have hy' : (y, false) ≠ (x, false) := by simpa using hy
  refine ⟨?_, fun i => ?_, ?_⟩
  · show ((s.put (x, false) r).st (y, false)).sz = _
    rw [put_ne _ _ hy']; rfl
  · show ((s.put (x, false) r).st (y, false)).get r.1 i = (s.st (y, false)).get s.heap i
    rw [put_ne _ _ hy']
    refine get_frame (fun b hpb => ?_) i
    cases hby : s.bor y with
    | false => exact I.frame_step (Or.inr hb) (Or.inr hby) hy' st b hpb
    | true =>
      obtain ⟨b', h1, h2, _, h4, _⟩ := (I.b y hby).ptr
      rw [hpb] at h1; cases h1
      refine st.frame b h2 (fun hyb => ?_)
      have := ((I.d x hb).wf.own.ptr b hyb).2.2.1
      rw [h4] at this; simp at this
  · show ((s.put (x, false) r).st (y, false)).mp = _
    rw [put_ne _ _ hy']; rfl

theorem showsVar_put {s : Mach V} {x : Nat} {r : Heap V × Store} {l : List V}
    (sh : Shows r.1 r.2 l) : ShowsVar (s.put (x, false) r) x l := by
  refine ⟨?_, fun i hi => ?_⟩
  · show ((s.put (x, false) r).st (x, false)).sz = _
    rw [put_same]; exact sh.1
  · show ((s.put (x, false) r).st (x, false)).get r.1 i = _
    rw [put_same]; exact sh.2 i hi

/-! ## C14 scalar assignment -/

/-- C14, owning vectors: in every reachable state `x = v` succeeds, `x` is then the list `[v]`, and no
other vector changes. -/
theorem C14_scalar {zero : V} {s : Mach V} (r : Reach zero s) (x : Nat) (v : V)
    (hb : s.bor x = false) :
    ∃ s', exec zero (.assignScalar x v) s = (.ok (), s') ∧ ShowsVar s' x [v] ∧
      ∀ y, y ≠ x → SameVar s s' y := by
  have I := r.inv
  have D := I.d x hb
  obtain ⟨h1, d1, e1, w1, st1, z1, a1, _⟩ := resize_spec (zero := zero) (n := 1) I.sched D.wf.own
    D.al (by omega) (by norm_num)
  have hp1 : d1.p ≠ none := by intro hp; have := w1.null hp; omega
  obtain ⟨b, hpb⟩ := Option.ne_none_iff_exists'.mp hp1
  have e2 := set_ok (v := v) w1 hpb (i := 0) (by omega)
  set h2 := h1.setCells b (fun j => if j = 0 then some v else (h1.blk b).cell j) with hh2
  refine ⟨s.put (x, false) (h2, d1), ?_, ?_, ?_⟩
  · show Mach.assignScalar zero x v s = _
    unfold Mach.assignScalar
    rw [M.bind_ok (M.get_apply _), if_neg (by rw [hb]; simp), M.bind_ok (onSlot_ok e1)]
    have : Store.set 0 v ((s.put (x, false) (h1, d1)).heap, (s.put (x, false) (h1, d1)).st (x, false))
        = (.ok (), (h2, d1)) := by rw [put_same, put_heap]; exact e2
    beta_reduce
    rw [onSlot_ok this, put_put]
  · refine showsVar_put (shows_of_cells (b := b) (w1.setCells _ _) hpb (by simp [z1]) ?_)
    intro i hi
    simp only [List.length_singleton] at hi
    have : i = 0 := by omega
    subst this
    simp [hh2]
  · intro y hy
    exact I.same_put (r := (h2, d1)) hb hy (st1.trans D.wf.own (Step.setCells hpb _ _ rfl))

example : ∃ s', exec 0 (.assignScalar 0 5) (runAll (0 : Int) sampleHistory start).2 = (.ok (), s') ∧ ShowsVar s' 0 [5] := by
  obtain ⟨s', e, h, _⟩ := C14_scalar sampleReach 0 5 (by decide +kernel)
  exact ⟨s', e, h⟩

/-- C14, borrowed vectors: the size becomes 1 and only the first cell of the borrowed memory
changes. -/
theorem C14_scalar_borrowed {zero : V} {s : Mach V} (r : Reach zero s) (x b : Nat) (v : V)
    (hb : s.bor x = true) (hp : (s.st (x, false)).p = some b) :
    ∃ s', exec zero (.assignScalar x v) s = (.ok (), s') ∧ ShowsVar s' x [v] ∧
      s'.heap.load (some b) 0 = .ok v ∧
      (∀ j, j ≠ 0 → (s'.heap.blk b).cell j = (s.heap.blk b).cell j) ∧
      (∀ c, c ≠ b → s'.heap.blk c = s.heap.blk c) ∧
      (∀ z, z ≠ (x, false) → s'.st z = s.st z) := by
  have I := r.inv
  have B := I.b x hb
  obtain ⟨b', hp', hlt, hl, hn, hc⟩ := B.ptr
  rw [hp] at hp'; cases hp'
  set d1 : Store := { s.st (x, false) with sz := 1 } with hd1
  have B1 : BInv s.heap d1 := ⟨⟨b, hp, hlt, hl, hn, hc⟩, B.cap, B.cap, B.al⟩
  have e2 := setB_ok (v := v) B1 (j := 0) hp (by simp [hd1])
  set h2 := s.heap.setCells b (fun j => if j = 0 then some v else (s.heap.blk b).cell j) with hh2
  have hcap := B.cap
  have hload : h2.load (some b) 0 = .ok v :=
    Heap.load_some (by simpa [hh2] using hl) (by simp [hh2]; omega) (by simp [hh2])
  refine ⟨s.put (x, false) (h2, d1), ?_, ?_, hload, ?_, ?_, fun z hz => put_ne _ _ hz⟩
  · show Mach.assignScalar zero x v s = _
    unfold Mach.assignScalar
    rw [M.bind_ok (M.get_apply _), if_pos hb,
      M.bind_ok (onSlot_ok (r := (s.heap, d1)) (a := ()) (upd_apply _ _))]
    have : Store.set 0 v ((s.put (x, false) (s.heap, d1)).heap,
        (s.put (x, false) (s.heap, d1)).st (x, false)) = (.ok (), (h2, d1)) := by
      rw [put_same, put_heap]; exact e2
    beta_reduce
    rw [onSlot_ok this, put_put]
  · refine showsVar_put ⟨rfl, fun i hi => ?_⟩
    simp only [List.length_singleton] at hi
    have : i = 0 := by omega
    subst this
    show Store.get h2 d1 0 = .ok v
    rw [get_eq_load (s := d1) B.al (by simp [hd1]), show d1.p = some b from hp]
    exact hload
  · intro j hj; simp [hh2, hj]
  · intro c hc; exact Heap.setCells_ne _ _ hc

example : ∃ s, Reach (0 : Int) s ∧ s.env.size 0 = 4 ∧ s.bor 0 = false ∧
    (exec 0 (.assignScalar 0 5) s).2.env.size 0 = 1 ∧
    (exec 0 (.assignScalar 0 5) s).2.env.get 0 0 = .ok 5 :=
  ⟨_, sampleReach, by decide +kernel, by decide +kernel, by decide +kernel, by decide +kernel⟩

example : ∃ s s', Reach (0 : Int) s ∧ s.bor 0 = true ∧
    exec 0 (.assignScalar 0 5) s = (.ok (), s') ∧
    (List.range 3).map (s'.heap.load (some 0)) = [5, 2, 3].map Out.ok :=
  ⟨(runAll 0 [.callerArray [1, 2, 3], .declBorrow (some 0) 3] start).2, _,
    ⟨[.callerArray [1, 2, 3], .declBorrow (some 0) 3], .cons trivial (.cons ⟨by decide,
      ⟨0, by decide +kernel, by decide +kernel, by decide +kernel, by decide +kernel⟩,
      by rintro b hb; cases hb; decide +kernel⟩ trivial), Prod.ext (by decide +kernel) rfl⟩,
    by decide +kernel, Prod.ext (by decide +kernel) rfl, by decide +kernel⟩

/-! ## C09 fill -/

/-- C09, `fill(value)` on any vector: all elements are then `value`, size and all other vectors that
own their memory are unchanged. -/
theorem C09_fill_value {zero : V} {s : Mach V} (r : Reach zero s) (x : Nat) (v : V)
    (hb : s.bor x = false) :
    ∃ s', exec zero (.fill x v) s = (.ok (), s') ∧ ShowsVar s' x (List.replicate (s.env.size x) v) ∧
      ∀ y, y ≠ x → SameVar s s' y := by
  have I := r.inv
  obtain ⟨h1, e1, w1, sh1, st1⟩ := fillScalar_spec (v := v) (I.d x hb).wf
  exact ⟨_, onSlot_ok e1, showsVar_put sh1, fun y hy => I.same_put hb hy st1⟩

example : ∃ s', exec 0 (.fill 0 3) (runAll (0 : Int) sampleHistory start).2 = (.ok (), s') ∧ ShowsVar s' 0 [3, 3, 3, 3] := by
  obtain ⟨s', e, h, _⟩ := C09_fill_value sampleReach 0 3 (by decide +kernel)
  exact ⟨s', e, by rwa [show (runAll (0 : Int) sampleHistory start).2.env.size 0 = 4 by decide +kernel] at h⟩

theorem C09_fill_value_borrowed {zero : V} {s : Mach V} (r : Reach zero s) (x b : Nat) (v : V)
    (hb : s.bor x = true) (hp : (s.st (x, false)).p = some b) :
    ∃ s', exec zero (.fill x v) s = (.ok (), s') ∧ ShowsVar s' x (List.replicate (s.env.size x) v) ∧
      (∀ j, s.env.size x ≤ j → (s'.heap.blk b).cell j = (s.heap.blk b).cell j) ∧
      (∀ c, c ≠ b → s'.heap.blk c = s.heap.blk c) := by
  have I := r.inv
  have B := I.b x hb
  obtain ⟨b', hp', hlt, hl, hn, hc⟩ := B.ptr
  rw [hp] at hp'; cases hp'
  have hsz := B.sz
  refine ⟨_, onSlot_ok (fillScalar_ok (v := v) hp hl (by omega)), showsVar_put ⟨?_, ?_⟩, ?_, ?_⟩
  · simp [Mach.env]
  · intro i hi
    have hi : i < (s.st (x, false)).sz := by simpa [Mach.env] using hi
    rw [get_eq_load B.al hi, hp]
    exact Heap.load_some (by simpa using hl) (by simp; omega) (by simp [hi])
  · intro j hj
    have hj : (s.st (x, false)).sz ≤ j := hj
    simp [show ¬ j < (s.st (x, false)).sz by omega]
  · intro c hc; exact Heap.setCells_ne _ _ hc

example : ∃ s', exec 0 (.fill 0 5) (runAll (0 : Int) sampleBorrow start).2 = (.ok (), s') ∧ (s'.heap.blk 0).cell 2 = some 3 := by
  obtain ⟨s', e, _, h, _⟩ := C09_fill_value_borrowed sampleBorrowReach 0 0 5 (by decide +kernel) (by decide +kernel)
  exact ⟨s', e, (h 2 (by decide +kernel)).trans (by decide +kernel)⟩

/-- C09, `fill(vector)` with a named vector (partial: for a temporary see
`C09_temporary_partial`): different lengths are rejected without any change; with equal lengths the
elements are copied.  The vector to copy may be the same one. -/
theorem C09_fill_vector_partial {zero : V} {s : Mach V} (r : Reach zero s) (x y : Nat) (l : List V)
    (hbx : s.bor x = false) (hl : ShowsVar s y l) :
    (s.env.size x ≠ l.length → ∃ m, exec zero (.fillVec x y) s = (.thr m, s)) ∧
    (s.env.size x = l.length → ∃ s', exec zero (.fillVec x y) s = (.ok (), s') ∧ ShowsVar s' x l ∧
      ∀ z, z ≠ x → SameVar s s' z) := by
  have I := r.inv
  have hsz : (s.st (y, false)).sz = l.length := hl.1
  have e0 : exec zero (.fillVec x y) s
      = onSlot (x, false) (Store.fillVec (s.st (y, false))) s := by
    show Mach.fillVec x y s = _
    unfold Mach.fillVec
    rw [M.bind_ok (M.get_apply _)]
  constructor
  · intro hne
    have hne : (s.st (x, false)).sz ≠ l.length := hne
    exact ⟨_, by rw [e0, onSlot_apply, fillVec_thr (by omega), put_self]⟩
  · intro heq
    have heq : (s.st (x, false)).sz = l.length := heq
    obtain ⟨h1, e1, w1, sh1, st1⟩ := fillVec_spec (I.d x hbx).wf (l := l) ⟨hl.1, hl.2⟩ (by omega)
    exact ⟨_, by rw [e0]; exact onSlot_ok e1, showsVar_put sh1, fun z hz => I.same_put hbx hz st1⟩

example : ∃ s', exec 0 (.fillVec 0 2) (runAll (0 : Int) sampleHistory start).2 = (.ok (), s') ∧ ShowsVar s' 0 [0, 0, 0, 7] := by
  obtain ⟨s', e, h, _⟩ := (C09_fill_vector_partial sampleReach 0 2 [0, 0, 0, 7] (by decide +kernel)
    ⟨by decide +kernel, by decide +kernel⟩).2 (by decide +kernel)
  exact ⟨s', e, h⟩

/-- C09, `fill(vector)` with a temporary of the same length: the elements are then those of the temporary, the old memory is released
and no other memory is touched, and when the temporary ends it releases nothing.  Other lengths are rejected without any change.

Missing: the result is well formed, so that everything proved about owning vectors holds for it, if the vector was as large as its
capacity; otherwise see `C09_false_fill_temporary`. -/
theorem C09_temporary_partial {h : Heap V} {s t : Store} {l : List V} {b c : Nat} (w : WF h s) (w' : WF h t) (sh : ETR.Shows h t l)
    (hb : s.p = some b) (hc : t.p = some c) (hbc : b ≠ c) :
    (s.sz ≠ l.length → ∃ m, Store.fillRVec t (h, s) = (.thr m, (h, s))) ∧
    (s.sz = l.length → ∃ t' h' s', Store.fillRVec t (h, s) = (.ok t', (h', s')) ∧ ETR.Shows h' s' l ∧ s'.p = some c ∧
      (h'.blk b).live = false ∧ (∀ a, a ≠ b → h'.blk a = h.blk a) ∧
      Store.dtor (h', t') = (.ok (), (h', t')) ∧ (s.capacity ≤ l.length → WF h' s')) := by
  obtain ⟨h1, h2, h3, h4, h5, h6⟩ := w.ptr b hb
  obtain ⟨g1, g2, g3, g4, g5, g6⟩ := w'.ptr c hc
  constructor
  · intro hne
    have : ¬ t.sz = s.sz := by rw [sh.1]; exact fun e => hne e.symm
    refine ⟨"cannot use fill with vectors of different lengths", ?_⟩
    unfold Store.fillRVec
    rw [M.bind_ok (self_apply _)]
    simp [M.bind_apply, M.ass, this]
  · intro heq
    have hl := sh.1
    have e : Store.fillRVec t (h, s) = (.ok { t with p := none, allocated := false }, (h.kill b, { s with p := t.p })) := by
      unfold Store.fillRVec
      rw [M.bind_ok (self_apply _)]
      simp only [M.bind_apply, M.ass, show t.sz = s.sz by omega]
      simp [hb, heapM_ok _ (Heap.delete_some h3 h2)]
    have hk : (h.kill b).blk c = h.blk c := Heap.kill_ne _ (Ne.symm hbc)
    refine ⟨_, _, _, e, ⟨heq, fun i hi => ?_⟩, hc, by simp [Heap.kill], fun a ha => Heap.kill_ne _ ha, rfl, fun hcap => ⟨?_, ?_⟩⟩
    · have h7 := sh.2 i hi
      rw [get_eq_load g6 (by omega), hc] at h7
      rw [get_eq_load (s := { s with p := t.p }) h6 (by show i < s.sz; omega)]
      show (h.kill b).load t.p i = _
      rw [hc, ← h7]
      simp [Heap.load, Heap.cellAt, hk]
    · intro b' hb'
      have hb' : t.p = some b' := hb'
      rw [hc] at hb'; cases hb'
      rw [hk]
      exact ⟨g1, g2, g3, by show s.sz ≤ _; omega, by show s.capacity ≤ _; omega, h6⟩
    · intro hn
      have hn : t.p = none := hn
      rw [hc] at hn; cases hn

/-- A vector of three zeros is filled from a temporary of three sevens. -/
example :
    let r := ctorSize (0 : Int) 3 (Heap.empty, {})
    let t := (do ctorSize 0 3; Store.fillScalar 7 : SM Int Unit) (r.2.1, {})
    let f := Store.fillRVec t.2.2 (t.2.1, r.2.2)
    f.1.isOk = true ∧ (List.range 3).map (f.2.2.get f.2.1) = [7, 7, 7].map Out.ok ∧ r.2.2.p = some 0 ∧ f.2.2.p = some 1 ∧
      (f.2.1.blk 0).live = false := by
  decide +kernel

/-- C09 is false for temporaries: the store takes over the memory of the temporary but keeps its own
capacity, so that a later `resize` exposes memory outside of the block.
`a.resize(10)` on a vector of 100 elements, `fill` from a temporary of 10 elements, `a.resize(50)`,
`a[40]`. -/
theorem C09_false_fill_temporary :
    let a : SM Int Unit := do ctorSize 0 100; Store.resize 0 10
    let r := a ((Heap.empty : Heap Int), ({} : Store))
    let t := ctorSize 0 10 (r.2.1, ({} : Store))
    let f := Store.fillRVec t.2.2 (t.2.1, r.2.2)
    let g := Store.resize 0 50 f.2
    r.1.isOk = true ∧ t.1.isOk = true ∧ f.1.isOk = true ∧ g.1.isOk = true ∧ g.2.2.sz = 50 ∧
      g.2.2.get g.2.1 40 = .ub .oob := by
  decide +kernel

example : ∃ s, Reach (0 : Int) s ∧ s.env.size 0 = 4 ∧ s.env.size 2 = 4 ∧
    (List.range 4).map (s.env.get 2) = [0, 0, 0, 7].map Out.ok ∧
    (List.range 4).map ((exec 0 (.fill 0 3) s).2.env.get 0) = [3, 3, 3, 3].map Out.ok ∧
    (List.range 4).map ((exec 0 (.fillVec 0 2) (exec 0 (.fill 0 3) s).2).2.env.get 0)
      = [0, 0, 0, 7].map Out.ok :=
  ⟨_, sampleReach, by decide +kernel, by decide +kernel, by decide +kernel, by decide +kernel,
    by decide +kernel⟩

/-- C09 is false for the member function of the vector itself: whatever the length of `e` is, all elements become equal to the first
element of `e` (for the data member see `C09_fill_vector_partial`). -/
theorem C09_member_characterised {zero : V} {s : Mach V} (r : Reach zero s) (x : Nat) (e : Expr V) (v : V)
    (hb : s.bor x = false) (he : e.el s.env 0 = .ok v) :
    ∃ s', fillFirst x e s = (.ok (), s') ∧ ShowsVar s' x (List.replicate (s.env.size x) v) ∧
      ∀ y, y ≠ x → SameVar s s' y := by
  obtain ⟨s', e', h⟩ := C09_fill_value r x v hb
  refine ⟨s', ?_, h⟩
  unfold fillFirst
  rw [M.bind_ok (a := v) (s' := s) (by rw [M.reads_apply, he])]
  exact e'

example : ∃ s', fillFirst 0 (.rvec [8, 9] {}) (runAll (0 : Int) sampleHistory start).2 = (.ok (), s') ∧ ShowsVar s' 0 [8, 8, 8, 8] := by
  obtain ⟨s', e, h, _⟩ := C09_member_characterised sampleReach 0 (.rvec [8, 9] {}) 8 (by decide +kernel) (by decide +kernel)
  exact ⟨s', e, by rwa [show (runAll (0 : Int) sampleHistory start).2.env.size 0 = 4 by decide +kernel] at h⟩

/-- A vector `(5, 5, 5, 5)` that is filled from `(0, 0, 0, 7)` becomes `(0, 0, 0, 0)`; a vector of two elements is filled from one
of four elements without an error. -/
theorem C09_false_member : ∃ s, Reach (0 : Int) s ∧ s.env.size 0 = 4 ∧ s.env.size 2 = 4 ∧
    (List.range 4).map (s.env.get 2) = [0, 0, 0, 7].map Out.ok ∧
    (fillFirst 0 (.leaf 2) s).1 = .ok () ∧
    (List.range 4).map ((fillFirst 0 (.leaf 2) s).2.env.get 0) = [0, 0, 0, 0].map Out.ok ∧
    (fillFirst 0 (.leaf 2) (exec 0 (.resize 0 2) s).2).1 = .ok () ∧ (exec 0 (.resize 0 2) s).2.env.size 0 = 2 :=
  ⟨_, sampleReach, by decide +kernel, by decide +kernel, by decide +kernel, by decide +kernel, by decide +kernel,
    by decide +kernel, by decide +kernel⟩

/-! ## C17 constructors -/

/-- The state `s` seen as a program state without known variables. -/
theorem Inv.rep {s : Mach V} (I : Inv s) : Rep s ⟨s.n, fun _ => none, fun _ => none, fun _ => none⟩ :=
  ⟨I, rfl, by simp, by simp, by simp⟩

theorem Rep.new_shows {s s' : Mach V} {k : Nat} {v : Var V}
    (R : Rep s' (PState.new ⟨s.n, fun _ => none, fun _ => none, fun _ => none⟩ k v)) : ShowsVar s' (s.n + k) v.val :=
  (R.vars (s.n + k) v (by simp [PState.new])).showsVar

/-- C17, `Vec(SI{n})`: `n` zero elements (`n` up to `2^59`). -/
theorem C17_size {zero : V} {s : Mach V} (r : Reach zero s) (n : Nat) (h1 : 1 ≤ n)
    (h2 : n ≤ 2 ^ 59) :
    ∃ s', exec zero (.declSize n) s = (.ok (), s') ∧ ShowsVar s' s.n (List.replicate n zero) ∧
      (s'.env.mp s.n).im = false := by
  have I := r.inv
  obtain ⟨f1, f2, f3⟩ := I.fresh s.n (le_refl _)
  obtain ⟨c, ec, hc1, hc2⟩ := capOf_spec (n := n) (by omega)
  have e := ctorSize_ok (zero := zero) (s := ({} : Store)) I.sched h1 (c := c) (by omega) ec
  set d1 : Store := { p := some s.heap.next, sz := n, capacity := c, allocated := true } with hd1
  refine ⟨s.bump.put (s.n, false) (s.heap.addBlk (zeroBlk zero c c), d1), ?_,
    showsVar_put ⟨by simp [hd1], ?_⟩, ?_⟩
  · show Mach.declSize zero n s = _
    unfold Mach.declSize
    refine decl_ok (a := ()) (onSlot_ok ?_)
    rw [show s.bump.st (s.n, false) = {} from f1]
    exact e
  · intro i hi
    simp only [List.length_replicate] at hi
    show Store.get _ d1 i = _
    rw [get_eq_load rfl (by simpa [hd1] using hi), List.getElem_replicate]
    refine Heap.load_some (by simp [zeroBlk]) (by simp [zeroBlk]; omega) ?_
    simp [zeroBlk]; omega
  · show ((s.bump.put (s.n, false) _).st (s.n, false)).mp.im = false
    rw [put_same]

example : ∃ s', exec 0 (.declSize 2) (runAll (0 : Int) sampleHistory start).2 = (.ok (), s') ∧
    ShowsVar s' (runAll (0 : Int) sampleHistory start).2.n [0, 0] := by
  obtain ⟨s', e, h, _⟩ := C17_size sampleReach 2 (by decide) (by decide)
  exact ⟨s', e, h⟩

/-- A constructor that throws before it has allocated anything leaves no trace. -/
theorem decl_rejected {s : Mach V} (I : Inv s) {m : String} {body : Nat → M (Mach V) Unit}
    {d : Store} (h : body s.n s.bump = (.thr m, s.bump.put (s.n, false) (s.heap, d)))
    (hp : d.p = none) : decl body s = (.thr m, s.bump) := by
  obtain ⟨f1, f2, f3⟩ := I.fresh s.n (le_refl _)
  rw [decl_thr h]
  set s1 := s.bump.put (s.n, false) (s.heap, d) with hs1
  have q1 : onSlot (s.n, true) Store.dtor s1 = (.ok (), s1) := by
    rw [onSlot_apply, dtor_none (by rw [hs1, put_ne _ _ (by simp)]; exact congrArg Store.p f2),
      put_self]
  have q2 : onSlot (s.n, false) Store.dtor s1 = (.ok (), s1) := by
    rw [onSlot_apply, dtor_none (by rw [hs1, put_same]; exact hp), put_self]
  have q : destroy s.n s1 = (.ok (), s.bump) := by
    unfold destroy
    rw [M.bind_ok q1, M.bind_ok (M.get_apply _), if_pos (by
      show ¬ s.bor s.n = true; rw [f3]; simp), M.bind_ok q2]
    beta_reduce
    rw [M.modify_apply]
    simp only [Prod.mk.injEq, true_and]
    simp only [hs1, Mach.put, Mach.bump, Mach.mk.injEq, true_and]
    constructor
    · funext z
      obtain ⟨z1, z2⟩ := z
      by_cases hz : z1 = s.n
      · subst hz
        simp only [if_true]
        cases z2
        · exact f1.symm
        · exact f2.symm
      · simp [hz]
    · funext z
      by_cases hz : z = s.n
      · subst hz; simp [f3]
      · simp [hz]
  rw [M.bind_ok q]
  rfl

/-- C17, a zero size is rejected; nothing else changes. -/
theorem C17_size_zero {zero : V} {s : Mach V} (r : Reach zero s) :
    ∃ m, exec zero (.declSize 0) s = (.thr m, s.bump) := by
  obtain ⟨f1, f2, f3⟩ := r.inv.fresh s.n (le_refl _)
  refine ⟨"Size has to be larger than 0", ?_⟩
  show Mach.declSize zero 0 s = _
  unfold Mach.declSize
  refine decl_rejected r.inv (d := { sz := 0, capacity := 0 }) ?_ rfl
  rw [onSlot_apply, show s.bump.st (s.n, false) = {} from f1, ctorSize_zero]
  rfl

example : ∃ m, exec 0 (.declSize 0) (runAll (0 : Int) sampleHistory start).2 = (.thr m, (runAll (0 : Int) sampleHistory start).2.bump) :=
  C17_size_zero sampleReach

theorem C17_mat_zero {zero : V} {s : Mach V} (r : Reach zero s) (a c : Nat) (v : V)
    (h : a * c = 0) :
    (∃ m, exec zero (.declMat a c) s = (.thr m, s.bump)) ∧
    ∃ m, exec zero (.declMatVal a c v) s = (.thr m, s.bump) := by
  obtain ⟨f1, f2, f3⟩ := r.inv.fresh s.n (le_refl _)
  have key : onSlot (s.n, false) (Store.ctorSize zero ((a * c) % two64)) s.bump
      = (.thr "Size has to be larger than 0",
          s.bump.put (s.n, false) (s.heap, { sz := 0, capacity := 0 })) := by
    rw [onSlot_apply, show s.bump.st (s.n, false) = {} from f1, h, Nat.zero_mod, ctorSize_zero]
    rfl
  constructor
  · refine ⟨"Size has to be larger than 0", ?_⟩
    show Mach.declMat zero a c s = _
    unfold Mach.declMat
    exact decl_rejected r.inv (d := { sz := 0, capacity := 0 }) (by rw [M.bind_thr key]) rfl
  · refine ⟨"Size has to be larger than 0", ?_⟩
    show Mach.declMatVal zero a c v s = _
    unfold Mach.declMatVal
    exact decl_rejected r.inv (d := { sz := 0, capacity := 0 }) (by rw [M.bind_thr key]) rfl

example : ∃ m, exec 0 (.declMat 3 0) (runAll (0 : Int) sampleHistory start).2 = (.thr m, (runAll (0 : Int) sampleHistory start).2.bump) :=
  (C17_mat_zero sampleReach 3 0 7 (by decide)).1

/-- C17, `Vec(s)` for a scalar. -/
theorem C17_scalar {zero : V} {s : Mach V} (r : Reach zero s) (v : V) :
    ∃ s', exec zero (.declScalar v) s = (.ok (), s') ∧ ShowsVar s' s.n [v] := by
  obtain ⟨s', e, R⟩ := r.inv.rep.declScalar (zero := zero) v
  exact ⟨s', e, R.new_shows⟩

example : ∃ s', exec 0 (.declScalar 8) (runAll (0 : Int) sampleHistory start).2 = (.ok (), s') ∧
    ShowsVar s' (runAll (0 : Int) sampleHistory start).2.n [8] := C17_scalar sampleReach 8

/-- The constructor of a vector with `n` elements, for every size whose bytes can be counted. -/
theorem Inv.ctorBig {zero : V} {s : Mach V} (I : Inv s) {n : Nat} (h1 : 1 ≤ n) (h2 : n ≤ 2 ^ 59) :
    ∃ h' d', onSlot (s.n, false) (Store.ctorSize zero n) s.bump
        = (.ok (), s.bump.put (s.n, false) (h', d')) ∧ Step s.heap {} h' d' ∧ WF h' d' ∧ d'.sz = n ∧
      Shows h' d' (List.replicate n zero) := by
  obtain ⟨f1, f2, f3⟩ := I.fresh s.n (le_refl _)
  have e1 : s.bump.st (s.n, false) = {} := f1
  obtain ⟨c, ec, hc1, hc2⟩ := capOf_spec (n := n) (by omega)
  have eq := ctorSize_ok (zero := zero) (s := ({} : Store)) I.sched h1 (c := c) (by omega) ec
  set r : Heap V × Store := (s.heap.addBlk (zeroBlk zero c c), { ({} : Store) with
    p := some s.heap.next, sz := n, capacity := c, allocated := true }) with hr
  have w : WF r.1 r.2 := WF.fresh rfl hc1 (le_refl _) rfl
  refine ⟨r.1, r.2, ?_, Step.addBlk rfl rfl, w, rfl, ?_⟩
  · refine onSlot_ok (r := r) ?_
    rw [e1]; exact eq
  · refine shows_of_cells (b := s.heap.next) w rfl (by simp [hr]) ?_
    intro i hi
    simp only [List.length_replicate] at hi
    simp [hr, zeroBlk, show i < c by omega]

/-- C17, `Vec(r, c)` and `Vec(r, c, v)`: a matrix of zeros or of `v`s (up to `2^59` elements). -/
theorem C17_mat {zero : V} {s : Mach V} (r : Reach zero s) (a c : Nat) (v : V) (h1 : 1 ≤ a * c)
    (h2 : a * c ≤ 2 ^ 59) :
    (∃ s', exec zero (.declMat a c) s = (.ok (), s') ∧
      ShowsVar s' s.n (List.replicate (a * c) zero) ∧ s'.env.mp s.n = ⟨true, a, c⟩) ∧
    ∃ s', exec zero (.declMatVal a c v) s = (.ok (), s') ∧
      ShowsVar s' s.n (List.replicate (a * c) v) ∧ s'.env.mp s.n = ⟨true, a, c⟩ := by
  obtain ⟨h', d', e, st, w, z, sh⟩ := r.inv.ctorBig (zero := zero) h1 h2
  have em : (a * c) % two64 = a * c := Nat.mod_eq_of_lt (by unfold two64; omega)
  have w' : WF h' { d' with mp := ⟨true, a, c⟩ } := ⟨w.ptr, w.null⟩
  obtain ⟨h2, e2, w2, sh2, st2⟩ := fillScalar_spec (v := v) w'
  constructor
  · refine ⟨s.bump.put (s.n, false) (h', { d' with mp := ⟨true, a, c⟩ }), ?_,
      showsVar_put (shows_mp _ sh), ?_⟩
    · show Mach.declMat zero a c s = _
      unfold Mach.declMat
      refine decl_ok (a := ()) ?_
      rw [em, M.bind_ok e, onSlot_apply, put_same, put_heap, upd_apply, put_put]
    · show ((s.bump.put (s.n, false) _).st (s.n, false)).mp = _
      rw [put_same]
  · refine ⟨s.bump.put (s.n, false) (h2, { d' with mp := ⟨true, a, c⟩ }), ?_, showsVar_put ?_, ?_⟩
    · show Mach.declMatVal zero a c v s = _
      unfold Mach.declMatVal
      refine decl_ok (a := ()) ?_
      have e3 : onSlot (s.n, false) (Store.upd (fun d => { d with mp := ⟨true, a, c⟩ }))
          (s.bump.put (s.n, false) (h', d'))
          = (.ok (), s.bump.put (s.n, false) (h', { d' with mp := ⟨true, a, c⟩ })) := by
        rw [onSlot_apply, put_same, put_heap, upd_apply, put_put]
      rw [em, M.bind_ok e, M.bind_ok e3, onSlot_apply, put_same, put_heap, e2, put_put]
    · rw [← z]
      exact sh2
    · show ((s.bump.put (s.n, false) _).st (s.n, false)).mp = _
      rw [put_same]

example : ∃ s', exec 0 (.declMatVal 2 2 9) (runAll (0 : Int) sampleHistory start).2 = (.ok (), s') ∧
    ShowsVar s' (runAll (0 : Int) sampleHistory start).2.n [9, 9, 9, 9] ∧
    s'.env.mp (runAll (0 : Int) sampleHistory start).2.n = ⟨true, 2, 2⟩ := (C17_mat sampleReach 2 2 9 (by decide) (by decide)).2

/-- The product of the dimensions is computed in 64 bits: with wrap-around the vector is too short for
its dimensions. -/
theorem C17_false_mat_wraps : ∃ s', exec (0 : Int) (.declMat (2 ^ 33 + 1) (2 ^ 31)) start = (.ok (), s') ∧
    s'.env.mp 0 = ⟨true, 2 ^ 33 + 1, 2 ^ 31⟩ ∧ s'.env.size 0 = 2 ^ 31 := by
  have hm : ((2 ^ 33 + 1) * 2 ^ 31) % two64 = 2 ^ 31 := by decide
  obtain ⟨c, ec, hc1, hc2⟩ := capOf_spec (n := 2 ^ 31) (by norm_num)
  have e := ctorSize_ok (zero := (0 : Int)) (h := (start : Mach Int).heap) (s := ({} : Store)) rfl
    (n := 2 ^ 31) (by norm_num) (c := c) (by omega) ec
  refine ⟨start.bump.put (0, false) (Heap.addBlk Heap.empty (zeroBlk 0 c c),
      { p := some 0, sz := 2 ^ 31, capacity := c, allocated := true,
        mp := ⟨true, 2 ^ 33 + 1, 2 ^ 31⟩ }), ?_, rfl, rfl⟩
  show Mach.declMat 0 (2 ^ 33 + 1) (2 ^ 31) start = _
  unfold Mach.declMat
  refine decl_ok (a := ()) ?_
  rw [hm]
  have b1 : onSlot ((start : Mach Int).n, false) (Store.ctorSize (0 : Int) (2 ^ 31)) start.bump
      = (.ok (), _) := onSlot_ok e
  rw [M.bind_ok b1, onSlot_apply, put_same, put_heap, upd_apply, put_put]
  rfl

/-- C17, `Vec(p, n)`: a copy of `n` elements at `p` (`n` up to `2^59`, the elements initialised). -/
theorem C17_pointer {zero : V} {s : Mach V} (r : Reach zero s) (b : Nat) (l : List V) (hne : l ≠ [])
    (hlim : l.length ≤ 2 ^ 59) (hbl : b < s.heap.next)
    (hl : ∀ i (hi : i < l.length), s.heap.load (some b) i = .ok l[i]) :
    ∃ s', exec zero (.declPtr (some b) l.length) s = (.ok (), s') ∧ ShowsVar s' s.n l ∧
      ∀ j, s'.heap.load (some b) j = s.heap.load (some b) j := by
  have I := r.inv
  have hpos := List.length_pos_iff.mpr hne
  obtain ⟨f1, f2, f3⟩ := I.fresh s.n (le_refl _)
  obtain ⟨h1, d1, q1, st1, w1, z1, _⟩ := I.ctorBig (zero := zero) hpos hlim
  have fr : ∀ h', Step s.heap {} h' d1 → ∀ j, h'.load (some b) j = s.heap.load (some b) j := by
    intro h' st j
    exact load_frame (fun b' hb' => by cases hb'; exact st.frame b hbl (by simp)) j
  obtain ⟨h2, q2, w2, sh2, st2⟩ := slotLoop (s0 := s.bump) (z := (s.n, false))
    (g := fun i s => s.heap.load (some b) i) (L := l) w1 z1 (fun i hi h' _ st' => by
      rw [put_heap, fr h' (st1.trans (Own.default _) st') i]
      exact hl i hi)
  refine ⟨s.bump.put (s.n, false) (h2, { d1 with mp := ⟨false, 0, 0⟩ }), ?_,
    showsVar_put (shows_mp _ sh2), fun j => fr h2 (st1.trans (Own.default _) st2) j⟩
  show Mach.declPtr zero (some b) l.length s = _
  unfold Mach.declPtr
  refine decl_ok (a := ()) ?_
  rw [M.bind_ok q1, M.bind_ok q2, onSlot_apply, put_same, put_heap, upd_apply, put_put]

example : ∃ s', exec (0 : Int) (.declPtr (some 0) 2) (runAll 0 [.callerArray [4, 5, 6]] start).2
      = (.ok (), s') ∧ (List.range 2).map (s'.env.get 0) = [4, 5].map Out.ok ∧ s'.env.size 0 = 2 :=
  ⟨_, Prod.ext (by decide +kernel) rfl, by decide +kernel, by decide +kernel⟩

example : ∃ s s', Reach (0 : Int) s ∧ s.n = 3 ∧ exec 0 (.declMatVal 2 3 9) s = (.ok (), s') ∧
    (List.range 6).map (s'.env.get 3) = [9, 9, 9, 9, 9, 9].map Out.ok ∧
    s'.env.mp 3 = ⟨true, 2, 3⟩ ∧ (exec 0 (.declSize 2) s).2.env.size 3 = 2 ∧
    (exec 0 (.declScalar 8) s).2.env.get 3 0 = .ok 8 :=
  ⟨_, _, sampleReach, by decide +kernel, Prod.ext (by decide +kernel) rfl, by decide +kernel,
    by decide +kernel, by decide +kernel, by decide +kernel⟩

/-! ## C15 initialisation from a temporary -/

/-- C15, temporary of the same element type (up to `2^30` elements): the new vector has the length,
the elements and the dimensions of the temporary, after the temporary has been destroyed. -/
theorem C15_same_type {zero : V} {s : Mach V} (r : Reach zero s) (l : List V) (mp : MP)
    (hne : l ≠ []) (hlim : l.length ≤ 2 ^ 30) :
    ∃ s', exec zero (.declTemp l mp) s = (.ok (), s') ∧ ShowsVar s' (s.n + 1) l ∧
      (s'.env.mp (s.n + 1)).im = mp.im ∧ (mp.im = true → s'.env.mp (s.n + 1) = mp) ∧
      (∀ z : Bool, s'.st (s.n, z) = {}) := by
  obtain ⟨s', e, R, hm⟩ := r.inv.rep.declTemp (zero := zero) (mp := mp) hne hlim
  refine ⟨s', e, R.new_shows, ?_, ?_, ?_⟩
  · rw [hm]
    cases mp.im <;> simp
  · intro him
    rw [hm, if_pos him, ← him]
  · intro z
    exact (destroyed_temp r.inv e) z
where
  destroyed_temp {zero : V} {s s' : Mach V} {l : List V} {mp : MP} (I : Inv s)
      (e : Mach.declTemp zero l mp s = (.ok (), s')) : ∀ z : Bool, s'.st (s.n, z) = {} := by
    intro z
    unfold Mach.declTemp at e
    have hd : ∀ s1 s2 : Mach V, destroy s.n s1 = (.ok (), s2) → s2.st (s.n, z) = {} := by
      intro s1 s2 h
      unfold destroy at h
      rw [M.bind_apply] at h
      rcases hm1 : onSlot (s.n, true) Store.dtor s1 with ⟨o1, s3⟩
      rw [hm1] at h
      cases o1 with
      | thr m => simp at h
      | ub k => simp at h
      | ok u =>
        simp only [] at h
        rw [M.bind_ok (M.get_apply _)] at h
        split at h
        · rw [M.bind_apply] at h
          rcases hm2 : onSlot (s.n, false) Store.dtor s3 with ⟨o2, s4⟩
          rw [hm2] at h
          cases o2 with
          | thr m => simp at h
          | ub k => simp at h
          | ok u =>
            simp only [M.modify_apply, Prod.mk.injEq, true_and] at h
            rw [← h]; simp
        · simp only [M.modify_apply, Prod.mk.injEq, true_and] at h
          rw [← h]; simp
    rcases hm : (makeTemp zero l mp s.n >>= fun _ => decl (fun x => stealTemp s.n x)) s.bump
      with ⟨o, s1⟩
    cases o with
    | ub k => rw [withTmp_ub hm] at e; simp at e
    | thr m => 
      rw [withTmp_thr hm] at e
      rw [M.bind_apply] at e
      rcases hm1 : destroy s.n s1 with ⟨o1, s3⟩
      rw [hm1] at e
      cases o1 <;> simp [M.lift_apply] at e
    | ok u => rw [withTmp_ok hm] at e; exact hd _ _ e

example : ∃ s', exec 0 (.declTemp [1, 2, 3, 4] ⟨true, 2, 2⟩) (runAll (0 : Int) sampleHistory start).2 = (.ok (), s') ∧
    ShowsVar s' ((runAll (0 : Int) sampleHistory start).2.n + 1) [1, 2, 3, 4] := by
  obtain ⟨s', e, h, _⟩ := C15_same_type sampleReach [1, 2, 3, 4] ⟨true, 2, 2⟩ (by decide) (by decide)
  exact ⟨s', e, h⟩

/-- Construction from an expression in full. -/
theorem declExpr_full {zero : V} {s : Mach V} (r : Reach zero s) (conv : V → Out V) (e : Expr V)
    (ρ : Nat → Option (List V)) (hρ : ∀ x l, ρ x = some l → x < s.n ∧ ShowsVar s x l)
    (l L : List V) (h1 : eval ρ e = some l) (h2 : l.mapM (fun v => val (conv v)) = some L)
    (hL : L ≠ []) (hlim : L.length ≤ 2 ^ 30) :
    ∃ s', exec zero (.declExpr conv e) s = (.ok (), s') ∧ ShowsVar s' s.n L ∧
      s'.env.mp s.n = newMp s s.n e ∧ (∀ y, y < s.n → SameVar s s' y) ∧ s'.n = s.n + 1 ∧
      s'.bor = s.bor ∧ (∀ z : Slot, z ≠ (s.n, false) → s'.st z = s.st z) ∧
      ∀ c, c < s.heap.next → s'.heap.blk c = s.heap.blk c := by
  have I := r.inv
  obtain ⟨f1, f2, f3⟩ := I.fresh s.n (le_refl _)
  have e1 : s.bump.st (s.n, false) = {} := f1
  have ag0 : Agrees s.env ρ := fun x lx hx => (hρ x lx hx).2
  have hpos := List.length_pos_iff.mpr hL
  have hsz : e.size s.bump.env = L.length := (conv_el ag0 h1 h2).1
  obtain ⟨ha, d1, q1, w1, st1, z1, a1, m1, c1, k1, g1⟩ := resize_spec (zero := zero)
    (h := s.heap) (s := ({} : Store)) (n := L.length) I.sched (Own.default _) (by simp) hpos
    (by omega)
  have frv : ∀ h' (d' : Store), Step s.heap ({} : Store) h' d' → ∀ y, y < s.n →
      SameVar s (s.bump.put (s.n, false) (h', d')) y := by
    intro h' d' st y hy
    have hne : (y, false) ≠ (s.n, false) := by simp; omega
    have e3 : (s.bump.put (s.n, false) (h', d')).st (y, false) = s.st (y, false) := put_ne _ _ hne
    refine ⟨?_, fun i => ?_, ?_⟩
    · show ((s.bump.put (s.n, false) (h', d')).st (y, false)).sz = _
      rw [e3]; rfl
    · show ((s.bump.put (s.n, false) (h', d')).st (y, false)).get h' i = (s.st (y, false)).get _ i
      rw [e3]
      refine get_frame (fun b hb => ?_) i
      refine st.frame b ?_ (by simp)
      cases hby : s.bor y with
      | false => exact ((I.d y hby).wf.ptr b hb).1
      | true =>
        obtain ⟨b', e4, e5, _⟩ := (I.b y hby).ptr
        rw [hb] at e4; cases e4; exact e5
    · show ((s.bump.put (s.n, false) (h', d')).st (y, false)).mp = _
      rw [e3]; rfl
  obtain ⟨hb, q2, w2, sh2, st2⟩ := slotLoop (s0 := s.bump) (z := (s.n, false))
    (g := fun i s => e.el s.env i >>= conv) (L := L) w1 z1 (fun i hi h' w' st' => by
      have fr : Step s.heap ({} : Store) h' d1 := st1.trans (Own.default _) st'
      have ag : Agrees (s.bump.put (s.n, false) (h', d1)).env ρ := fun x lx hx =>
        (frv h' d1 fr x (hρ x lx hx).1).shows (hρ x lx hx).2
      exact (conv_el ag h1 h2).2 i hi)
  set s2 := s.bump.put (s.n, false) (hb, d1) with hs2
  have hmp : s2.env.mp = s.env.mp := by
    funext x
    show (s2.st (x, false)).mp = (s.st (x, false)).mp
    by_cases hx : x = s.n
    · subst hx; rw [hs2, put_same, f1]; exact m1
    · rw [hs2, put_ne _ _ (by simpa using hx)]; rfl
  have st12 : Step s.heap ({} : Store) hb d1 := st1.trans (Own.default _) st2
  refine ⟨s.bump.put (s.n, false) (hb, { d1 with mp := newMp s2 s.n e }), ?_,
    showsVar_put (shows_mp _ sh2), ?_, fun y hy => frv _ _ ?_ y hy, rfl, rfl, fun z hz => put_ne _ _ hz,
    fun c hc => st12.frame c hc (by simp)⟩
  · show Mach.declExpr zero conv e s = _
    unfold Mach.declExpr
    refine decl_ok (a := ()) ?_
    rw [M.bind_ok (M.get_apply _), if_pos (by rw [hsz, e1]; simp only []; omega)]
    rw [M.bind_ok (onSlot_ok (r := (ha, d1)) (a := ()) (by rw [e1, hsz]; exact q1))]
    beta_reduce
    rw [M.bind_ok (M.get_apply _), put_same]
    simp only [z1, M.reads_lift]
    rw [M.bind_ok q2, setDims_ok, hs2, put_same, put_heap, put_put]
    simp only [z1]
  · show ((s.bump.put (s.n, false) _).st (s.n, false)).mp = _
    rw [put_same]
    exact newMp_congr hmp
  · exact st12.trans (Own.default _) (Step.of_ptr rfl)

/-- C15, element-wise construction from an operation, or from a temporary or vector of another element
type (up to `2^30` elements): the elements are the converted values of the expression, the dimensions
are those of the expression, all existing vectors are unchanged.  `ρ` gives the lists of the vectors
that occur in the expression. -/
theorem C15_expression {zero : V} {s : Mach V} (r : Reach zero s) (conv : V → Out V) (e : Expr V)
    (ρ : Nat → Option (List V)) (hρ : ∀ x l, ρ x = some l → x < s.n ∧ ShowsVar s x l)
    (l L : List V) (h1 : eval ρ e = some l) (h2 : l.mapM (fun v => val (conv v)) = some L)
    (hL : L ≠ []) (hlim : L.length ≤ 2 ^ 30) :
    ∃ s', exec zero (.declExpr conv e) s = (.ok (), s') ∧ ShowsVar s' s.n L ∧
      s'.env.mp s.n = newMp s s.n e ∧ (∀ y, y < s.n → SameVar s s' y) := by
  obtain ⟨s', e1, h3, h4, h5, _⟩ := declExpr_full r conv e ρ hρ l L h1 h2 hL hlim
  exact ⟨s', e1, h3, h4, h5⟩

example : ∃ s s', Reach (0 : Int) s ∧ s.n = 3 ∧
    exec 0 (.declTemp [1, 2, 3, 4, 5, 6] ⟨true, 2, 3⟩) s = (.ok (), s') ∧
    (List.range 6).map (s'.env.get 4) = [1, 2, 3, 4, 5, 6].map Out.ok ∧
    s'.env.mp 4 = ⟨true, 2, 3⟩ :=
  ⟨_, _, sampleReach, by decide +kernel, Prod.ext (by decide +kernel) rfl, by decide +kernel,
    by decide +kernel⟩

example : ∃ s s', Reach (0 : Int) s ∧ s.n = 3 ∧
    exec 0 (.declExpr .ok (.bin (fun a b => .ok (a + b)) (.leaf 0) (.scal 1))) s = (.ok (), s') ∧
    (List.range 4).map (s'.env.get 3) = [1, 1, 1, 8].map Out.ok :=
  ⟨_, _, sampleReach, by decide +kernel, Prod.ext (by decide +kernel) rfl, by decide +kernel⟩

end Mach

/-! ## C10 failed allocations -/

section C10
open Store
variable {V : Type}

theorem capOf_not_thr (n : Nat) (m : String) : capOf n ≠ .thr m := by
  unfold capOf F64.toSizeT
  split
  · split <;> simp
  · simp

theorem new_cases (c : Nat) (h : Heap V) :
    (∃ h', Heap.new c h = (.thr "std::bad_alloc", h') ∧ h'.blk = h.blk ∧ h'.next = h.next) ∨
    ∃ b h', Heap.new c h = (.ok b, h') := by
  unfold Heap.new
  split
  · exact Or.inl ⟨_, rfl, rfl, rfl⟩
  · split
    · exact Or.inl ⟨_, rfl, rfl, rfl⟩
    · exact Or.inr ⟨_, _, rfl⟩

theorem fillScalar_not_thr (v : V) (h h' : Heap V) (s s' : Store) (m : String) :
    fillScalar v (h, s) ≠ (.thr m, (h', s')) := by
  have key : ∀ n, (M.forN n (fun i => Heap.store s.p i v) h).1 ≠ .thr m := by
    intro n
    induction n with
    | zero => simp [M.forN_zero, M.pure_apply]
    | succ n ih =>
      rw [M.forN_succ, M.bind_apply]
      rcases hm : M.forN n (fun i => Heap.store s.p i v) h with ⟨o, h1⟩
      rw [hm] at ih
      cases o with
      | ok u =>
        simp only [Heap.store, Heap.putCell]
        split <;> (try split) <;> (try split) <;> simp
      | thr x => exact ih
      | ub k => simp
  unfold fillScalar
  rw [M.bind_ok (self_apply _), heapM_apply]
  unfold Heap.fillRange
  intro h2
  exact key _ (Prod.ext_iff.mp h2).1

/-- C10 (partial: the operation is the first allocation of a store, `resize` of an unallocated store).
Whatever the fault schedule: if the allocation fails, the store has no memory, it can be destroyed,
every element access is rejected, and the heap is as before. -/
theorem C10_first_allocation_partial (zero : V) (n : Nat) (h h' : Heap V) (s s' : Store) (m : String)
    (ha : s.allocated = false) (hp : s.p = none) (h1 : 1 ≤ n)
    (e : resize zero n (h, s) = (.thr m, (h', s'))) :
    s'.allocated = false ∧ s'.p = none ∧ h'.blk = h.blk ∧ h'.next = h.next ∧
      dtor (h', s') = (.ok (), (h', s')) ∧ ∀ i, ∃ m', s'.get h' i = .thr m' := by
  unfold resize at e
  rw [M.bind_ok (M.ass_pos h1 _), M.bind_ok (self_apply _), if_pos (by simp [ha])] at e
  unfold init at e
  rw [M.bind_apply] at e
  rw [M.bind_ok (self_apply _), if_neg (by simp [ha])] at e
  beta_reduce at e
  rw [M.bind_ok (upd_apply _ _)] at e
  cases hc : capOf n with
  | ub k => rw [hc] at e; simp [M.bind_apply, M.lift_apply] at e
  | thr x => exact absurd hc (capOf_not_thr n x)
  | ok c =>
    rw [hc] at e
    rw [M.bind_ok (m := M.lift (.ok c)) (a := c) rfl, M.bind_ok (upd_apply _ _)] at e
    simp only [] at e
    rcases new_cases c h with ⟨h2, e2, e3, e4⟩ | ⟨b, h2, e2⟩
    · rw [M.bind_thr (show heapM (Heap.new c) _ = (.thr _, (h2, _)) by rw [heapM_apply, e2])] at e
      simp only [Prod.mk.injEq] at e
      obtain ⟨-, rfl, rfl⟩ := e
      refine ⟨ha, hp, e3, e4, dtor_none hp, fun i => ⟨"No memory was allocated", ?_⟩⟩
      unfold Store.get checkIdx
      rw [Out.ass_neg (by simp [ha])]
      rfl
    · rw [M.bind_ok (heapM_ok _ e2), upd_apply] at e
      simp only [] at e
      exact absurd e (fillScalar_not_thr _ _ _ _ _ _)

example : ∃ m h' s', resize (0 : Int) 5 ({ (Heap.empty : Heap Int) with sched := [true] }, {})
      = (.thr m, (h', s')) ∧ s'.sz = 5 ∧ (resize 0 5 (h', s')).1.isOk = true :=
  ⟨"std::bad_alloc", _, _, Prod.ext (by decide +kernel) rfl, by decide +kernel, by decide +kernel⟩

end C10
end ETR
