import Verif.Props.Memory

/-!
# C10: allocations that fail

Constructions leave nothing behind; a `resize` beyond the capacity always leaves a dangling pointer; a `push_back` leaves the elements as
they were.
-/

namespace ETR
namespace Mach
open Spec Store
variable {V : Type}

/-- Object `x` is under construction: cell `j` of block `b` and everything of the other objects are as in `s0`.  `o`: whether it borrows. -/
structure Building (s0 : Mach V) (x b j : Nat) (o : Bool) (t : Mach V) : Prop where
  cell : b < s0.heap.next → CellOK b j (s0.heap.blk b) t.heap
  st : ∀ z : Slot, z.1 ≠ x → t.st z = s0.st z
  bor : ∀ y, y ≠ x → t.bor y = s0.bor y
  kind : t.bor x = o
  tmp : b < s0.heap.next → (t.st (x, true)).p ≠ some b
  dat : b < s0.heap.next → o = false → (t.st (x, false)).p ≠ some b

variable {s0 : Mach V} {x b j : Nat} {o : Bool} {α : Type}

theorem Building.tmpSlot {m : SM V α} (h : KP (RA b j (s0.heap.blk b)) m) : KP (Building s0 x b j o) (onSlot (x, true) m) := by
  intro t ht
  have h1 := fun hlt : b < s0.heap.next => h (t.heap, t.st (x, true)) ⟨ht.cell hlt, ht.tmp hlt⟩
  unfold onSlot
  revert h1
  rcases m (t.heap, t.st (x, true)) with ⟨r, h', d⟩
  have key : (b < s0.heap.next → RA b j (s0.heap.blk b) (h', d)) → Building s0 x b j o { t with heap := h', st := fun y => if y = (x, true) then d else t.st y } := by
    intro h1
    refine ⟨fun hlt => (h1 hlt).1, fun z hz => ?_, ht.bor, ht.kind, fun hlt => ?_, fun hlt ho => ?_⟩
    · show (if z = (x, true) then d else t.st z) = _
      rw [if_neg (fun e => hz (by rw [e]))]
      exact ht.st z hz
    · show (if (x, true) = (x, true) then d else t.st (x, true)).p ≠ _
      rw [if_pos rfl]
      exact (h1 hlt).2
    · show (if (x, false) = (x, true) then d else t.st (x, false)).p ≠ _
      rw [if_neg (by simp)]
      exact ht.dat hlt ho
  cases r with
  | ok _ => exact key
  | thr _ => exact key
  | ub _ => exact fun _ => trivial

theorem Building.slot {m : SM V α} (h : KP (RA b j (s0.heap.blk b)) m) : KP (Building s0 x b j false) (onSlot (x, false) m) := by
  intro t ht
  have h1 := fun hlt : b < s0.heap.next => h (t.heap, t.st (x, false)) ⟨ht.cell hlt, ht.dat hlt rfl⟩
  unfold onSlot
  revert h1
  rcases m (t.heap, t.st (x, false)) with ⟨r, h', d⟩
  have key : (b < s0.heap.next → RA b j (s0.heap.blk b) (h', d)) → Building s0 x b j false { t with heap := h', st := fun y => if y = (x, false) then d else t.st y } := by
    intro h1
    refine ⟨fun hlt => (h1 hlt).1, fun z hz => ?_, ht.bor, ht.kind, fun hlt => ?_, fun hlt ho => ?_⟩
    · show (if z = (x, false) then d else t.st z) = _
      rw [if_neg (fun e => hz (by rw [e]))]
      exact ht.st z hz
    · show (if (x, true) = (x, false) then d else t.st (x, true)).p ≠ _
      rw [if_neg (by simp)]
      exact ht.tmp hlt
    · show (if (x, false) = (x, false) then d else t.st (x, false)).p ≠ _
      rw [if_pos rfl]
      exact (h1 hlt).2
  cases r with
  | ok _ => exact key
  | thr _ => exact key
  | ub _ => exact fun _ => trivial

/-- Only identifiers and blocks that did not exist before are different. -/
def Untouched (s0 : Mach V) (b j : Nat) (t : Mach V) : Prop :=
  (b < s0.heap.next → CellOK b j (s0.heap.blk b) t.heap) ∧ t.st = s0.st ∧ t.bor = s0.bor

theorem destroy_ne_thr (x : Nat) (s : Mach V) (m : String) (s' : Mach V) : Mach.destroy x s ≠ (.thr m, s') := by
  intro e
  have := destroy_no_thr (x := x) s trivial
  rw [e] at this
  exact this

/-- The object under construction is destroyed. -/
theorem Building.destroy (hf : ∀ t : Bool, s0.st (x, t) = {}) (hb : s0.bor x = false) {t t' : Mach V} (h : Building s0 x b j o t)
    (e : Mach.destroy x t = (.ok (), t')) : Untouched s0 b j t' := by
  have fin : ∀ u : Mach V, Building s0 x b j o u → Untouched s0 b j { u with
      st := fun y => if y.1 = x then {} else u.st y
      bor := fun y => if y = x then false else u.bor y } := by
    intro u hu
    refine ⟨hu.cell, funext fun z => ?_, funext fun y => ?_⟩
    · show (if z.1 = x then {} else u.st z) = _
      split
      · rename_i hz
        rcases z with ⟨z, w⟩
        cases hz
        exact (hf w).symm
      · exact hu.st z ‹_›
    · show (if y = x then false else u.bor y) = _
      split
      · rename_i hy
        rw [hy, hb]
      · exact hu.bor y ‹_›
  unfold Mach.destroy at e
  rw [M.bind_apply] at e
  have k1 := Building.tmpSlot (o := o) KP.dtorA t h
  rcases h1 : onSlot (x, true) Store.dtor t with ⟨r, t1⟩
  rw [h1] at e k1
  cases r with
  | ub _ => simp at e
  | thr _ => simp at e
  | ok _ =>
    dsimp only at e
    rw [M.bind_ok (M.get_apply _)] at e
    have k1 : Building s0 x b j o t1 := k1
    split at e
    · rename_i hb1
      have ho : o = false := by rw [← k1.kind]; simpa using hb1
      subst ho
      rw [M.bind_apply] at e
      have k2 := Building.slot KP.dtorA t1 k1
      rcases h2 : onSlot (x, false) Store.dtor t1 with ⟨r, t2⟩
      rw [h2] at e k2
      cases r with
      | ub _ => simp at e
      | thr _ => simp at e
      | ok _ =>
        have e := (Prod.mk.inj e).2
        rw [← e]
        exact fin t2 k2
    · have e := (Prod.mk.inj e).2
      rw [← e]
      exact fin t1 k1

theorem Building.first {s : Mach V} (hf : ∀ t : Bool, s.st (s.n, t) = {}) (hb : s.bor s.n = false) :
    Building s s.n b j false s.bump :=
  ⟨fun hlt => ⟨hlt, rfl, rfl, rfl, rfl⟩, fun _ _ => rfl, fun _ _ => rfl, hb, fun _ => by
    show (s.st (s.n, true)).p ≠ _
    rw [hf]; simp, fun _ _ => by
    show (s.st (s.n, false)).p ≠ _
    rw [hf]; simp⟩

theorem Building.unwind {s t s' : Mach V} {m e1 : String} (hf : ∀ t : Bool, s.st (s.n, t) = {}) (hb : s.bor s.n = false)
    (h1 : Building s s.n b j o t) (e : (Mach.destroy s.n >>= fun _ => (M.lift (.thr e1) : M (Mach V) Unit)) t = (.thr m, s')) :
    Untouched s b j s' := by
  rw [M.bind_apply] at e
  rcases hd : Mach.destroy s.n t with ⟨r, t2⟩
  rw [hd] at e
  cases r with
  | ub _ => simp at e
  | thr _ => exact absurd hd (destroy_ne_thr _ _ _ _)
  | ok _ =>
    have := h1.destroy hf hb hd
    have e := (Prod.mk.inj e).2
    rw [← e]
    exact this

/-- A constructor that throws. -/
theorem decl_untouched {body : Nat → M (Mach V) Unit} {s s' : Mach V} {m : String} (o : Bool) (hf : ∀ t : Bool, s.st (s.n, t) = {})
    (hb : s.bor s.n = false) (e : Mach.decl body s = (.thr m, s'))
    (h : ∀ t, Building s s.n b j false t → Kept (Building s s.n b j o) (body s.n t)) : Untouched s b j s' := by
  have h1 := h s.bump (Building.first hf hb)
  rcases hm : body s.n s.bump with ⟨r, t⟩
  rw [hm] at h1
  cases r with
  | ub k => rw [decl_ub hm] at e; simp at e
  | ok u => rw [decl_ok hm] at e; simp at e
  | thr e1 => exact Building.unwind hf hb h1 (by rw [← decl_thr hm]; exact e)

theorem Building.mp {q : MP} : KP (Building s0 x b j false) (onSlot (x, false) (Store.upd fun d => { d with mp := q })) :=
  Building.slot (KP.updA fun _ h => h)

theorem Building.setDims {e : Expr V} : KP (Building s0 x b j false) (Mach.setDims x e) := by
  unfold Mach.setDims
  exact KP.getB fun s _ => KP.ite (fun _ => KP.bind (KP.lift _) fun _ => KP.bind (KP.lift _) fun _ => Building.slot (KP.updA fun _ h => h))
    fun _ => KP.pure _

/-- Any construction that throws leaves every object and every block as it was. -/
theorem construction_untouched {zero : V} {c : Cmd V} (hd : c.isDecl = true) {s s' : Mach V} {m : String} (hf : ∀ t : Bool, s.st (s.n, t) = {})
    (hb : s.bor s.n = false) (e : exec zero c s = (.thr m, s')) : Untouched s b j s' := by
  cases c with
  | declDefault => exact decl_untouched (body := fun _ => pure ()) false hf hb e fun t ht => KP.pure () t ht
  | declSize n =>
    unfold exec declSize at e
    exact decl_untouched false hf hb e fun t ht => Building.slot KP.ctorSizeA t ht
  | declScalar v =>
    unfold exec declScalar at e
    exact decl_untouched false hf hb e fun t ht => KP.bind (Building.slot KP.ctorIntA) (fun _ => Building.slot KP.setA) t ht
  | declMat r c =>
    unfold exec declMat at e
    exact decl_untouched false hf hb e fun t ht =>
      KP.bind (Building.slot KP.ctorSizeA) (fun _ => Building.mp) t ht
  | declMatVal r c v =>
    unfold exec declMatVal at e
    exact decl_untouched false hf hb e fun t ht =>
      KP.bind (Building.slot KP.ctorSizeA) (fun _ => KP.bind Building.mp fun _ => Building.slot KP.fillA) t ht
  | declCopy y =>
    unfold exec declCopy at e
    by_cases hy : s.bor y = true
    · refine decl_untouched true hf hb e fun t ht => ?_
      have ht2 : t.bor y = true := by
        by_cases h : y = s.n
        · rw [h, hb] at hy; simp at hy
        · rw [ht.bor y h]; exact hy
      show Kept _ ((M.get >>= _) t)
      rw [M.bind_ok (M.get_apply _)]
      dsimp only
      rw [if_pos ht2, M.bind_ok (M.modify_apply _ _)]
      refine Building.tmpSlot KP.copyCtorA _ ⟨ht.cell, fun z hz => ?_, fun z hz => ?_, ?_, fun hlt => ?_, fun _ h => by simp at h⟩
      · show (if z = (s.n, false) then _ else t.st z) = _
        rw [if_neg (fun e => hz (by rw [e]))]
        exact ht.st z hz
      · show (if z = s.n then true else t.bor z) = _
        rw [if_neg hz]
        exact ht.bor z hz
      · show (if s.n = s.n then true else _) = true
        rw [if_pos rfl]
      · show (if (s.n, true) = (s.n, false) then _ else t.st (s.n, true)).p ≠ _
        rw [if_neg (by simp)]
        exact ht.tmp hlt
    · refine decl_untouched false hf hb e fun t ht => ?_
      have ht2 : ¬ t.bor y = true := by
        by_cases h : y = s.n
        · rw [h, ht.kind]; simp
        · rw [ht.bor y h]; exact hy
      show Kept _ ((M.get >>= _) t)
      rw [M.bind_ok (M.get_apply _)]
      dsimp only
      rw [if_neg ht2]
      exact KP.bind (Building.slot KP.copyCtorA) (fun _ => Building.tmpSlot KP.copyCtorA) t ht
  | declExpr conv ex =>
    unfold exec declExpr at e
    refine decl_untouched false hf hb e fun t ht => ?_
    have hk : KP (Building s s.n b j false) (do
        let u ← M.get
        M.forN (u.st (s.n, false)).sz (fun i => do
          let v ← M.reads (fun s => ex.el s.env i)
          let w ← M.lift (conv v)
          onSlot (s.n, false) (Store.set i w))
        Mach.setDims s.n ex) :=
      KP.getB fun u _ => KP.bind (KP.forN _ fun i _ => KP.bind (KP.reads _) fun _ => KP.bind (KP.lift _) fun _ => Building.slot KP.setA)
        fun _ => Building.setDims
    have hk2 : KP (Building s s.n b j false) (do
        let u ← M.get
        if (u.st (s.n, false)).sz < ex.size u.env then
          onSlot (s.n, false) (Store.resize zero (ex.size u.env))
        else
          onSlot (s.n, false) (Store.upd (fun d => { d with sz := ex.size u.env }))
        let u ← M.get
        M.forN (u.st (s.n, false)).sz (fun i => do
          let v ← M.reads (fun s => ex.el s.env i)
          let w ← M.lift (conv v)
          onSlot (s.n, false) (Store.set i w))
        Mach.setDims s.n ex) := by
      refine KP.getB fun u _ => KP.ite (fun _ => ?_) fun _ => ?_
      · exact KP.bind (Building.slot KP.resizeA) fun _ => hk
      · exact KP.bind (Building.slot (KP.updA fun _ h => h)) fun _ => hk
    exact hk2 t ht
  | declTemp l mp =>
    replace e : withTmp (fun t => makeTemp zero l mp t >>= fun _ => decl (fun x => stealTemp t x)) s = _ := e
    have hk : KP (Building s s.n b j false) (makeTemp zero l mp s.n) := by
      unfold makeTemp
      exact KP.bind (Building.slot KP.ctorSizeA) fun _ => KP.bind
        (KP.forN _ fun i _ => KP.bind (KP.lift _) fun _ => Building.slot KP.setA) fun _ => Building.slot (KP.updA fun _ h => h)
    have h1 := hk s.bump (Building.first hf hb)
    rcases hm : makeTemp zero l mp s.n s.bump with ⟨r, t⟩
    rw [hm] at h1
    cases r with
    | ub k =>
      rw [withTmp_ub (s' := t) (u := k) (by rw [M.bind_apply, hm])] at e
      simp at e
    | thr e1 =>
      refine Building.unwind (m := m) hf hb h1 (e1 := e1) ?_
      rw [← withTmp_thr (body := fun t => do makeTemp zero l mp t; decl (fun x => stealTemp t x)) (s' := t) (e := e1) (by rw [M.bind_apply, hm])]
      exact e
    | ok u =>
      have h2 : ∃ t2, decl (fun x => stealTemp s.n x) t = (.ok (), t2) := ⟨_, decl_ok (a := ()) rfl⟩
      obtain ⟨t2, h2⟩ := h2
      rw [withTmp_ok (a := ()) (s' := t2) (by rw [M.bind_ok hm, h2])] at e
      exact absurd e (destroy_ne_thr _ _ _ _)
  | declPtr p n =>
    unfold exec declPtr at e
    refine decl_untouched false hf hb e fun t ht => ?_
    exact KP.bind (Building.slot KP.ctorSizeA) (fun _ => KP.bind (KP.forN _ fun i _ => KP.bind (KP.reads _) fun _ => Building.slot KP.setA)
      fun _ => Building.mp) t ht
  | declBorrow p n =>
    have h2 : ∃ t2, exec zero (.declBorrow p n) s = (.ok (), t2) := ⟨_, rfl⟩
    obtain ⟨t2, h2⟩ := h2
    rw [h2] at e
    simp at e
  | _ => simp [Cmd.isDecl] at hd

end Mach

namespace Store
open Spec Mach
variable {V : Type}

/-- For every history (allocations may fail at any point) and every construction that throws afterwards: all vectors and all memory
that existed are exactly as before, and no memory remains that does not belong to a vector that existed before. -/
theorem C10_construction_partial {zero : V} (sched : List Bool) (cs : List (Cmd V)) (ho : OwningAll zero cs (start sched))
    (hu : UsesExisting zero cs (start sched) []) {s s' : Mach V} (e : runAll zero cs (start sched) = (none, s)) {c : Cmd V}
    (hd : c.isDecl = true) (hoc : Owning s c) {m : String} (ec : exec zero c s = (.thr m, s')) :
    s'.st = s.st ∧ s'.bor = s.bor ∧ (∀ b, b < s.heap.next → s'.heap.blk b = s.heap.blk b) ∧
      ∀ b, b < s'.heap.next → (s'.heap.blk b).live = true → (s'.heap.blk b).newed = true →
        ∃ z : Slot, z.1 ∈ existing zero cs (start sched) [] ∧ (s.st z).p = some b ∧ (s.st z).allocated = true := by
  have hz := existing_Z cs (start sched) s [] (fun z _ => rfl) hu e
  obtain ⟨N, hw, hN⟩ := existing_WB cs (start sched) s [] 0 (WB.start sched) (by simp) hu ho e
  have hn : s.n = N := hw.1.n
  have hf : ∀ t : Bool, s.st (s.n, t) = {} := fun t => hz _ fun h => by
    have := hN _ h
    simp only at this
    omega
  have hb : s.bor s.n = false := hw.2 _ (by omega)
  have hU : ∀ b j, Untouched s b j s' := fun b j => construction_untouched hd hf hb ec
  have hwe := exec_WB (zero := zero) hw (c := c) (fun x hx => by cases c <;> simp [Cmd.isDecl, Cmd.target] at hd hx) hoc
  rw [ec] at hwe
  obtain ⟨k, _, hk⟩ := hwe
  have hst : s'.st = s.st ∧ s'.bor = s.bor := (hU 0 0).2
  refine ⟨hst.1, hst.2, fun b hlt => ?_, fun b h1 h2 h3 => ?_⟩
  · have h0 := (hU b 0).1 hlt
    have hc : (s'.heap.blk b).cell = (s.heap.blk b).cell := funext fun j => ((hU b j).1 hlt).cell
    have h1 := h0.live
    have h2 := h0.newed
    have h3 := h0.len
    revert hc h1 h2 h3
    generalize s'.heap.blk b = B1
    generalize s.heap.blk b = B2
    cases B1; cases B2
    intro a1 a2 a3 a4
    simp_all
  · obtain ⟨z, _, hz2⟩ := hk.1.held b ⟨h1, h2, h3⟩
    rw [hst.1] at hz2
    refine ⟨z, ?_, hz2.1, hz2.2⟩
    by_contra hne
    have := hz z hne
    rw [Desig, this] at hz2
    simp at hz2

example : ∃ (s s' : Mach Int) (m : String), OwningAll 0 [.declSize 3, .declScalar 7] (start [false, false, true]) ∧
    UsesExisting 0 [.declSize 3, .declScalar 7] (start [false, false, true]) [] ∧
    runAll 0 [.declSize 3, .declScalar 7] (start [false, false, true]) = (none, s) ∧ Owning s (.declSize 4) ∧
    exec 0 (.declSize 4) s = (.thr m, s') ∧ existing (0 : Int) [.declSize 3, .declScalar 7] (start [false, false, true]) [] = [1, 0] := by
  refine ⟨_, _, "std::bad_alloc", ?_, ?_, Prod.ext (by decide +kernel) rfl, ?_, Prod.ext (by decide +kernel) rfl, by decide +kernel⟩
  · refine ⟨trivial, ?_⟩
    split
    · trivial
    · refine ⟨trivial, ?_⟩
      split <;> trivial
  · refine ⟨fun _ h => (by cases h), ?_⟩
    split
    · exact ⟨fun _ h => (by cases h), by split <;> trivial⟩
    · exact ⟨fun _ h => (by cases h), by split <;> trivial⟩
    · trivial
  · simp only [Owning]

theorem delete_ne_thr (p : Ptr) (h : Heap V) (m : String) (h' : Heap V) : Heap.delete p h ≠ (.thr m, h') := by
  unfold Heap.delete
  cases p with
  | none => simp
  | some b =>
    dsimp only
    split
    · simp
    · split <;> simp

/-- `realloc` that throws has only raised the capacity. -/
theorem realloc_thr {zero : V} {n : Nat} {h h' : Heap V} {s s' : Store} {m : String} (e : Store.realloc zero n (h, s) = (.thr m, (h', s'))) :
    h'.blk = h.blk ∧ h'.next = h.next ∧ ∃ c, s' = { s with capacity := c } := by
  unfold Store.realloc at e
  cases hc : capOfI32 n with
  | ub k => rw [hc] at e; simp [M.bind_apply, M.lift_apply] at e
  | thr x =>
    exfalso
    revert hc
    unfold capOfI32 F64.toI32
    split
    · split <;> simp
    · simp
  | ok c =>
    rw [hc] at e
    rw [M.bind_ok (m := M.lift (.ok c)) (a := c) rfl, M.bind_ok (upd_apply _ _)] at e
    dsimp only at e
    rcases new_cases c h with ⟨h2, e2, e3, e4⟩ | ⟨b, h2, e2⟩
    · rw [M.bind_thr (show heapM (Heap.new c) _ = (.thr _, (h2, _)) by rw [heapM_apply, e2])] at e
      simp only [Prod.mk.injEq] at e
      obtain ⟨-, rfl, rfl⟩ := e
      exact ⟨e3, e4, c, rfl⟩
    · rw [M.bind_ok (heapM_ok _ e2)] at e
      exfalso
      revert e
      rw [M.bind_ok (self_apply _)]
      refine NT.no (P := fun _ => True) (Q := fun _ _ => True) ?_ trivial
      refine NT.bind (R := fun _ _ => True) (NT.forN (I := fun _ => True) _ fun i _ => NT.bind (R := fun _ _ => True)
        (NT.reads (P := fun _ => True) fun _ _ _ => load_no_thr _ _ _ _) fun _ => heap_no_thr store_no_thr) fun _ => ?_
      refine NT.bind (R := fun _ _ => True) (NT.forN (I := fun _ => True) _ fun i _ => heap_no_thr store_no_thr) fun _ => ?_
      refine NT.bind (R := fun _ _ => True) (heap_no_thr (delete_ne_thr _)) fun _ => ?_
      intro st _
      rw [upd_apply]
      trivial

/-- A `push_back` that throws, whatever the fault schedule: the elements and the length are as before, all memory is as before, and the
vector can be destroyed exactly as before.  Missing is the capacity, see `C10_false_push_back`. -/
theorem C10_push_back_partial {zero v : V} {h h' : Heap V} {s s' : Store} {m : String}
    (e : Store.pushBack zero v (h, s) = (.thr m, (h', s'))) :
    s'.sz = s.sz ∧ (∀ i, s'.get h' i = s.get h i) ∧ (∀ b, h'.blk b = h.blk b) ∧ (dtor (h', s')).1 = (dtor (h, s)).1 := by
  have key : h'.blk = h.blk ∧ h'.next = h.next ∧ ∃ c, s' = { s with capacity := c } := by
    unfold Store.pushBack at e
    rw [M.bind_ok (self_apply _)] at e
    dsimp only at e
    split at e
    · rw [M.bind_apply] at e
      rcases hr : Store.realloc zero (if s.sz = 0 then 1 else s.sz * 2 % two64) (h, s) with ⟨r, st⟩
      rw [hr] at e
      cases r with
      | ub _ => simp at e
      | thr x =>
        have e := (Prod.mk.inj e).2
        rw [e] at hr
        exact realloc_thr hr
      | ok _ =>
        exfalso
        revert e
        dsimp only
        refine NT.no (P := fun _ => True) (Q := fun _ _ => True) ?_ trivial
        refine NT.bind (R := fun _ _ => True) (fun _ _ => trivial) (fun _ => ?_)
        refine NT.bind (R := fun _ _ => True) (fun _ _ => trivial) (fun _ => ?_)
        refine NT.bind (R := fun _ _ => True) (heap_no_thr store_no_thr) (fun _ => ?_)
        refine NT.bind (R := fun _ _ => True) ?_ (fun _ => fun _ _ => trivial)
        intro st _
        rw [M.lift_apply]
        unfold ckI32
        by_cases hr : InI32 (wrapI32 s.sz + 1)
        · simp [hr]
        · simp [hr]
    · split at e
      · exfalso
        revert e
        refine NT.no (P := fun _ => True) (Q := fun _ _ => True) (NT.bind (R := fun _ _ => True) (heap_no_thr store_no_thr) fun _ => ?_) trivial
        intro st _
        rw [upd_apply]
        trivial
      · simp at e
  obtain ⟨k1, k2, c, rfl⟩ := key
  have hl : ∀ i, h'.load s.p i = h.load s.p i := fun i => by
    unfold Heap.load Heap.cellAt
    rw [k1]
  refine ⟨rfl, fun i => ?_, fun b => by rw [k1], ?_⟩
  · unfold Store.get checkIdx
    simp only [hl]
  · unfold Store.dtor
    rw [M.bind_ok (self_apply _), M.bind_ok (self_apply _)]
    dsimp only
    cases hp : s.p with
    | none => simp
    | some q =>
      cases ha : s.allocated with
      | false => simp
      | true =>
        rw [if_pos (by simp), if_pos (by simp), M.bind_apply, M.bind_apply, heapM_apply, heapM_apply]
        unfold Heap.delete
        dsimp only
        rw [k1]
        by_cases h1 : (h.blk q).newed = true <;> by_cases h2 : (h.blk q).live = true <;> simp [h1, h2]

example : ∃ m h' s', pushBack (0 : Int) 9 ((ctorSize 0 6 ((Heap.empty [false, true] : Heap Int), {})).2) = (.thr m, (h', s')) ∧
    s'.sz = 6 ∧ (dtor (h', s')).1 = .ok () :=
  ⟨"std::bad_alloc", _, _, Prod.ext (by decide +kernel) rfl, by decide +kernel, by decide +kernel⟩

/-- A `resize` of a vector with memory beyond its capacity that throws, whatever the sizes and the fault schedule: the memory of the vector
is already freed, so that its destructor frees it a second time and each element is read after it was freed. -/
theorem C10_resize_dangling {zero : V} {n b : Nat} {h h' : Heap V} {s s' : Store} {m : String} (ha : s.allocated = true) (hp : s.p = some b)
    (hn : (h.blk b).newed = true) (hl : (h.blk b).live = true) (h1 : 1 ≤ n) (hc : s.capacity < n)
    (e : Store.resize zero n (h, s) = (.thr m, (h', s'))) :
    (dtor (h', s')).1 = .ub .badFree ∧ s'.sz = s.sz ∧ ∀ i, i < s.sz → s'.get h' i = .ub .useAfterFree := by
  unfold resize at e
  rw [M.bind_ok (M.ass_pos h1 _), M.bind_ok (self_apply _), if_neg (by simp [ha]), if_pos hc, M.bind_ok (M.ass_pos (by simp [hp]) _)] at e
  have hd : Heap.delete s.p h = (.ok (), h.setBlk b { h.blk b with live := false }) := by
    unfold Heap.delete
    rw [hp]
    simp [hn, hl]
  rw [M.bind_ok (heapM_ok _ hd)] at e
  cases hcap : capOf n with
  | ub k => rw [hcap] at e; simp [M.bind_apply, M.lift_apply] at e
  | thr x => exact absurd hcap (capOf_not_thr n x)
  | ok c =>
    rw [hcap] at e
    rw [M.bind_ok (m := M.lift (.ok c)) (a := c) rfl, M.bind_ok (upd_apply _ _)] at e
    dsimp only at e
    rcases new_cases c (h.setBlk b { h.blk b with live := false }) with ⟨h2, e2, e3, e4⟩ | ⟨b2, h2, e2⟩
    · rw [M.bind_thr (show heapM (Heap.new c) _ = (.thr _, (h2, _)) by rw [heapM_apply, e2])] at e
      simp only [Prod.mk.injEq] at e
      obtain ⟨-, rfl, rfl⟩ := e
      have hb : (h2.blk b).live = false ∧ (h2.blk b).newed = true := by
        rw [e3]
        simp [Heap.setBlk, hn]
      refine ⟨?_, rfl, fun i hi => ?_⟩
      · unfold Store.dtor
        rw [M.bind_ok (self_apply _)]
        dsimp only
        rw [if_pos (by simp [hp]), if_pos ha, M.bind_apply, heapM_apply]
        unfold Heap.delete
        rw [hp]
        simp [hb.1, hb.2]
      · rw [get_eq_load (s := { s with capacity := c }) ha hi]
        unfold Heap.load Heap.cellAt
        dsimp only
        rw [hp]
        simp [hb.1]
    · rw [M.bind_ok (heapM_ok _ e2), M.bind_ok (upd_apply _ _)] at e
      exact absurd e (fillScalar_not_thr _ _ _ _ _ _)

example : ∃ (h h' : Heap Int) (s s' : Store) (m : String), s.allocated = true ∧ s.p = some 0 ∧ (h.blk 0).newed = true ∧
    (h.blk 0).live = true ∧ s.capacity < 10 ∧ resize 0 10 (h, s) = (.thr m, (h', s')) ∧ 0 < s.sz :=
  ⟨(ctorSize 0 4 ((Heap.empty [false, true] : Heap Int), {})).2.1, _, (ctorSize 0 4 ((Heap.empty [false, true] : Heap Int), {})).2.2, _,
    "std::bad_alloc", by decide +kernel, by decide +kernel, by decide +kernel, by decide +kernel, by decide +kernel,
    Prod.ext (by decide +kernel) rfl, by decide +kernel⟩

end Store
end ETR
