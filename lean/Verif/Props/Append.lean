import Verif.Spec.Append
import Verif.Props.Shape
import Verif.Props.Push
import Verif.Lemmas.Alone

/-! # C90 with `push_back`: lengths and dimensions in programs that append -/

namespace ETR.Mach
open Spec Deriv
variable {V : Type}

/-! ## Length and capacity of one store -/

/-- Length and capacity. -/
abbrev sc (s : Heap V × Store) : Nat × Nat := (s.2.sz, s.2.capacity)

theorem pres_sc {α : Type} {m : SM V α} (h : Pres (obj (V := V)) m) : Pres (sc (V := V)) m :=
  fun s => by simp only [sc]; rw [show (m s).2.2 = s.2 from h s]

/-- After the operation the capacity covers the length. -/
def Roomy (m : SM V Unit) : Prop := ∀ s s', m s = (.ok (), s') → s'.2.sz ≤ s'.2.capacity

theorem roomy_bind {α : Type} {m : SM V α} {f : α → SM V Unit} (hf : ∀ a, Roomy (f a)) : Roomy (m >>= f) := by
  intro s s' e
  obtain ⟨a, s1, _, e2⟩ := postBind e
  exact hf a s1 s' e2

theorem roomy_then {m : SM V Unit} {f : Unit → SM V Unit} (h : Roomy m) (hf : ∀ a, Pres (sc (V := V)) (f a)) : Roomy (m >>= f) := by
  intro s s' e
  obtain ⟨a, s1, e1, e2⟩ := postBind e
  have h1 := h s s1 e1
  have h2 := (hf a).ok e2
  simp only [sc, Prod.mk.injEq] at h2
  rw [h2.1, h2.2]
  exact h1

/-- The capacity computed for `n` elements covers them. -/
theorem roomy_cap {n c : Nat} (hn : n ≤ 2 ^ 63) (e : capOf n = .ok c) : n ≤ c := by
  obtain ⟨c', e', h, _⟩ := capOf_spec hn
  rw [e] at e'
  cases e'
  exact h

theorem roomy_ctorSize (zero : V) {n : Nat} (hn : n ≤ 2 ^ 63) : Roomy (Store.ctorSize zero n) := by
  intro s s' e
  unfold Store.ctorSize at e
  obtain ⟨c, s1, e1, e⟩ := postBind e
  have hc : capOf n = .ok c := by
    rw [M.lift_apply] at e1
    exact (Prod.mk.inj e1).1
  revert e
  refine roomy_then ?_ (fun _ => ?_) s1 s'
  · intro t t' et; cases et; exact roomy_cap hn hc
  · exact Pres.bind (Pres.ass _ _) fun _ => Pres.bind (pres_sc (pres_heapM _)) fun b => Pres.bind (fun s => rfl) fun _ =>
      Pres.bind (pres_sc (pres_heapM _)) fun _ s => rfl

theorem roomy_ctorOne (zero : V) : Roomy (Store.ctorInt zero 1) := by
  intro s s' e
  unfold Store.ctorInt at e
  obtain ⟨c, s1, e1, e⟩ := postBind e
  have hc : capOfInt 1 = .ok c := by
    rw [M.lift_apply] at e1
    exact (Prod.mk.inj e1).1
  have h1 : c = 1 := by
    have : capOfInt 1 = .ok 1 := by decide +kernel
    rw [this] at hc; cases hc; rfl
  revert e
  refine roomy_then ?_ (fun _ => ?_) s1 s'
  · intro t t' et; cases et; subst h1; show wrap64 1 ≤ 1; decide
  · exact Pres.bind (Pres.ass _ _) fun _ => Pres.bind (pres_sc (pres_heapM _)) fun b => Pres.bind (fun s => rfl) fun _ =>
      Pres.bind (pres_sc (pres_heapM _)) fun _ s => rfl

theorem roomy_init {n : Nat} (hn : n ≤ 2 ^ 63) : Roomy (Store.init n : SM V Unit) := by
  have tail : Roomy ((do
      Store.upd (fun s => { s with sz := n })
      let c ← M.lift (capOf n)
      Store.upd (fun s => { s with capacity := c })
      let b ← Store.heapM (Heap.new c)
      Store.upd (fun s => { s with p := some b, allocated := true })) : SM V Unit) := by
    intro s s' e
    obtain ⟨_, s1, e1, e⟩ := postBind e
    obtain ⟨c, s2, e2, e⟩ := postBind e
    obtain ⟨_, s3, e3, e⟩ := postBind e
    obtain ⟨b, s4, e4, e5⟩ := postBind e
    have hc : capOf n = .ok c := by
      rw [M.lift_apply] at e2
      exact (Prod.mk.inj e2).1
    have k2 := (Pres.lift (g := sc (V := V)) (capOf n)).ok e2
    have k4 := (pres_sc (V := V) (pres_heapM (Heap.new c))).ok e4
    cases e1; cases e3; cases e5
    simp only [sc, Prod.mk.injEq] at k2 k4
    show s4.2.sz ≤ s4.2.capacity
    rw [k4.1, k4.2, k2.1]
    exact roomy_cap hn hc
  unfold Store.init
  refine roomy_bind fun st => ?_
  split
  · exact roomy_bind fun _ => roomy_bind fun _ => roomy_bind fun _ => tail
  · exact tail

theorem roomy_resize (zero : V) {n : Nat} (hn : n ≤ 2 ^ 63) : Roomy (Store.resize zero n) := by
  intro s s' e
  unfold Store.resize at e
  obtain ⟨_, s0, e0, e⟩ := postBind e
  obtain ⟨st, s1, e1, e⟩ := postBind e
  cases e1
  split at e
  · exact roomy_then (roomy_init hn) (fun _ => pres_sc (pres_fillScalar _)) _ _ e
  · split at e
    · obtain ⟨_, t1, _, e⟩ := postBind e
      obtain ⟨_, t2, _, e⟩ := postBind e
      obtain ⟨c, t3, e3, e⟩ := postBind e
      have hc : capOf n = .ok c := by
        rw [M.lift_apply] at e3
        exact (Prod.mk.inj e3).1
      obtain ⟨_, t4, e4, e⟩ := postBind e
      obtain ⟨b, t5, e5, e⟩ := postBind e
      have k5 := (pres_sc (V := V) (pres_heapM (Heap.new c))).ok e5
      obtain rfl := (Prod.mk.inj e4).2
      simp only [sc, Prod.mk.injEq] at k5
      obtain ⟨_, t6, e6, e7⟩ := postBind e
      obtain rfl := (Prod.mk.inj e6).2
      have k := (pres_sc (V := V) (pres_fillScalar zero)).ok e7
      simp only [sc, Prod.mk.injEq] at k
      rw [k.1, k.2]
      exact roomy_cap hn hc
    · cases e
      show n ≤ s0.2.capacity
      omega

theorem roomy_realloc (zero : V) {n : Nat} (hn : n ≤ 2 ^ 30) (s s' : Heap V × Store) (e : Store.realloc zero n s = (.ok (), s')) :
    s'.2.sz = n ∧ n ≤ s'.2.capacity := by
  refine ⟨(sets_realloc zero n s s' e).1, ?_⟩
  unfold Store.realloc at e
  obtain ⟨c, s1, e1, e⟩ := postBind e
  obtain ⟨c', ec, _, h, _⟩ := capOfI32_spec (n := n) (by omega)
  have hc : c = c' := by
    rw [M.lift_apply, ec] at e1
    exact (Out.ok.inj (Prod.mk.inj e1).1).symm
  obtain ⟨_, s2, e2, e⟩ := postBind e
  have k : s'.2.capacity = s2.2.capacity := by
    have : Pres (fun s : Heap V × Store => s.2.capacity) (do
        let b ← Store.heapM (Heap.new c)
        let s ← Store.self
        M.forN s.sz (fun i => do
          let v ← M.reads (fun st => st.1.load s.p i)
          Store.heapM (Heap.store (some b) i v))
        M.forN (n - s.sz) (fun i => Store.heapM (Heap.store (some b) (s.sz + i) zero))
        Store.heapM (Heap.delete s.p)
        Store.upd (fun s => { s with p := some b, sz := n, allocated := true }) : SM V Unit) :=
      Pres.bind (fun s => rfl) fun b => Pres.bind (fun s => rfl) fun st =>
        Pres.bind (Pres.forN (fun i => Pres.bind (Pres.reads _) fun _ s => rfl) _) fun _ =>
        Pres.bind (Pres.forN (fun i s => rfl) _) fun _ => Pres.bind (fun s => rfl) fun _ s => rfl
    exact this.ok e
  cases e2
  rw [k, hc]
  exact h

theorem pushBack_room (zero v : V) (s s' : Heap V × Store) (hs : s.2.sz < 2 ^ 29) (e : Store.pushBack zero v s = (.ok (), s')) :
    (s.2.sz ≤ s.2.capacity → s'.2.sz = s.2.sz + 1 ∧ s'.2.sz ≤ s'.2.capacity ∧ s'.2.mp = s.2.mp) ∧
    (s.2.capacity < s.2.sz → s' = s) := by
  unfold Store.pushBack at e
  obtain ⟨st, s1, e1, e⟩ := postBind e
  cases e1
  split at e
  · rename_i heq
    refine ⟨fun _ => ?_, fun h => by omega⟩
    obtain ⟨_, s2, e2, e⟩ := postBind e
    obtain ⟨_, s3, e3, e⟩ := postBind e
    obtain ⟨st, s4, e4, e⟩ := postBind e
    obtain ⟨_, s5, e5, e⟩ := postBind e
    obtain ⟨n, s6, e6, e7⟩ := postBind e
    have hm := (sets_realloc zero _ _ _ e2).2
    have hr := roomy_realloc zero (by split <;> (try unfold two64) <;> omega) _ _ e2
    have k5 := (pres_heapM (V := V) (Heap.store st.p (wrap64 (wrapI32 s.2.sz)) v)).ok e5
    have k6 := (Pres.lift (g := obj (V := V)) (ckI32 (wrapI32 s.2.sz + 1))).ok e6
    have hn : n = s.2.sz + 1 := by
      rw [M.lift_apply, Store.wrapI32_small (by omega)] at e6
      have := (Prod.mk.inj e6).1
      unfold ckI32 at this
      split at this <;> simp_all
    cases e3; cases e4; cases e7
    simp only [obj] at k5 k6
    have hw : wrap64 n = s.2.sz + 1 := by rw [hn]; exact Store.wrap64_small (n := s.2.sz + 1) (by omega)
    refine ⟨hw, ?_, ?_⟩
    · show wrap64 n ≤ s6.2.capacity
      rw [hw, k6, k5]
      show _ ≤ s2.2.sz
      rw [hr.1]
      split
      · omega
      · rw [Nat.mod_eq_of_lt (by unfold two64; omega)]; omega
    · show s6.2.mp = _
      rw [k6, k5]
      exact hm
  · split at e
    · rename_i hlt
      refine ⟨fun _ => ?_, fun h => by omega⟩
      obtain ⟨_, s2, e2, e3⟩ := postBind e
      have k2 := (pres_heapM (V := V) (Heap.store s.2.p s.2.sz v)).ok e2
      cases e3
      simp only [obj] at k2
      rw [k2]
      exact ⟨rfl, hlt, rfl⟩
    · refine ⟨fun h => by omega, fun _ => ?_⟩
      cases e
      rfl

theorem storeAssign_room (zero : V) (o : Store) (ho : o.sz ≤ 2 ^ 30) (s s' : Heap V × Store) (e : Store.assign zero o s = (.ok (), s')) :
    (s.2.sz < o.sz → s'.2.sz ≤ s'.2.capacity) ∧ (o.sz ≤ s.2.sz → s'.2 = s.2) := by
  rw [Store.assign] at e
  obtain ⟨a, s1, e1, e2⟩ := postBind e
  cases e1
  have tail : Pres (obj (V := V)) (do
      let s ← Store.self
      M.forN s.sz (fun i => do
        let v ← M.reads (fun st => o.get st.1 i)
        Store.heapM (Heap.store s.p i v))) :=
    Pres.bind pres_self fun st => Pres.forN (fun i => Pres.bind (Pres.reads _) fun _ => pres_heapM _) _
  by_cases h : o.sz > s.2.sz
  · refine ⟨fun _ => ?_, fun h' => by omega⟩
    rw [if_pos h] at e2
    split at e2
    · obtain ⟨_, s2, e3, e4⟩ := postBind e2
      rw [show s'.2 = s2.2 from tail.ok e4]
      rw [show s.2.sz + (o.sz - s.2.sz) = o.sz by omega] at e3
      have := roomy_realloc zero ho _ _ e3
      omega
    · obtain ⟨_, s2, e3, e4⟩ := postBind e2
      rw [show s'.2 = s2.2 from tail.ok e4]
      exact roomy_resize zero (by omega) _ _ e3
  · refine ⟨fun h' => by omega, fun _ => ?_⟩
    rw [if_neg h] at e2
    exact tail.ok e2

/-! ## Length and capacity of the variables of the machine -/

/-- Length and capacity of the variable `y`. -/
abbrev rm (y : Nat) (s : Mach V) : Nat × Nat := ((s.st (y, false)).sz, (s.st (y, false)).capacity)

theorem pres_rm_temp {α : Type} (y t : Nat) (m : SM V α) : Pres (rm (V := V) y) (onSlot (t, true) m) := by
  intro s
  have : ((y, false) : Slot) ≠ (t, true) := fun h => by cases h
  simp only [rm, onSlot, if_neg this]

theorem pres_rm {α : Type} (y x : Nat) {m : SM V α} (h : Pres (sc (V := V)) m) : Pres (rm (V := V) y) (onSlot (x, false) m) := by
  intro s
  have h1 := h (s.heap, s.st (x, false))
  simp only [sc, Prod.mk.injEq] at h1
  simp only [rm, onSlot]
  by_cases hy : ((y, false) : Slot) = (x, false)
  · rw [if_pos hy, h1.1, h1.2]; cases hy; rfl
  · rw [if_neg hy]

theorem pres_rm_fillTemp (y : Nat) (zero : V) (conv : V → Out V) (t : Nat) (e : Expr V) : Pres (rm (V := V) y) (fillTemp zero conv t e) :=
  Pres.bind (fun _ => rfl) fun _ => Pres.bind (pres_rm_temp y t _) fun _ =>
    Pres.forN (fun _ => Pres.bind (Pres.reads _) fun _ => Pres.bind (Pres.lift _) fun _ => pres_rm_temp y t _) _

theorem pres_rm_setDims (y x : Nat) (e : Expr V) : Pres (rm (V := V) y) (setDims x e) := by
  refine Pres.bind (fun _ => rfl) fun s => ?_
  split
  · exact Pres.bind (Pres.lift _) fun _ => Pres.bind (Pres.lift _) fun _ => pres_rm y x (fun _ => rfl)
  · exact Pres.pure _

theorem pres_rm_subSet (y x : Nat) (ind : List Nat) (pos : Nat) (v : V) : Pres (rm (V := V) y) (subSet x ind pos v) :=
  Pres.bind (fun _ => rfl) fun _ => Pres.bind (Pres.lift _) fun _ => Pres.bind (Pres.lift _) fun _ => pres_rm y x (pres_sc (pres_set _ _))

/-- The capacity covers the length. -/
def Room (s : Mach V) (y : Nat) : Prop := (s.st (y, false)).sz ≤ (s.st (y, false)).capacity

theorem Room.keep {α : Type} {s s' : Mach V} {y : Nat} {m : M (Mach V) α} {a : α} (h : Room s y) (hm : Pres (rm (V := V) y) m)
    (e : m s = (.ok a, s')) : Room s' y := by
  have := hm.ok e
  simp only [rm, Prod.mk.injEq] at this
  unfold Room
  rw [this.1, this.2]
  exact h

theorem Room.on {s s' : Mach V} {x : Nat} {m : SM V Unit} (hm : Roomy m) (e : onSlot (x, false) m s = (.ok (), s')) : Room s' x := by
  obtain ⟨r, hr, rfl⟩ := onSlot_inv e
  show (if ((x, false) : Slot) = (x, false) then r.2 else _ : Store).sz ≤ (if ((x, false) : Slot) = (x, false) then r.2 else _ : Store).capacity
  rw [if_pos rfl]
  exact hm _ _ hr

theorem room_declExpr {zero : V} {conv : V → Out V} {e : Expr V} {s s' : Mach V} (hf : Room s s.n)
    (hn : e.size s.env ≤ 2 ^ 30) (h : declExpr zero conv e s = (.ok (), s')) : Room s' s.n := by
  have h1 := decl_shape h
  rw [M.bind_ok (M.get_apply _)] at h1
  have hn' : e.size ({ s with n := s.n + 1 } : Mach V).env ≤ 2 ^ 30 := hn
  have tail : Pres (rm (V := V) s.n) (do
      let s1 ← M.get
      M.forN (s1.st (s.n, false)).sz (fun i => do
        let v ← M.reads (fun s => e.el s.env i)
        let w ← M.lift (conv v)
        onSlot (s.n, false) (Store.set i w))
      setDims s.n e) :=
    Pres.bind (fun _ => rfl) fun _ => Pres.bind (Pres.forN (fun i => Pres.bind (Pres.reads _) fun v => Pres.bind (Pres.lift _) fun w =>
      pres_rm _ _ (pres_sc (pres_set i w))) _) fun _ => pres_rm_setDims _ _ _
  split at h1
  · obtain ⟨_, s1, e1, h2⟩ := postBind h1
    exact (Room.on (roomy_resize zero (by omega)) e1).keep tail h2
  · rename_i hlt
    obtain ⟨_, s1, e1, h2⟩ := postBind h1
    refine Room.keep ?_ tail h2
    obtain ⟨r, hr, rfl⟩ := onSlot_inv e1
    cases hr
    show (if ((s.n, false) : Slot) = (s.n, false) then _ else _ : Store).sz ≤ (if ((s.n, false) : Slot) = (s.n, false) then _ else _ : Store).capacity
    rw [if_pos rfl]
    have : ¬ (s.st (s.n, false)).sz < e.size ({ s with n := s.n + 1 } : Mach V).env := hlt
    have hf : (s.st (s.n, false)).sz ≤ (s.st (s.n, false)).capacity := hf
    show e.size _ ≤ (s.st (s.n, false)).capacity
    omega

/-! ## Programs -/

/-- State and growth agree. -/
structure Grows (s : Mach V) (G : Growth) : Prop where
  shapes : HasShapes s G.shapes
  stuck : ∀ y, s.bor y = false → G.stuck y = true → (s.st (y, false)).capacity < (s.st (y, false)).sz
  room : ∀ y, s.bor y = false → G.stuck y = false → Room s y
  fresh : ∀ y, G.shapes.next ≤ y → G.stuck y = false

theorem grows_start : Grows (Mach.start : Mach V) Growth.start :=
  ⟨hasShapes_start, fun _ _ h => (by cases h), fun _ _ _ => le_refl _, fun _ _ => rfl⟩

/-- A variable that the command is not applied to keeps its data member. -/
theorem exec_obj {zero : V} {c : Cmd V} {s s' : Mach V} (e : exec zero c s = (.ok (), s')) {y : Nat} (hy : y < s.n)
    (ht : c.target ≠ some y) : s'.st (y, false) = s.st (y, false) := by
  have := exec_KS (zero := zero) (y := y) (S := s.st (y, false)) ht s ⟨rfl, hy⟩
  rw [e] at this
  exact this.1

/-- The growth after a command agrees with the state after it if it does so for the target and for new variables. -/
theorem Grows.next {zero : V} {c : Cmd V} {s s' : Mach V} {G G' : Growth} (R : Grows s G) (e : exec zero c s = (.ok (), s'))
    (H' : HasShapes s' G'.shapes) (hst : ∀ y, y < s.n → c.target ≠ some y → s'.bor y = false → s.bor y = false ∧ G'.stuck y = G.stuck y)
    (hfr : ∀ y, G'.shapes.next ≤ y → G'.stuck y = false)
    (htg : ∀ y, c.target = some y → y < s.n → s'.bor y = false → (G'.stuck y = true → (s'.st (y, false)).capacity < (s'.st (y, false)).sz) ∧
      (G'.stuck y = false → Room s' y))
    (hnw : ∀ y, s.n ≤ y → y < s'.n → s'.bor y = false → (G'.stuck y = true → (s'.st (y, false)).capacity < (s'.st (y, false)).sz) ∧
      (G'.stuck y = false → Room s' y)) : Grows s' G' := by
  have key : ∀ y, s'.bor y = false → (G'.stuck y = true → (s'.st (y, false)).capacity < (s'.st (y, false)).sz) ∧
      (G'.stuck y = false → Room s' y) := by
    intro y hb
    by_cases hy : y < s.n
    · by_cases ht : c.target = some y
      · exact htg y ht hy hb
      · obtain ⟨h1, h2⟩ := hst y hy ht hb
        unfold Room
        rw [exec_obj e hy ht, h2]
        exact ⟨R.stuck y h1, R.room y h1⟩
    · by_cases hy' : y < s'.n
      · exact hnw y (by omega) hy' hb
      · have h1 : G'.shapes.next ≤ y := by rw [← H'.next]; omega
        refine ⟨fun h => ?_, fun _ => ?_⟩
        · rw [hfr y h1] at h; cases h
        · unfold Room
          rw [H'.len, (H'.fresh y h1).1]
          exact Nat.zero_le _
  exact ⟨H', fun y h => (key y h).1, fun y h => (key y h).2, hfr⟩

/-- Commands that declare one variable with room. -/
theorem Grows.declared {zero : V} {c : Cmd V} {s s' : Mach V} {G : Growth} (R : Grows s G) (e : exec zero c s = (.ok (), s'))
    (ht : c.target = none) (hs : G.stuckAfter c = G.stuck) (H' : HasShapes s' (G.shapes.step c))
    (hn : (G.shapes.step c).next = G.shapes.next + 1) (hb : ∀ y, y < s.n → (G.shapes.step c).bor y = G.shapes.bor y)
    (hr : s'.bor s.n = false → Room s' s.n) : Grows s' ⟨G.shapes.step c, G.stuckAfter c⟩ := by
  have hn' : s'.n = s.n + 1 := by rw [H'.next, hn, R.shapes.next]
  refine R.next e H' (fun y hy _ h => ?_) (fun y hy => ?_) (fun y h => by rw [ht] at h; cases h) (fun y h1 h2 h3 => ?_)
  · rw [H'.bor, hb y hy, ← R.shapes.bor] at h
    exact ⟨h, congrFun hs y⟩
  · have hy : (G.shapes.step c).next ≤ y := hy
    show G.stuckAfter c y = false
    rw [hs]
    exact R.fresh y (by omega)
  · obtain rfl : y = s.n := by omega
    refine ⟨fun h => ?_, fun _ => hr h3⟩
    have h : G.stuckAfter c s.n = true := h
    rw [hs, R.fresh s.n (by rw [R.shapes.next])] at h
    cases h

/-- Commands after which their target has room. -/
theorem Grows.freed {zero : V} {c : Cmd V} {s s' : Mach V} {G : Growth} (R : Grows s G) (e : exec zero c s = (.ok (), s')) {x : Nat}
    (ht : c.target = some x) (hs : G.stuckAfter c = G.free x) (H' : HasShapes s' (G.shapes.step c))
    (hn : G.shapes.next ≤ (G.shapes.step c).next) (hb : ∀ y, y ≠ x → (G.shapes.step c).bor y = G.shapes.bor y)
    (hw : ∀ y, s.n ≤ y → y < s'.n → ((G.shapes.step c).sh y).len = 0)
    (hr : s'.bor x = false → Room s' x) : Grows s' ⟨G.shapes.step c, G.stuckAfter c⟩ := by
  refine R.next e H' (fun y hy hne h => ?_) (fun y hy => ?_) (fun y h hy hb => ?_) (fun y h1 h2 h3 => ?_)
  · have hne : y ≠ x := fun h => hne (by rw [ht, h])
    rw [H'.bor, hb y hne, ← R.shapes.bor] at h
    refine ⟨h, ?_⟩
    show G.stuckAfter c y = _
    rw [hs]
    exact if_neg hne
  · have hy : (G.shapes.step c).next ≤ y := hy
    show G.stuckAfter c y = false
    rw [hs]
    unfold Growth.free
    rw [R.fresh y (by omega)]
    split <;> rfl
  · obtain rfl : x = y := by rw [ht] at h; exact Option.some.inj h
    refine ⟨fun h => ?_, fun _ => hr hb⟩
    have h : G.stuckAfter c x = true := h
    rw [hs] at h
    simp [Growth.free] at h
  · have h4 : G.stuckAfter c y = false := by
      rw [hs]
      unfold Growth.free
      rw [R.fresh y (by rw [← R.shapes.next]; exact h1)]
      split <;> rfl
    refine ⟨fun h => ?_, fun _ => ?_⟩
    · have h : G.stuckAfter c y = true := h
      rw [h4] at h; cases h
    · unfold Room
      rw [H'.len]
      exact (hw y h1 h2).le.trans (Nat.zero_le _)

/-- Commands that change neither the length nor the capacity of their target. -/
theorem Grows.kept {zero : V} {c : Cmd V} {s s' : Mach V} {G : Growth} (R : Grows s G) (e : exec zero c s = (.ok (), s')) {x : Nat}
    (ht : c.target = some x) (hs : G.stuckAfter c = G.stuck) (H' : HasShapes s' (G.shapes.step c))
    (hn : G.shapes.next ≤ (G.shapes.step c).next) (hb : (G.shapes.step c).bor = G.shapes.bor)
    (hw : ∀ y, s.n ≤ y → y < s'.n → ((G.shapes.step c).sh y).len = 0)
    (hr : s.bor x = false → rm x s' = rm x s) : Grows s' ⟨G.shapes.step c, G.stuckAfter c⟩ := by
  have hb' : s'.bor = s.bor := by rw [H'.bor, hb, R.shapes.bor]
  refine R.next e H' (fun y hy hne h => ⟨by rw [← hb']; exact h, congrFun hs y⟩) (fun y hy => ?_) (fun y h hy hb => ?_) (fun y h1 h2 h3 => ?_)
  · have hy : (G.shapes.step c).next ≤ y := hy
    show G.stuckAfter c y = false
    rw [hs]
    exact R.fresh y (by omega)
  · obtain rfl : x = y := by rw [ht] at h; exact Option.some.inj h
    unfold Room
    rw [hb'] at hb
    have hr := hr hb
    simp only [rm, Prod.mk.injEq] at hr
    show (G.stuckAfter c x = true → _) ∧ (G.stuckAfter c x = false → _)
    rw [hr.1, hr.2, hs]
    exact ⟨R.stuck x hb, R.room x hb⟩
  · have h4 : G.stuckAfter c y = false := by
      rw [hs]
      exact R.fresh y (by rw [← R.shapes.next]; exact h1)
    refine ⟨fun h => ?_, fun _ => ?_⟩
    · have h : G.stuckAfter c y = true := h
      rw [h4] at h; cases h
    · unfold Room
      rw [H'.len]
      exact (hw y h1 h2).le.trans (Nat.zero_le _)

theorem withTmp_two {body : Nat → M (Mach V) Unit} {s s' : Mach V} (h : withTmp body s = (.ok (), s')) :
    ∃ s1, body s.n { s with n := s.n + 1 } = (.ok (), s1) ∧ Mach.destroy s.n s1 = (.ok (), s') := by
  unfold withTmp at h
  rcases hm : body s.n { s with n := s.n + 1 } with ⟨o, s1⟩
  rw [hm] at h
  cases o with
  | ok a => exact ⟨s1, rfl, h⟩
  | thr m =>
    obtain ⟨_, s2, _, e2⟩ := postBind h
    cases e2
  | ub k => cases h

theorem destroy_slot {s s' : Mach V} {t y : Nat} (h : Mach.destroy t s = (.ok (), s')) (hy : y < s.n) (hne : t ≠ y) :
    s'.st (y, false) = s.st (y, false) := by
  have := KS.destroy (S := s.st (y, false)) hne s ⟨rfl, hy⟩
  rw [h] at this
  exact this.1

theorem pres_elsewhere {α : Type} {z w : Slot} (h : w ≠ z) (m : SM V α) :
    Pres (fun t : Mach V => (t.n, t.st w)) (onSlot z m) := by
  intro s
  simp only [onSlot, if_neg h]

/-- A vector initialised from a temporary has no capacity. -/
theorem declTemp_full {zero : V} {l : List V} {mp : MP} {s s' : Mach V} (hf : s.st (s.n + 1, false) = {})
    (h : Mach.declTemp zero l mp s = (.ok (), s')) : (s'.st (s.n + 1, false)).capacity = 0 ∧ 0 < l.length := by
  obtain ⟨s1, e1, e2⟩ := withTmp_two h
  obtain ⟨_, s2, e3, e4⟩ := postBind e1
  have hne : ((s.n + 1, false) : Slot) ≠ (s.n, false) := fun h => by injection h with h; omega
  have hp : Pres (fun t : Mach V => (t.n, t.st (s.n + 1, false))) (makeTemp zero l mp s.n) :=
    Pres.bind (pres_elsewhere hne _) fun _ => Pres.bind (Pres.forN (fun _ => Pres.bind (Pres.lift _) fun _ => pres_elsewhere hne _) _)
      fun _ => pres_elsewhere hne _
  have h2 := hp.ok e3
  simp only [Prod.mk.injEq] at h2
  have e5 := decl_shape e4
  have hs1 := congrArg Prod.snd e5
  simp only [stealTemp, M.modify] at hs1
  have hc : (s1.st (s.n + 1, false)).capacity = 0 ∧ s1.n = s.n + 2 := by
    rw [← hs1]
    simp only [h2.1, if_pos, h2.2, hf, and_true]
  rw [destroy_slot e2 (by omega) (by omega)]
  refine ⟨hc.1, ?_⟩
  rw [makeTemp] at e3
  obtain ⟨_, t1, f1, _⟩ := postBind e3
  obtain ⟨r, hr, _⟩ := onSlot_inv f1
  rw [Store.ctorSize] at hr
  obtain ⟨_, _, _, g2⟩ := postBind hr
  obtain ⟨_, _, _, g4⟩ := postBind g2
  obtain ⟨_, _, g5, _⟩ := postBind g4
  by_contra h0
  rw [M.ass, M.lift_apply, Out.ass, if_neg h0] at g5
  cases g5

theorem subAssign_room {zero : V} {conv : V → Out V} {same : Bool} {x : Nat} {ind : List Nat} {ex : Expr V} {s s' : Mach V}
    (hx : x < s.n) (hl : ind.length ≤ 2 ^ 30) (hb : s.bor x = false) (h : Mach.subAssign zero conv same x ind ex s = (.ok (), s')) :
    (same = true ∧ (s.st (x, false)).sz < ind.length → Room s' x) ∧
    (¬(same = true ∧ (s.st (x, false)).sz < ind.length) → rm x s' = rm x s) := by
  obtain ⟨s1, h1, h2⟩ := withTmp_two h
  have hd : s1.n = s.n + 1 → s'.st (x, false) = s1.st (x, false) := fun hn => destroy_slot h2 (by omega) (by omega)
  rw [subAssignBody, M.bind_ok (M.get_apply _)] at h1
  obtain ⟨_, s2, e2, h1⟩ := postBind h1
  have ⟨hlen, h2⟩ : ex.size ({ s with n := s.n + 1 } : Mach V).env = ind.length ∧ s2 = { s with n := s.n + 1 } := by
    by_cases hc : ex.size ({ s with n := s.n + 1 } : Mach V).env = ind.length
    · rw [M.ass, M.lift_apply, Out.ass, if_pos hc] at e2; cases e2; exact ⟨hc, rfl⟩
    · rw [M.ass, M.lift_apply, Out.ass, if_neg hc] at e2; cases e2
  subst h2
  obtain ⟨_, s3, e3, h1⟩ := postBind h1
  obtain ⟨k3, z3⟩ := fillTemp_shape e3
  have r3 := (pres_rm_fillTemp x zero conv s.n ex).ok e3
  rw [hlen] at z3
  simp only [Mach.frame, Prod.mk.injEq] at k3
  rw [M.bind_ok (M.get_apply s3), z3] at h1
  simp only [rm, Prod.mk.injEq] at r3
  have hsz : (s3.st (x, false)).sz = (s.st (x, false)).sz := r3.1
  rw [hsz] at h1
  have loopR : Pres (rm (V := V) x) (M.forN ind.length (fun i => do
      let v ← M.reads (fun s => (s.st (s.n, true)).get s.heap i)
      subSet x ind (i % ind.length) v)) :=
    Pres.forN (fun i => Pres.bind (Pres.reads _) fun v => pres_rm_subSet x x ind _ v) _
  by_cases hg : same = true ∧ (s.st (x, false)).sz < ind.length
  · rw [if_pos hg] at h1
    obtain ⟨_, s4, e4, h1⟩ := postBind h1
    refine ⟨fun _ => ?_, fun h => absurd hg h⟩
    have n1 := (Pres.forN (fun i => Pres.bind (Pres.reads _) fun v => pres_subSet x ind _ v) _ : Pres (Mach.frame (V := V)) _).ok h1
    have hb3 : s3.bor x = false := by rw [k3.2.1]; exact hb
    rw [Mach.resize, M.bind_ok (M.get_apply s3), hb3] at e4
    have R4 := Room.on (roomy_resize zero (by omega)) e4
    have R1 := R4.keep (Pres.forN (fun i => Pres.bind (Pres.reads _) fun v => pres_rm_subSet x x ind _ v) _) h1
    have hn : s1.n = s.n + 1 := by
      have a1 := congrArg Prod.fst n1
      obtain ⟨r, _, rfl⟩ := onSlot_inv e4
      exact a1.trans k3.1
    unfold Room
    rw [hd hn]
    exact R1
  · rw [if_neg hg] at h1
    refine ⟨fun h => absurd h hg, fun _ => ?_⟩
    have n1 := (Pres.forN (fun i => Pres.bind (Pres.reads _) fun v => pres_subSet x ind _ v) _ : Pres (Mach.frame (V := V)) _).ok h1
    have R1 := (Pres.forN (fun i => Pres.bind (Pres.reads _) fun v => pres_rm_subSet x x ind _ v) _ : Pres (rm (V := V) x) _).ok h1
    have hn : s1.n = s.n + 1 := (congrArg Prod.fst n1).trans k3.1
    simp only [rm, Prod.mk.injEq] at R1 ⊢
    rw [hd hn, R1.1, R1.2]
    exact r3

theorem Grows.exec {zero : V} {c : Cmd V} {s s' : Mach V} {G : Growth} (I : Inv s) (R : Grows s G) (ha : s.Allowed c)
    (e : exec zero c s = (.ok (), s')) : Grows s' (G.step c) := by
  have H := R.shapes
  have hr0 : Room s s.n := R.room s.n (I.fresh s.n (le_refl _)).2.2 (R.fresh s.n (by rw [H.next]))
  cases c with
  | callerArray l =>
    cases e
    exact ⟨H.exec (zero := zero) (c := .callerArray l) trivial rfl, R.stuck, R.room, R.fresh⟩
  | declDefault =>
    have H' := H.exec (zero := zero) (c := .declDefault) trivial e
    refine R.declared e rfl rfl H' rfl (fun _ _ => rfl) (fun _ => ?_)
    unfold Room
    rw [H'.len, H.next]
    show (if G.shapes.next = G.shapes.next + 0 then (⟨0, none⟩ : Shape) else _).len ≤ _
    rw [if_pos (by omega)]
    exact Nat.zero_le _
  | declSize n =>
    have e' : Mach.declSize zero n s = (.ok (), s') := e
    have ha : n ≤ 2 ^ 30 := ha
    exact R.declared e rfl rfl (H.exec (c := .declSize n) trivial e) rfl (fun _ _ => rfl)
      (fun _ => Room.on (roomy_ctorSize zero (by omega)) (decl_shape e'))
  | declScalar v =>
    have e' : Mach.declScalar zero v s = (.ok (), s') := e
    refine R.declared e rfl rfl (H.exec (c := .declScalar v) trivial e) rfl (fun _ _ => rfl) (fun _ => ?_)
    obtain ⟨_, s1, e1, e2⟩ := postBind (decl_shape e')
    exact (Room.on (roomy_ctorOne zero) e1).keep (pres_rm _ _ (pres_sc (pres_set 0 v))) e2
  | declMat r c =>
    have e' : Mach.declMat zero r c s = (.ok (), s') := e
    refine R.declared e rfl rfl (H.exec (c := .declMat r c) ha e) rfl (fun _ _ => rfl) (fun _ => ?_)
    obtain ⟨_, s1, e1, e2⟩ := postBind (decl_shape e')
    exact (Room.on (roomy_ctorSize zero (by have : r * c ≤ 2 ^ 30 := ha; rw [Nat.mod_eq_of_lt] <;> (try unfold two64) <;> omega)) e1).keep (pres_rm _ _ (fun _ => rfl)) e2
  | declMatVal r c v =>
    have e' : Mach.declMatVal zero r c v s = (.ok (), s') := e
    refine R.declared e rfl rfl (H.exec (c := .declMatVal r c v) ha e) rfl (fun _ _ => rfl) (fun _ => ?_)
    obtain ⟨_, s1, e1, e2⟩ := postBind (decl_shape e')
    obtain ⟨_, s2, e2, e3⟩ := postBind e2
    exact ((Room.on (roomy_ctorSize zero (by have : r * c ≤ 2 ^ 30 := ha; rw [Nat.mod_eq_of_lt] <;> (try unfold two64) <;> omega)) e1).keep
      (pres_rm _ _ (fun _ => rfl)) e2).keep (pres_rm _ _ (pres_sc (pres_fillScalar v))) e3
  | declCopy y =>
    have e' : Mach.declCopy y s = (.ok (), s') := e
    have H' := H.exec (zero := zero) (c := .declCopy y) trivial e
    have hlt : y < s.n := ha.1
    have hnx : y < G.shapes.next := by rw [← H.next]; exact hlt
    refine R.declared e rfl rfl H' ?_ (fun z hz => ?_) (fun hb => ?_)
    · show (if G.shapes.bor y then _ else _ : Shapes).next = _
      split <;> rfl
    · rw [H.next] at hz
      show (if G.shapes.bor y then _ else _ : Shapes).bor z = _
      split
      · show (if z = G.shapes.next then true else _) = _
        rw [if_neg (by omega)]
      · rfl
    · have h1 := decl_shape e'
      rw [M.bind_ok (M.get_apply _)] at h1
      split at h1
      · rename_i hby
        have hby : s.bor y = true := hby
        rw [H'.bor] at hb
        rw [H.bor] at hby
        have hb : (if G.shapes.bor y then { G.shapes.new 0 (G.shapes.sh y) with bor := fun z => if z = G.shapes.next then true else G.shapes.bor z }
          else G.shapes.new 0 ⟨(G.shapes.sh y).len, none⟩ : Shapes).bor s.n = false := hb
        rw [if_pos hby, H.next] at hb
        simp at hb
      · rename_i hby
        have hby : ¬ s.bor y = true := hby
        obtain ⟨_, s1, e1, e2⟩ := postBind h1
        refine Room.keep ?_ (pres_rm_temp _ _ _) e2
        refine Room.on (fun t t' et => ?_) e1
        have ho : (s.st (y, false)).sz ≤ (s.st (y, false)).capacity := ha.2 (by simpa using hby)
        unfold Store.copyCtor at et
        revert et
        refine roomy_then (fun u u' eu => by cases eu; exact ho) (fun _ => ?_) t t'
        split
        · exact Pres.bind (pres_sc (pres_heapM _)) fun b => Pres.bind (fun s => rfl) fun _ => pres_sc (pres_heapM _)
        · exact Pres.pure _
  | declExpr conv ex =>
    exact R.declared e rfl rfl (H.exec (c := .declExpr conv ex) (by show G.shapes.len ex ≤ _; rw [← H.size]; exact ha.2.2) e) rfl (fun _ _ => rfl)
      (fun _ => room_declExpr hr0 ha.2.2 e)
  | declTemp l mp =>
    have H' := H.exec (zero := zero) (c := .declTemp l mp) trivial e
    have hn : s'.n = s.n + 2 := by rw [H'.next, H.next]; rfl
    obtain ⟨c1, c2⟩ := declTemp_full (I.fresh (s.n + 1) (by omega)).1 e
    refine R.next e H' (fun y hy _ h => ?_) (fun y hy => ?_) (fun y h => by cases h) (fun y h1 h2 h3 => ?_)
    · rw [H'.bor] at h
      refine ⟨by rw [H.bor]; exact h, ?_⟩
      show (if y = G.shapes.next + 1 then true else G.stuck y) = _
      rw [if_neg (by rw [← H.next]; omega)]
    · have hy : G.shapes.next + 1 + 1 ≤ y := hy
      show (if y = G.shapes.next + 1 then true else G.stuck y) = _
      rw [if_neg (by omega)]
      exact R.fresh y (by omega)
    · show ((if y = G.shapes.next + 1 then true else G.stuck y) = true → _) ∧ ((if y = G.shapes.next + 1 then true else G.stuck y) = false → _)
      have hl : (s'.st (y, false)).sz = (if y = G.shapes.next + 1 then (⟨l.length, dimMP mp⟩ : Shape) else G.shapes.sh y).len := H'.len y
      by_cases hy : y = G.shapes.next + 1
      · rw [if_pos hy] at hl ⊢
        rw [← H.next] at hy
        subst hy
        refine ⟨fun _ => ?_, fun h => by cases h⟩
        rw [hl]
        exact c1 ▸ c2
      · rw [if_neg hy] at hl ⊢
        have hyn : G.shapes.next ≤ y := by rw [← H.next]; exact h1
        rw [R.fresh y hyn]
        refine ⟨fun h => (by cases h), fun _ => ?_⟩
        unfold Room
        rw [hl, (H.fresh y hyn).1]
        exact Nat.zero_le _
  | declPtr p n =>
    have e' : Mach.declPtr zero p n s = (.ok (), s') := e
    have ha : n ≤ 2 ^ 30 ∧ _ := ha
    refine R.declared e rfl rfl (H.exec (c := .declPtr p n) trivial e) rfl (fun _ _ => rfl) (fun _ => ?_)
    obtain ⟨_, s1, e1, e2⟩ := postBind (decl_shape e')
    obtain ⟨_, s2, e2, e3⟩ := postBind e2
    exact ((Room.on (roomy_ctorSize zero (by omega)) e1).keep (Pres.forN (fun i => Pres.bind (Pres.reads _) fun v =>
      pres_rm _ _ (pres_sc (pres_set i v))) _) e2).keep (pres_rm _ _ (fun _ => rfl)) e3
  | declBorrow p n =>
    have H' := H.exec (zero := zero) (c := .declBorrow p n) trivial e
    refine R.declared e rfl rfl H' rfl (fun z hz => ?_) (fun hb => ?_)
    · rw [H.next] at hz
      show (if z = G.shapes.next then true else _) = _
      rw [if_neg (by omega)]
    · rw [H'.bor] at hb
      have hb : (if s.n = G.shapes.next then true else G.shapes.bor s.n) = false := hb
      rw [if_pos H.next] at hb
      cases hb
  | assign conv x ex =>
    have hcov : G.shapes.Covered (.assign conv x ex) := ⟨by rw [← H.next]; exact ha.1, by rw [← H.size]; exact ha.2.2.2⟩
    have H' := H.exec hcov e
    have hn : s'.n = s.n := by rw [H'.next, H.next]; rfl
    refine R.freed e rfl rfl H' (le_refl _) (fun _ _ => rfl) (fun y h1 h2 => by omega) (fun hb => ?_)
    rw [H'.bor] at hb
    exact (assign_room I ha (by rw [H.bor]; exact hb) e).1
  | assignScalar x v =>
    have hx : x < s.n := ha
    have H' := H.exec (zero := zero) (c := .assignScalar x v) (by show x < _; rw [← H.next]; exact ha) e
    have hn : s'.n = s.n := by rw [H'.next, H.next]; rfl
    refine R.freed e rfl rfl H' (le_refl _) (fun _ _ => rfl) (fun y h1 h2 => by omega) (fun hb => ?_)
    rw [H'.bor] at hb
    have hb : s.bor x = false := by rw [H.bor]; exact hb
    have e' : Mach.assignScalar zero x v s = (.ok (), s') := e
    rw [Mach.assignScalar, M.bind_ok (M.get_apply s), hb] at e'
    obtain ⟨_, s1, e1, e2⟩ := postBind e'
    exact (Room.on (roomy_resize zero (by omega)) e1).keep (pres_rm _ _ (pres_sc (pres_set 0 v))) e2
  | subAssign conv same x ind ex =>
    have hx : x < s.n := ha.1
    have H' := H.exec (zero := zero) (c := .subAssign conv same x ind ex) (by show x < _; rw [← H.next]; exact hx) e
    have hnx : (G.shapes.step (.subAssign conv same x ind ex)).next = G.shapes.next + 1 := rfl
    have hbr : (G.shapes.step (.subAssign conv same x ind ex)).bor = G.shapes.bor := by
      simp only [Shapes.step]; split <;> rfl
    have hw : ∀ y, s.n ≤ y → y < s'.n → ((G.shapes.step (.subAssign conv same x ind ex)).sh y).len = 0 := fun y h1 _ => by
      have hy : G.shapes.next ≤ y := by rw [← H.next]; exact h1
      have hne : y ≠ x := by omega
      simp only [Shapes.step]
      split
      · show (if y = x then _ else G.shapes.sh y).len = 0
        rw [if_neg hne, (H.fresh y hy).1]
      · rw [(H.fresh y hy).1]
    have hlx : (s.st (x, false)).sz = (G.shapes.sh x).len := H.len x
    by_cases hg : same = true ∧ (G.shapes.sh x).len < ind.length
    · refine R.freed e rfl (by simp only [Growth.stuckAfter, if_pos hg]) H' (by omega) (fun y _ => congrFun hbr y) hw (fun hb => ?_)
      rw [H'.bor, hbr, ← H.bor] at hb
      exact (subAssign_room hx ha.2.2.2 hb e).1 (by rw [hlx]; exact hg)
    · refine R.kept e rfl (by simp only [Growth.stuckAfter, if_neg hg]) H' (by omega) hbr hw (fun hb => ?_)
      exact (subAssign_room hx ha.2.2.2 hb e).2 (by rw [hlx]; exact hg)
  | subAssignScalar x ind v =>
    have H' := H.exec (zero := zero) (c := .subAssignScalar x ind v) trivial e
    have hn : s'.n = s.n := by rw [H'.next, H.next]; rfl
    exact R.kept e rfl rfl H' (le_refl _) rfl (fun y h1 h2 => by omega)
      (fun _ => (Pres.forN (fun i => pres_rm_subSet x x ind i v) ind.length).ok e)
  | setElem x i v =>
    have H' := H.exec (zero := zero) (c := .setElem x i v) trivial e
    have hn : s'.n = s.n := by rw [H'.next, H.next]; rfl
    exact R.kept e rfl rfl H' (le_refl _) rfl (fun y h1 h2 => by omega) (fun _ => (pres_rm x x (pres_sc (pres_set i v))).ok e)
  | resize x n =>
    have H' := H.exec (zero := zero) (c := .resize x n) (by show x < _; rw [← H.next]; exact ha.1) e
    have hn : s'.n = s.n := by rw [H'.next, H.next]; rfl
    refine R.freed e rfl rfl H' (le_refl _) (fun _ _ => rfl) (fun y h1 h2 => by omega) (fun hb => ?_)
    rw [H'.bor] at hb
    have hb : s.bor x = false := by rw [H.bor]; exact hb
    have hl : n ≤ 2 ^ 30 := ha.2
    have e' : Mach.resize zero x n s = (.ok (), s') := e
    rw [Mach.resize, M.bind_ok (M.get_apply s), hb] at e'
    exact Room.on (roomy_resize zero (by omega)) e'
  | fill x v =>
    have H' := H.exec (zero := zero) (c := .fill x v) trivial e
    have hn : s'.n = s.n := by rw [H'.next, H.next]; rfl
    exact R.kept e rfl rfl H' (le_refl _) rfl (fun y h1 h2 => by omega) (fun _ => (pres_rm x x (pres_sc (pres_fillScalar v))).ok e)
  | fillVec x y =>
    have H' := H.exec (zero := zero) (c := .fillVec x y) trivial e
    have hn : s'.n = s.n := by rw [H'.next, H.next]; rfl
    have e' : Mach.fillVec x y s = (.ok (), s') := e
    rw [Mach.fillVec, M.bind_ok (M.get_apply s)] at e'
    exact R.kept e rfl rfl H' (le_refl _) rfl (fun y h1 h2 => by omega) (fun _ => (pres_rm x x (pres_sc (pres_fillVec _))).ok e')
  | pushBack x v =>
    have hx : x < s.n := ha.1
    have hxb : s.bor x = false := ha.2.1
    have hb := ha.2.2
    have hG : G.step (.pushBack x v : Cmd V) = if G.stuck x then G
      else { G with shapes := G.shapes.put x ⟨(G.shapes.sh x).len + 1, (G.shapes.sh x).dim⟩ } := rfl
    rw [hG]
    have e' : onSlot (x, false) (Store.pushBack zero v) s = (.ok (), s') := e
    by_cases hg : G.stuck x = true
    · rw [if_pos hg]
      obtain ⟨r, hr, rfl⟩ := onSlot_inv e'
      have h2 : r = (s.heap, s.st (x, false)) := (pushBack_room zero v _ _ hb hr).2 (R.stuck x hxb hg)
      subst h2
      have : (fun y => if y = (x, false) then s.st (x, false) else s.st y) = s.st := by
        funext y; split
        · rename_i h; rw [h]
        · rfl
      rw [this]
      exact R
    · rw [if_neg hg]
      have hg : G.stuck x = false := by simpa using hg
      have H' : HasShapes s' (G.shapes.put x ⟨(G.shapes.sh x).len + 1, (G.shapes.sh x).dim⟩) :=
        H.onD (by rw [← H.next]; exact hx) (fun r hr => by
          obtain ⟨a1, a2, a3⟩ := (pushBack_room zero v _ _ hb hr).1 (R.room x hxb hg)
          exact ⟨by rw [a1]; exact congrArg (· + 1) (H.len x), by rw [a3]; exact H.dim x⟩) e'
      have hn : s'.n = s.n := by rw [H'.next, H.next]; rfl
      refine R.next e H' (fun y hy _ h => ?_) R.fresh (fun y ht _ _ => ?_) (fun y h1 h2 => by omega)
      · rw [H'.bor] at h
        exact ⟨by rw [H.bor]; exact h, rfl⟩
      · obtain rfl : x = y := Option.some.inj ht
        refine ⟨fun h => ?_, fun _ => ?_⟩
        · have h : G.stuck x = true := h
          rw [hg] at h; cases h
        · obtain ⟨r, hr, rfl⟩ := onSlot_inv e'
          unfold Room
          simp only [if_pos]
          exact ((pushBack_room zero v _ _ hb hr).1 (R.room x hxb hg)).2.1
  | storeAssign x y =>
    have hx : x < s.n := ha.1
    have H' := H.exec (zero := zero) (c := .storeAssign x y) (by show x < _; rw [← H.next]; exact hx) e
    have hn : s'.n = s.n := by rw [H'.next, H.next]; rfl
    have e' : Mach.storeAssign zero x y s = (.ok (), s') := e
    rw [Mach.storeAssign, M.bind_ok (M.get_apply s)] at e'
    have hlx : (s.st (x, false)).sz = (G.shapes.sh x).len := H.len x
    have hly : (s.st (y, false)).sz = (G.shapes.sh y).len := H.len y
    have hr := storeAssign_room zero (s.st (y, false)) (I.d y ha.2.2.1).sz
    by_cases hg : (G.shapes.sh x).len < (G.shapes.sh y).len
    · refine R.freed e rfl (by simp only [Growth.stuckAfter, if_pos hg]) H' (le_refl _) (fun _ _ => rfl) (fun y h1 h2 => by omega) (fun _ => ?_)
      obtain ⟨r, hm, rfl⟩ := onSlot_inv e'
      have := (hr _ _ hm).1 (by rw [hlx, hly]; exact hg)
      unfold Room
      simp only [if_pos]
      exact this
    · refine R.kept e rfl (by simp only [Growth.stuckAfter, if_neg hg]) H' (le_refl _) rfl (fun y h1 h2 => by omega) (fun _ => ?_)
      obtain ⟨r, hm, rfl⟩ := onSlot_inv e'
      have := (hr _ _ hm).2 (by rw [hlx, hly]; omega)
      simp only [rm, if_pos, this]
  | destroy x =>
    have H' := H.exec (zero := zero) (c := .destroy x) trivial e
    have hn : s'.n = s.n := by rw [H'.next, H.next]; rfl
    refine R.freed e rfl rfl H' (le_refl _) (fun y hy => ?_) (fun y h1 h2 => by omega) (fun _ => ?_)
    · exact if_neg hy
    · unfold Room
      rw [H'.len]
      show (if x = x then (⟨0, none⟩ : Shape) else _).len ≤ _
      rw [if_pos rfl]
      exact Nat.zero_le _

theorem Grows.runOk {zero : V} : ∀ {cs : List (Cmd V)} {s s' : Mach V} {G : Growth}, Inv s → Grows s G → AllowedAll zero cs s →
    Mach.runOk zero cs s = (.ok (), s') → Grows s' (G.after cs) ∧ Inv s'
  | [], _, _, _, I, R, _, h => by cases h; exact ⟨R, I⟩
  | c :: cs, s, s', G, I, R, ha, h => by
    obtain ⟨_, s1, e1, e2⟩ := postBind h
    have h2 := ha.2
    rw [e1] at h2
    exact Grows.runOk (G := G.step c) (I.exec ha.1 e1 (by simp)) (R.exec I ha.1 e1) h2 e2

/-- Lengths and dimensions after every program, including `push_back`. -/
theorem C90_append (zero : V) (cs : List (Cmd V)) (ha : AllowedAll zero cs start) (s : Mach V)
    (h : Mach.runOk zero cs start = (.ok (), s)) (x : Nat) :
    s.env.size x = ((Growth.start.after cs).shapes.sh x).len ∧ dimMP (s.env.mp x) = ((Growth.start.after cs).shapes.sh x).dim :=
  ⟨(grows_start.runOk Inv.start ha h).1.shapes.len x, (grows_start.runOk Inv.start ha h).1.shapes.dim x⟩

/-- The same for the expressions that the next command can use. -/
theorem C90_append_expressions (zero : V) (cs : List (Cmd V)) (ha : AllowedAll zero cs start) (s : Mach V)
    (h : Mach.runOk zero cs start = (.ok (), s)) (e : Expr V) :
    e.size s.env = (Growth.start.after cs).shapes.len e ∧
    (e.im s.env = true ↔ ((Growth.start.after cs).shapes.dims e).isSome) ∧
    ∀ d, (Growth.start.after cs).shapes.dims e = some d → e.nr s.env = .ok d.1 ∧ e.nc s.env = .ok d.2 := by
  have H := (grows_start.runOk Inv.start ha h).1.shapes
  have hd := dims_agree s.env e
  rw [H.dims e] at hd
  exact ⟨H.size e, hd.1, hd.2⟩

theorem growth_cases (G : Growth) (c : Cmd V) : (∃ x v, c = .pushBack x v) ∨
    (G.step c = ⟨G.shapes.step c, G.stuckAfter c⟩ ∧ (G.Fits c → G.shapes.Fits c)) := by
  cases c <;> first | exact .inl ⟨_, _, rfl⟩ | exact .inr ⟨rfl, id⟩

theorem well_growth {G : Growth} (hw : G.shapes.Well) {c : Cmd V} (hc : G.Fits c) : (G.step c).shapes.Well := by
  rcases growth_cases G c with ⟨x, v, rfl⟩ | ⟨h1, h2⟩
  · have hG : G.step (.pushBack x v : Cmd V) = if G.stuck x then G
      else { G with shapes := G.shapes.put x ⟨(G.shapes.sh x).len + 1, (G.shapes.sh x).dim⟩ } := rfl
    rw [hG]
    by_cases hg : G.stuck x = true
    · rw [if_pos hg]; exact hw
    · rw [if_neg hg]
      have hd : (G.shapes.sh x).dim = none := hc (by simpa using hg)
      intro y d
      show (if y = x then (⟨(G.shapes.sh x).len + 1, (G.shapes.sh x).dim⟩ : Shape) else G.shapes.sh y).dim = some d →
        d.1 * d.2 = (if y = x then (⟨(G.shapes.sh x).len + 1, (G.shapes.sh x).dim⟩ : Shape) else G.shapes.sh y).len
      split
      · intro h
        rw [show (G.shapes.sh x).dim = some d from h] at hd
        cases hd
      · exact hw y d
  · rw [h1]
    exact Well.step hw (h2 hc)

theorem well_growths : ∀ {cs : List (Cmd V)} {G : Growth}, G.shapes.Well → G.FitsAll cs → (G.after cs).shapes.Well
  | [], _, hw, _ => hw
  | c :: _, G, hw, hf => well_growths (G := G.step c) (well_growth hw hf.1) hf.2

/-- Programs that respect the shapes and append only to vectors that are no matrices: every matrix has as many elements as its
dimensions say. -/
theorem C90_append_matrices (zero : V) (cs : List (Cmd V)) (ha : AllowedAll zero cs start) (hf : Growth.start.FitsAll cs)
    (s : Mach V) (h : Mach.runOk zero cs start = (.ok (), s)) (x : Nat) (hx : (s.env.mp x).im = true) :
    (s.env.mp x).nr * (s.env.mp x).nc = s.env.size x := by
  have H := (grows_start.runOk Inv.start ha h).1.shapes
  have hw := well_growths (V := V) (G := Growth.start) well_start hf
  have hd : dimMP (s.env.mp x) = some ((s.env.mp x).nr, (s.env.mp x).nc) := by unfold dimMP; rw [if_pos hx]
  have hl : s.env.size x = _ := H.len x
  rw [hl]
  exact hw x _ (by rw [← H.dim x]; exact hd)

theorem reach_runOk {zero : V} : ∀ {cs : List (Cmd V)} {s s' : Mach V}, Reach zero s → AllowedAll zero cs s →
    Mach.runOk zero cs s = (.ok (), s') → Reach zero s'
  | [], _, _, r, _, h => by cases h; exact r
  | c :: cs, s, s', r, ha, h => by
    obtain ⟨_, s1, e1, e2⟩ := postBind h
    have h2 := ha.2
    rw [e1] at h2
    exact reach_runOk (r.step ha.1 e1 (by simp)) h2 e2

/-- Whether `push_back` appends can be read from the program: it appends exactly the given value, except to vectors that were
initialised from a temporary and have not been given a new value or length since; these stay as they are, without an error. -/
theorem C84_program {zero : V} {cs : List (Cmd V)} (ha : AllowedAll zero cs start) {s : Mach V}
    (h : Mach.runOk zero cs start = (.ok (), s)) {x : Nat} {v : V} (hp : s.Allowed (.pushBack x v)) {l : List V} (hl : ShowsVar s x l) :
    ∃ s', exec zero (.pushBack x v) s = (.ok (), s') ∧
      ShowsVar s' x (if (Growth.start.after cs).stuck x then l else l ++ [v]) := by
  obtain ⟨R, _⟩ := grows_start.runOk Inv.start ha h
  have r : Reach zero s := reach_runOk ⟨[], trivial, rfl⟩ ha h
  obtain ⟨h1, h2⟩ := C84_characterised r hp hl
  by_cases hg : (Growth.start.after cs).stuck x = true
  · rw [if_pos hg]
    exact ⟨s, h2 (R.stuck x hp.2.1 hg), hl⟩
  · rw [if_neg hg]
    obtain ⟨s', e, q, _⟩ := h1 (R.room x hp.2.1 (by simpa using hg))
    exact ⟨s', e, q⟩

/-- A vector that is declared, appended to, copied; another one that is initialised from a temporary, appended to without an effect,
resized and appended to. -/
def appendExample : List (Cmd Int) :=
  [.declSize 2, .pushBack 0 7, .pushBack 0 8, .declTemp [1, 2, 3] ⟨true, 1, 3⟩, .pushBack 2 9, .declCopy 0,
   .resize 2 5, .pushBack 2 4, .declTemp [5] {}, .pushBack 5 6]

theorem appendExample_allowed : AllowedAll (0 : Int) appendExample start := by
  refine .cons (show _ ≤ _ by decide) <| .cons ⟨by decide +kernel, by decide +kernel, by decide +kernel⟩ <|
    .cons ⟨by decide +kernel, by decide +kernel, by decide +kernel⟩ <| .cons (show _ ≤ _ by decide) <|
    .cons ⟨by decide +kernel, by decide +kernel, by decide +kernel⟩ <|
    .cons ⟨by decide +kernel, fun _ => by decide +kernel⟩ <| .cons ⟨by decide +kernel, by decide⟩ <|
    .cons ⟨by decide +kernel, by decide +kernel, by decide +kernel⟩ <| .cons (show _ ≤ _ by decide) <|
    .cons ⟨by decide +kernel, by decide +kernel, by decide +kernel⟩ trivial

/-- The lengths and dimensions follow from the program: the appended vector has four elements, so has its copy; the first `push_back` to
the vector from a temporary has no effect, the one after `resize` has. -/
example : ∃ s, Mach.runOk (0 : Int) appendExample start = (.ok (), s) ∧
    [0, 2, 3, 5].map (fun x => (s.env.size x, dimMP (s.env.mp x))) = [(4, none), (6, some (1, 3)), (4, none), (1, none)] := by
  have h : ∃ s, Mach.runOk (0 : Int) appendExample start = (.ok (), s) := ⟨_, Prod.ext (by decide +kernel) rfl⟩
  obtain ⟨s, h⟩ := h
  have key := C90_append 0 appendExample appendExample_allowed s h
  refine ⟨s, h, ?_⟩
  simp only [List.map, (key _).1, (key _).2]
  decide +kernel

example : ∃ s, Mach.runOk (0 : Int) appendExample start = (.ok (), s) ∧
    (Expr.bin (fun a b : Int => .ok (a + b)) (.leaf 0) (.leaf 2)).size s.env = 6 := by
  have h : ∃ s, Mach.runOk (0 : Int) appendExample start = (.ok (), s) := ⟨_, Prod.ext (by decide +kernel) rfl⟩
  obtain ⟨s, h⟩ := h
  exact ⟨s, h, by rw [(C90_append_expressions 0 appendExample appendExample_allowed s h _).1]; decide +kernel⟩

/-- The vector `5` of the example is still as the temporary made it. -/
example : (Growth.start.after appendExample).stuck 5 = true ∧ (Growth.start.after appendExample).stuck 2 = false := by decide +kernel

example : ∃ s s', Mach.runOk (0 : Int) appendExample start = (.ok (), s) ∧ exec 0 (.pushBack 0 1) s = (.ok (), s') ∧
    ShowsVar s' 0 [0, 0, 7, 8, 1] := by
  refine ⟨(Mach.runOk (0 : Int) appendExample start).2, ?_⟩
  have h : Mach.runOk (0 : Int) appendExample start = (.ok (), (Mach.runOk (0 : Int) appendExample start).2) :=
    Prod.ext (by decide +kernel) rfl
  obtain ⟨s', h1, h2⟩ := C84_program appendExample_allowed h (x := 0) (v := 1)
    ⟨by decide +kernel, by decide +kernel, by decide +kernel⟩ (l := [0, 0, 7, 8]) ⟨by decide +kernel, by decide +kernel⟩
  exact ⟨s', h, h1, h2⟩

/-- A matrix from a temporary, a vector that grows, and a sum that is assigned to the matrix. -/
def appendFits : List (Cmd Int) :=
  [.declTemp [1, 2] ⟨true, 1, 2⟩, .pushBack 1 9, .declSize 1, .pushBack 2 7, .assign .ok 1 (.bin (fun a b => .ok (a + b)) (.leaf 1) (.leaf 2))]

example : ∃ s, Mach.runOk (0 : Int) appendFits start = (.ok (), s) ∧ (s.env.mp 1).im = true ∧
    (s.env.mp 1).nr * (s.env.mp 1).nc = s.env.size 1 := by
  refine ⟨_, Prod.ext (by decide +kernel) rfl, by decide +kernel, ?_⟩
  refine C90_append_matrices 0 appendFits ?_ ?_ _ (Prod.ext (by decide +kernel) rfl) 1 (by decide +kernel)
  · exact .cons (show _ ≤ _ by decide) <| .cons ⟨by decide +kernel, by decide +kernel, by decide +kernel⟩ <| .cons (show _ ≤ _ by decide) <|
      .cons ⟨by decide +kernel, by decide +kernel, by decide +kernel⟩ <|
      .cons ⟨by decide +kernel, fun _ => (by simp [Out.NoMem]), ⟨fun _ _ => (by simp [Out.NoMem]), trivial, trivial⟩, by decide +kernel⟩ trivial
  · refine ⟨fun d h => ?_, fun h => ?_, trivial, fun _ => rfl, ⟨fun d h => ?_, fun h => ?_⟩, trivial⟩
    · cases h; rfl
    · revert h; decide +kernel
    · have hd : d = (1, 2) := by
        have : (((((Growth.start.step (.declTemp [1, 2] ⟨true, 1, 2⟩ : Cmd Int)).step (.pushBack 1 9 : Cmd Int)).step
          (.declSize 1 : Cmd Int)).step (.pushBack 2 7 : Cmd Int)).shapes.dims
            (.bin (fun a b : Int => .ok (a + b)) (.leaf 1) (.leaf 2))) = some (1, 2) := by decide +kernel
        exact (Option.some.inj (this.symm.trans h)).symm
      subst hd
      exact ⟨rfl, show 2 ≤ 1 * 2 by decide⟩
    · revert h; decide +kernel

end ETR.Mach
