import Verif.Spec.Data

/-! Execution preserves the correspondence of data. -/

namespace ETR.Data
open Spec
variable {V W α β γ δ σ τ : Type}

/-- `m` and `m'` take corresponding states to corresponding states, with corresponding outcomes. -/
def Sim (S : σ → τ → Prop) (Q : α → β → Prop) (m : M σ α) (m' : M τ β) : Prop :=
  ∀ s s', S s s' → SameOut Q (m s).1 (m' s').1 ∧ S (m s).2 (m' s').2

theorem Sim.bind {S : σ → τ → Prop} {Q : α → β → Prop} {P : γ → δ → Prop} {m : M σ α} {m' : M τ β} {f : α → M σ γ} {f' : β → M τ δ}
    (h : Sim S Q m m') (hf : ∀ a b, Q a b → Sim S P (f a) (f' b)) : Sim S P (m >>= f) (m' >>= f') := by
  intro s s' hs
  have h1 := h s s' hs
  show SameOut P (M.bind m f s).1 (M.bind m' f' s').1 ∧ S (M.bind m f s).2 (M.bind m' f' s').2
  unfold M.bind
  revert h1
  rcases m s with ⟨o, s1⟩
  rcases m' s' with ⟨o', s1'⟩
  intro h1
  cases o <;> cases o' <;> first | exact h1.1.elim | exact h1 | exact hf _ _ h1.1 _ _ h1.2

theorem Sim.eq {S : σ → τ → Prop} {P : γ → δ → Prop} {m : M σ α} {m' : M τ α} {f : α → M σ γ} {f' : α → M τ δ}
    (h : Sim S Eq m m') (hf : ∀ a, Sim S P (f a) (f' a)) : Sim S P (m >>= f) (m' >>= f') :=
  h.bind (fun a b hab => by subst hab; exact hf a)

theorem Sim.pure {S : σ → τ → Prop} {Q : α → β → Prop} {a : α} {b : β} (h : Q a b) : Sim S Q (Pure.pure a : M σ α) (Pure.pure b : M τ β) :=
  fun _ _ hs => ⟨h, hs⟩

theorem Sim.lift {S : σ → τ → Prop} {Q : α → β → Prop} {o : Out α} {o' : Out β} (h : SameOut Q o o') :
    Sim S Q (M.lift o : M σ α) (M.lift o' : M τ β) := fun _ _ hs => ⟨h, hs⟩

theorem sameOut_refl (o : Out α) : SameOut Eq o o := by cases o <;> rfl

theorem sameOut_unit {o o' : Out Unit} (h : SameOut Eq o o') : o = o' := by
  cases o <;> cases o' <;> first | exact h.elim | rfl | exact congrArg _ h

theorem Sim.liftEq {S : σ → τ → Prop} (o : Out α) : Sim S Eq (M.lift o : M σ α) (M.lift o : M τ α) := Sim.lift (sameOut_refl o)

theorem Sim.ass {S : σ → τ → Prop} (c : Prop) [Decidable c] (m : String) : Sim S Eq (M.ass c m : M σ Unit) (M.ass c m : M τ Unit) :=
  Sim.liftEq _

theorem Sim.reads {S : σ → τ → Prop} {Q : α → β → Prop} {f : σ → Out α} {f' : τ → Out β} (h : ∀ s s', S s s' → SameOut Q (f s) (f' s')) :
    Sim S Q (M.reads f) (M.reads f') := fun s s' hs => ⟨h s s' hs, hs⟩

theorem Sim.modify {S : σ → τ → Prop} {f : σ → σ} {f' : τ → τ} (h : ∀ s s', S s s' → S (f s) (f' s')) :
    Sim S Eq (M.modify f) (M.modify f') := fun s s' hs => ⟨rfl, h s s' hs⟩

theorem Sim.forN {S : σ → τ → Prop} {f : Nat → M σ Unit} {f' : Nat → M τ Unit} (n : Nat) (h : ∀ i, Sim S Eq (f i) (f' i)) :
    Sim S Eq (M.forN n f) (M.forN n f') := by
  induction n with
  | zero => exact Sim.pure rfl
  | succ n ih => exact ih.eq (fun _ => h n)

theorem Sim.ite {S : σ → τ → Prop} {Q : α → β → Prop} {c : Prop} [Decidable c] {m n : M σ α} {m' n' : M τ β} (h1 : c → Sim S Q m m')
    (h2 : ¬ c → Sim S Q n n') : Sim S Q (if c then m else n) (if c then m' else n') := by
  split
  · exact h1 ‹_›
  · exact h2 ‹_›

/-! ## Memory -/

/-- Cells correspond. -/
def CellR (R : V → W → Prop) : Option V → Option W → Prop
  | some a, some b => R a b
  | none, none => True
  | _, _ => False

structure BlockR (R : V → W → Prop) (a : Block V) (b : Block W) : Prop where
  len : a.len = b.len
  live : a.live = b.live
  newed : a.newed = b.newed
  cell : ∀ i, CellR R (a.cell i) (b.cell i)

structure HeapR (R : V → W → Prop) (h : Heap V) (h' : Heap W) : Prop where
  blk : ∀ b, BlockR R (h.blk b) (h'.blk b)
  next : h.next = h'.next
  sched : h.sched = h'.sched

variable {R : V → W → Prop}

theorem HeapR.setBlk {h : Heap V} {h' : Heap W} (H : HeapR R h h') (b : Nat) {x : Block V} {y : Block W} (hx : BlockR R x y) :
    HeapR R (h.setBlk b x) (h'.setBlk b y) := by
  refine ⟨fun c => ?_, H.next, H.sched⟩
  show BlockR R (if c = b then x else h.blk c) (if c = b then y else h'.blk c)
  split
  · exact hx
  · exact H.blk c

theorem forall₂_getElem {l : List V} {l' : List W} (h : List.Forall₂ R l l') : ∀ i : Nat, CellR R (l[i]?) (l'[i]?) := by
  induction h with
  | nil => intro i; simp [CellR]
  | cons a _ ih =>
    intro i
    cases i with
    | zero => simpa [CellR] using a
    | succ i => simpa using ih i

theorem sim_new (n : Nat) : Sim (HeapR R) Eq (Heap.new n : M (Heap V) Nat) (Heap.new n : M (Heap W) Nat) := by
  intro h h' H
  unfold Heap.new
  by_cases h1 : 2 ^ 60 ≤ n
  · rw [if_pos h1, if_pos h1]; exact ⟨rfl, H⟩
  rw [if_neg h1, if_neg h1, ← H.sched]
  split
  · exact ⟨rfl, ⟨H.blk, H.next, rfl⟩⟩
  · refine ⟨H.next, ⟨?_, ?_, rfl⟩⟩
    · have := H.setBlk h.next (x := ⟨n, fun _ => none, true, true⟩) (y := ⟨n, fun _ => none, true, true⟩) ⟨rfl, rfl, rfl, fun _ => trivial⟩
      rw [← H.next]
      exact this.blk
    · show h.next + 1 = h'.next + 1
      rw [H.next]

theorem sim_delete (p : Ptr) : Sim (HeapR R) Eq (Heap.delete p : M (Heap V) Unit) (Heap.delete p : M (Heap W) Unit) := by
  intro h h' H
  unfold Heap.delete
  cases p with
  | none => exact ⟨rfl, H⟩
  | some b =>
    have B := H.blk b
    simp only [← B.newed, ← B.live]
    split
    · exact ⟨rfl, H⟩
    · split
      · exact ⟨rfl, H⟩
      · exact ⟨rfl, H.setBlk b ⟨B.len, rfl, rfl, B.cell⟩⟩

theorem sim_putCell (p : Ptr) (i : Nat) {v : Option V} {w : Option W} (hv : CellR R v w) :
    Sim (HeapR R) Eq (Heap.putCell p i v) (Heap.putCell p i w) := by
  intro h h' H
  unfold Heap.putCell
  cases p with
  | none => exact ⟨rfl, H⟩
  | some b =>
    have B := H.blk b
    simp only [← B.live, ← B.len]
    split
    · exact ⟨rfl, H⟩
    · split
      · exact ⟨rfl, H⟩
      · refine ⟨rfl, H.setBlk b ⟨rfl, rfl, B.newed, fun j => ?_⟩⟩
        show CellR R (if j = i then v else _) (if j = i then w else _)
        split
        · exact hv
        · exact B.cell j

theorem sim_store (p : Ptr) (i : Nat) {v : V} {w : W} (hv : R v w) : Sim (HeapR R) Eq (Heap.store p i v) (Heap.store p i w) :=
  sim_putCell p i (v := some v) (w := some w) hv

theorem cellAt_same {h : Heap V} {h' : Heap W} (H : HeapR R h h') (p : Ptr) (i : Nat) : SameOut (CellR R) (h.cellAt p i) (h'.cellAt p i) := by
  unfold Heap.cellAt
  cases p with
  | none => rfl
  | some b =>
    have B := H.blk b
    simp only [← B.live, ← B.len]
    split
    · rfl
    · split
      · rfl
      · exact B.cell i

theorem load_same {h : Heap V} {h' : Heap W} (H : HeapR R h h') (p : Ptr) (i : Nat) : SameOut R (h.load p i) (h'.load p i) := by
  have := cellAt_same H p i
  unfold Heap.load
  revert this
  cases h.cellAt p i with
  | ok a =>
    cases h'.cellAt p i with
    | ok b => intro c; cases a <;> cases b <;> first | exact c | exact c.elim | rfl
    | thr _ => exact False.elim
    | ub _ => exact False.elim
  | thr m =>
    cases h'.cellAt p i with
    | ok b => exact False.elim
    | thr _ => exact id
    | ub _ => exact False.elim
  | ub m =>
    cases h'.cellAt p i with
    | ok b => exact False.elim
    | thr _ => exact False.elim
    | ub _ => exact id

theorem sim_fillRange (p : Ptr) (n : Nat) {v : V} {w : W} (hv : R v w) : Sim (HeapR R) Eq (Heap.fillRange p n v) (Heap.fillRange p n w) :=
  Sim.forN n fun i => sim_store p i hv

theorem sim_copyRange (p q : Ptr) (n : Nat) : Sim (HeapR R) Eq (Heap.copyRange p n q : M (Heap V) Unit) (Heap.copyRange p n q : M (Heap W) Unit) :=
  Sim.forN n fun i => (Sim.reads fun _ _ H => cellAt_same H p i).bind fun _ _ h => sim_putCell q i h

/-! ## Stores -/

/-- Heaps correspond, objects are equal. -/
def StoreR (R : V → W → Prop) (s : Heap V × Store) (s' : Heap W × Store) : Prop := HeapR R s.1 s'.1 ∧ s.2 = s'.2

/-- A computation on stores. -/
abbrev SimS (R : V → W → Prop) (Q : α → β → Prop) (m : SM V α) (m' : SM W β) : Prop := Sim (StoreR R) Q m m'

theorem sim_heapM {Q : α → β → Prop} {m : M (Heap V) α} {m' : M (Heap W) β} (h : Sim (HeapR R) Q m m') :
    SimS R Q (Store.heapM m) (Store.heapM m') := fun s s' hs => ⟨(h s.1 s'.1 hs.1).1, (h s.1 s'.1 hs.1).2, hs.2⟩

theorem sim_self : SimS R Eq (Store.self : SM V Store) (Store.self : SM W Store) := fun _ _ hs => ⟨hs.2, hs⟩

theorem sim_upd (f : Store → Store) : SimS R Eq (Store.upd f : SM V Unit) (Store.upd f : SM W Unit) :=
  fun _ _ hs => ⟨rfl, hs.1, congrArg f hs.2⟩

theorem get_same {h : Heap V} {h' : Heap W} (H : HeapR R h h') (s : Store) (i : Nat) : SameOut R (s.get h i) (s.get h' i) := by
  unfold Store.get
  cases s.checkIdx i with
  | ok _ => exact load_same H s.p i
  | thr _ => rfl
  | ub _ => rfl

theorem sim_init (n : Nat) : SimS R Eq (Store.init n : SM V Unit) (Store.init n : SM W Unit) := by
  unfold Store.init
  refine sim_self.eq fun s => ?_
  have hk : ∀ _ : Unit, SimS R Eq (do
      Store.upd (V := V) (fun s => { s with sz := n })
      let c ← M.lift (capOf n)
      Store.upd (fun s => { s with capacity := c })
      let b ← Store.heapM (Heap.new c)
      Store.upd (fun s => { s with p := some b, allocated := true })) (do
      Store.upd (V := W) (fun s => { s with sz := n })
      let c ← M.lift (capOf n)
      Store.upd (fun s => { s with capacity := c })
      let b ← Store.heapM (Heap.new c)
      Store.upd (fun s => { s with p := some b, allocated := true })) :=
    fun _ => (sim_upd _).eq fun _ => (Sim.liftEq _).eq fun c => (sim_upd _).eq fun _ => (sim_heapM (sim_new c)).eq fun b => sim_upd _
  exact Sim.ite (fun _ => (Sim.ass _ _).eq fun _ => (sim_heapM (sim_delete _)).eq fun _ => (sim_upd _).eq fun u => hk u) fun _ => hk ()

theorem sim_fillScalar {v : V} {w : W} (hv : R v w) : SimS R Eq (Store.fillScalar v) (Store.fillScalar w) :=
  sim_self.eq fun s => sim_heapM (sim_fillRange s.p s.sz hv)

theorem sim_resize {z : V} {z' : W} (hz : R z z') (n : Nat) : SimS R Eq (Store.resize z n) (Store.resize z' n) := by
  unfold Store.resize
  refine (Sim.ass _ _).eq fun _ => sim_self.eq fun s => Sim.ite (fun _ => (sim_init n).eq fun _ => sim_fillScalar hz) fun _ => Sim.ite (fun _ => ?_)
    fun _ => sim_upd _
  exact (Sim.ass _ _).eq fun _ => (sim_heapM (sim_delete _)).eq fun _ => (Sim.liftEq _).eq fun c => (sim_upd _).eq fun _ =>
    (sim_heapM (sim_new c)).eq fun b => (sim_upd _).eq fun _ => sim_fillScalar hz

theorem sim_set (i : Nat) {v : V} {w : W} (hv : R v w) : SimS R Eq (Store.set i v) (Store.set i w) :=
  sim_self.eq fun s => (Sim.liftEq _).eq fun _ => sim_heapM (sim_store s.p i hv)

theorem sim_ctorSize {z : V} {z' : W} (hz : R z z') (n : Nat) : SimS R Eq (Store.ctorSize z n) (Store.ctorSize z' n) :=
  (Sim.liftEq _).eq fun c => (sim_upd _).eq fun _ => (Sim.ass _ _).eq fun _ => (sim_heapM (sim_new c)).eq fun _ => (sim_upd _).eq fun _ =>
    (sim_heapM (sim_fillRange _ c hz)).eq fun _ => sim_upd _

theorem sim_ctorInt {z : V} {z' : W} (hz : R z z') (n : Int) : SimS R Eq (Store.ctorInt z n) (Store.ctorInt z' n) :=
  (Sim.liftEq _).eq fun c => (sim_upd _).eq fun _ => (Sim.ass _ _).eq fun _ => (sim_heapM (sim_new c)).eq fun _ => (sim_upd _).eq fun _ =>
    (sim_heapM (sim_fillRange _ _ hz)).eq fun _ => sim_upd _

theorem sim_copyCtor (o : Store) : SimS R Eq (Store.copyCtor o : SM V Unit) (Store.copyCtor o : SM W Unit) :=
  (sim_upd _).eq fun _ => Sim.ite (fun _ => (sim_heapM (sim_new _)).eq fun _ => (sim_upd _).eq fun _ => sim_heapM (sim_copyRange _ _ _))
    fun _ => Sim.pure rfl

theorem sim_realloc {z : V} {z' : W} (hz : R z z') (n : Nat) : SimS R Eq (Store.realloc z n) (Store.realloc z' n) :=
  (Sim.liftEq _).eq fun c => (sim_upd _).eq fun _ => (sim_heapM (sim_new c)).eq fun _ => sim_self.eq fun s =>
    (Sim.forN _ fun i => (Sim.reads fun _ _ H => load_same H.1 s.p i).bind fun _ _ h => sim_heapM (sim_store _ i h)).eq fun _ =>
    (Sim.forN _ fun _ => sim_heapM (sim_store _ _ hz)).eq fun _ => (sim_heapM (sim_delete _)).eq fun _ => sim_upd _

theorem sim_storeAssign {z : V} {z' : W} (hz : R z z') (o : Store) : SimS R Eq (Store.assign z o) (Store.assign z' o) := by
  have hl : SimS R Eq (do
      let s ← Store.self
      M.forN s.sz (fun i => do
        let v ← M.reads (fun st : Heap V × Store => o.get st.1 i)
        Store.heapM (Heap.store s.p i v))) (do
      let s ← Store.self
      M.forN s.sz (fun i => do
        let v ← M.reads (fun st : Heap W × Store => o.get st.1 i)
        Store.heapM (Heap.store s.p i v))) :=
    sim_self.eq fun s => Sim.forN _ fun i => (Sim.reads fun _ _ H => get_same H.1 o i).bind fun _ _ h => sim_heapM (sim_store _ i h)
  unfold Store.assign
  refine sim_self.eq fun s => ?_
  refine Sim.ite (fun _ => Sim.ite (fun _ => ?_) fun _ => ?_) fun _ => hl
  · exact (sim_realloc hz _).eq fun _ => hl
  · exact (sim_resize hz _).eq fun _ => hl

theorem sim_fillVec (o : Store) : SimS R Eq (Store.fillVec o : SM V Unit) (Store.fillVec o : SM W Unit) :=
  sim_self.eq fun _ => (Sim.ass _ _).eq fun _ => Sim.forN _ fun i => (Sim.reads fun _ _ H => get_same H.1 o i).bind fun _ _ h =>
    sim_heapM (sim_store _ i h)

theorem sim_dtor : SimS R Eq (Store.dtor : SM V Unit) (Store.dtor : SM W Unit) :=
  sim_self.eq fun _ => Sim.ite (fun _ => Sim.ite (fun _ => (sim_heapM (sim_delete _)).eq fun _ => sim_upd _) fun _ => Sim.pure rfl)
    fun _ => Sim.pure rfl

theorem sim_pushBack {z v : V} {z' w : W} (hz : R z z') (hv : R v w) : SimS R Eq (Store.pushBack z v) (Store.pushBack z' w) := by
  unfold Store.pushBack
  refine sim_self.eq fun s => Sim.ite (fun _ => ?_) fun _ => Sim.ite (fun _ => (sim_heapM (sim_store _ _ hv)).eq fun _ => sim_upd _)
    fun _ => Sim.pure rfl
  exact (sim_realloc hz _).eq fun _ => (sim_upd _).eq fun _ => sim_self.eq fun s1 => (sim_heapM (sim_store _ _ hv)).eq fun _ =>
    (Sim.liftEq _).eq fun n => sim_upd _

/-! ## Formulas -/

/-- What formulas see corresponds. -/
structure EnvR (R : V → W → Prop) (env : Env V) (env' : Env W) : Prop where
  size : env.size = env'.size
  mp : env.mp = env'.mp
  get : ∀ x i, SameOut R (env.get x i) (env'.get x i)

theorem isScal_same {e : Expr V} {e' : Expr W} (h : SameExpr R e e') : e.isScal = e'.isScal := by cases h <;> rfl

theorem size_same {env : Env V} {env' : Env W} (E : EnvR R env env') {e : Expr V} {e' : Expr W} (h : SameExpr R e e') :
    e.size env = e'.size env' := by
  induction h with
  | leaf x => exact congrFun E.size x
  | rvec mp h => exact h.length_eq
  | scal _ => rfl
  | un _ _ ih => exact ih
  | bin _ h1 h2 i1 i2 => simp only [Expr.size, isScal_same h1, isScal_same h2, i1, i2]
  | sub ind mp _ _ => rfl

theorem im_same {env : Env V} {env' : Env W} (E : EnvR R env env') {e : Expr V} {e' : Expr W} (h : SameExpr R e e') :
    e.im env = e'.im env' := by
  induction h with
  | leaf x => exact congrArg MP.im (congrFun E.mp x)
  | rvec mp h => rfl
  | scal _ => rfl
  | un _ _ ih => rfl
  | bin _ h1 h2 i1 i2 => simp only [Expr.im, isScal_same h1, isScal_same h2, i1, i2]
  | sub ind mp _ _ => rfl

theorem nr_same {env : Env V} {env' : Env W} (E : EnvR R env env') {e : Expr V} {e' : Expr W} (h : SameExpr R e e') :
    e.nr env = e'.nr env' := by
  induction h with
  | leaf x => exact congrArg (fun m => Out.ok (MP.nr m)) (congrFun E.mp x)
  | rvec mp h => rfl
  | scal _ => rfl
  | un _ h ih => simp only [Expr.nr, isScal_same h, ih]
  | bin _ h1 h2 i1 i2 => simp only [Expr.nr, isScal_same h1, isScal_same h2, im_same E h1, im_same E h2, i1, i2]
  | sub ind mp _ _ => rfl

theorem nc_same {env : Env V} {env' : Env W} (E : EnvR R env env') {e : Expr V} {e' : Expr W} (h : SameExpr R e e') :
    e.nc env = e'.nc env' := by
  induction h with
  | leaf x => exact congrArg (fun m => Out.ok (MP.nc m)) (congrFun E.mp x)
  | rvec mp h => rfl
  | scal _ => rfl
  | un _ h ih => simp only [Expr.nc, isScal_same h, ih]
  | bin _ h1 h2 i1 i2 => simp only [Expr.nc, isScal_same h1, isScal_same h2, im_same E h1, im_same E h2, i1, i2]
  | sub ind mp _ _ => rfl

theorem SameOut.bind {Q : α → β → Prop} {P : γ → δ → Prop} {o : Out α} {o' : Out β} {f : α → Out γ} {f' : β → Out δ} (h : SameOut Q o o')
    (hf : ∀ a b, Q a b → SameOut P (f a) (f' b)) : SameOut P (o >>= f) (o' >>= f') := by
  cases o <;> cases o' <;> first | exact h.elim | exact h | exact hf _ _ h

theorem SameOut.eq {P : γ → δ → Prop} {o : Out α} {f : α → Out γ} {f' : α → Out δ} (hf : ∀ a, SameOut P (f a) (f' a)) :
    SameOut P (o >>= f) (o >>= f') := SameOut.bind (sameOut_refl o) (fun a b hab => by subst hab; exact hf a)

theorem getL_same {l : List V} {l' : List W} (h : List.Forall₂ R l l') (i : Nat) : SameOut R (getL l i) (getL l' i) := by
  have := forall₂_getElem h i
  unfold getL
  revert this
  cases l[i]? <;> cases l'[i]? <;> first | exact id | exact False.elim | exact fun _ => rfl

theorem el_same {env : Env V} {env' : Env W} (E : EnvR R env env') {e : Expr V} {e' : Expr W} (h : SameExpr R e e') :
    ∀ i, SameOut R (e.el env i) (e'.el env' i) := by
  induction h with
  | leaf x => exact fun i => E.get x i
  | rvec mp h => exact fun i => getL_same h i
  | scal h => exact fun i => h
  | un hf h ih =>
    intro i
    simp only [Expr.el, isScal_same h, size_same E h]
    exact SameOut.eq fun k => SameOut.bind (ih k) hf
  | bin hf h1 h2 i1 i2 =>
    intro i
    simp only [Expr.el, isScal_same h1, isScal_same h2, size_same E h1, size_same E h2]
    exact SameOut.eq fun k => SameOut.bind (i1 k) fun a a' ha => SameOut.eq fun k' => SameOut.bind (i2 k') fun b b' hb => hf _ _ _ _ ha hb
  | sub ind mp h ih =>
    intro i
    simp only [Expr.el, size_same E h]
    exact SameOut.eq fun k => SameOut.eq fun j => ih j

/-! ## Programs -/

/-- States correspond. -/
def MachR (R : V → W → Prop) (s : Mach V) (s' : Mach W) : Prop := HeapR R s.heap s'.heap ∧ s.st = s'.st ∧ s.n = s'.n ∧ s.bor = s'.bor

abbrev SimM (R : V → W → Prop) (Q : α → β → Prop) (m : M (Mach V) α) (m' : M (Mach W) β) : Prop := Sim (MachR R) Q m m'

theorem envR {s : Mach V} {s' : Mach W} (h : MachR R s s') : EnvR R s.env s'.env := by
  rcases s' with ⟨h', st, n, bor⟩
  obtain ⟨hh, rfl, rfl, rfl⟩ := h
  exact ⟨rfl, rfl, fun x i => get_same hh _ i⟩

theorem Sim.got {P : γ → δ → Prop} {f : Mach V → M (Mach V) γ} {f' : Mach W → M (Mach W) δ}
    (h : ∀ s h', HeapR R s.heap h' → SimM R P (f s) (f' ⟨h', s.st, s.n, s.bor⟩)) : SimM R P (M.get >>= f) (M.get >>= f') := by
  intro s s' hs
  rcases s' with ⟨h', st, n, bor⟩
  obtain ⟨hh, rfl, rfl, rfl⟩ := hs
  exact h s h' hh s _ ⟨hh, rfl, rfl, rfl⟩

theorem sim_onSlot {Q : α → β → Prop} (x : Slot) {m : SM V α} {m' : SM W β} (h : SimS R Q m m') :
    SimM R Q (Mach.onSlot x m) (Mach.onSlot x m') := by
  intro s s' hs
  rcases s' with ⟨h', st, n, bor⟩
  obtain ⟨hh, rfl, rfl, rfl⟩ := hs
  have := h (s.heap, s.st x) (h', s.st x) ⟨hh, rfl⟩
  refine ⟨this.1, this.2.1, ?_, rfl, rfl⟩
  show (fun y => if y = x then (m (s.heap, s.st x)).2.2 else s.st y) = fun y => if y = x then (m' (h', s.st x)).2.2 else s.st y
  rw [this.2.2]

theorem sim_mod {f : Mach V → Mach V} {f' : Mach W → Mach W}
    (h : ∀ s h', HeapR R s.heap h' → MachR R (f s) (f' ⟨h', s.st, s.n, s.bor⟩)) : SimM R Eq (M.modify f) (M.modify f') := by
  refine Sim.modify fun s s' hs => ?_
  rcases s' with ⟨h', st, n, bor⟩
  obtain ⟨hh, rfl, rfl, rfl⟩ := hs
  exact h s h' hh

theorem sim_destroy (x : Nat) : SimM R Eq (Mach.destroy x : M (Mach V) Unit) (Mach.destroy x : M (Mach W) Unit) := by
  unfold Mach.destroy
  refine (sim_onSlot _ sim_dtor).eq fun _ => Sim.got fun s h' hh => ?_
  have hk : SimM R Eq (M.modify (fun s : Mach V => { s with
      st := fun y => if y.1 = x then {} else s.st y
      bor := fun y => if y = x then false else s.bor y })) (M.modify (fun s : Mach W => { s with
      st := fun y => if y.1 = x then {} else s.st y
      bor := fun y => if y = x then false else s.bor y })) := sim_mod fun s h' hh => ⟨hh, rfl, rfl, rfl⟩
  refine Sim.ite (fun _ => ?_) fun _ => hk
  exact (sim_onSlot _ sim_dtor).eq fun _ => hk

theorem sim_decl {b : Nat → M (Mach V) Unit} {b' : Nat → M (Mach W) Unit} (h : ∀ x, SimM R Eq (b x) (b' x)) :
    SimM R Eq (Mach.decl b) (Mach.decl b') := by
  intro s s' hs
  rcases s' with ⟨h', st, n, bor⟩
  obtain ⟨hh, rfl, rfl, rfl⟩ := hs
  have h1 := h s.n { s with n := s.n + 1 } ⟨h', s.st, s.n + 1, s.bor⟩ ⟨hh, rfl, rfl, rfl⟩
  unfold Mach.decl
  revert h1
  show SameOut Eq (b s.n { s with n := s.n + 1 }).1 (b' s.n ⟨h', s.st, s.n + 1, s.bor⟩).1 ∧ _ → _
  rcases hb : b s.n { s with n := s.n + 1 } with ⟨o, s1⟩
  rcases hb' : b' s.n ⟨h', s.st, s.n + 1, s.bor⟩ with ⟨o', s1'⟩
  intro h1
  dsimp only at h1 ⊢
  cases o <;> cases o' <;> first | exact h1.1.elim | exact h1 | skip
  obtain ⟨h1, h2⟩ := h1
  cases h1
  exact ((sim_destroy s.n).eq fun _ => Sim.liftEq _) s1 s1' h2

theorem sim_withTmp {b : Nat → M (Mach V) Unit} {b' : Nat → M (Mach W) Unit} (h : ∀ x, SimM R Eq (b x) (b' x)) :
    SimM R Eq (Mach.withTmp b) (Mach.withTmp b') := by
  intro s s' hs
  rcases s' with ⟨h', st, n, bor⟩
  obtain ⟨hh, rfl, rfl, rfl⟩ := hs
  have h1 := h s.n { s with n := s.n + 1 } ⟨h', s.st, s.n + 1, s.bor⟩ ⟨hh, rfl, rfl, rfl⟩
  unfold Mach.withTmp
  revert h1
  show SameOut Eq (b s.n { s with n := s.n + 1 }).1 (b' s.n ⟨h', s.st, s.n + 1, s.bor⟩).1 ∧ _ → _
  rcases hb : b s.n { s with n := s.n + 1 } with ⟨o, s1⟩
  rcases hb' : b' s.n ⟨h', s.st, s.n + 1, s.bor⟩ with ⟨o', s1'⟩
  intro h1
  dsimp only at h1 ⊢
  obtain ⟨h1, h2⟩ := h1
  cases o <;> cases o' <;> first | exact h1.elim | exact ⟨h1, h2⟩ | skip
  · exact sim_destroy s.n s1 s1' h2
  · cases h1
    exact ((sim_destroy s.n).eq fun _ => Sim.liftEq _) s1 s1' h2

variable {z : V} {z' : W} (hz : R z z') {conv : V → Out V} {conv' : W → Out W} (hc : ∀ a a', R a a' → SameOut R (conv a) (conv' a'))
  {e : Expr V} {e' : Expr W} (he : SameExpr R e e')
include hz hc he

omit hz in
theorem sim_loop (t : Slot) (n : Nat) : SimM R Eq (M.forN n (fun i => do
    let v ← M.reads (fun s : Mach V => e.el s.env i)
    let w ← M.lift (conv v)
    Mach.onSlot t (Store.set i w))) (M.forN n (fun i => do
    let v ← M.reads (fun s : Mach W => e'.el s.env i)
    let w ← M.lift (conv' v)
    Mach.onSlot t (Store.set i w))) :=
  Sim.forN _ fun i => (Sim.reads fun _ _ hs => el_same (envR hs) he i).bind fun a b hab => (Sim.lift (hc a b hab)).bind fun _ _ h =>
    sim_onSlot _ (sim_set i h)

theorem sim_fillTemp (t : Nat) : SimM R Eq (Mach.fillTemp z conv t e) (Mach.fillTemp z' conv' t e') := by
  unfold Mach.fillTemp
  refine Sim.got fun s h' hh => ?_
  rw [← size_same (envR (s := s) (s' := ⟨h', s.st, s.n, s.bor⟩) ⟨hh, rfl, rfl, rfl⟩) he]
  exact (sim_onSlot _ (sim_resize hz _)).eq fun _ => sim_loop hc he _ _

omit hz hc in
theorem sim_setDims (x : Nat) : SimM R Eq (Mach.setDims x e) (Mach.setDims x e') := by
  unfold Mach.setDims
  refine Sim.got fun s h' hh => ?_
  have E := envR (s := s) (s' := ⟨h', s.st, s.n, s.bor⟩) ⟨hh, rfl, rfl, rfl⟩
  rw [← im_same E he, ← nr_same E he, ← nc_same E he]
  exact Sim.ite (fun _ => (Sim.liftEq _).eq fun _ => (Sim.liftEq _).eq fun _ => sim_onSlot _ (sim_upd _)) fun _ => Sim.pure rfl

omit hz hc he in
theorem sim_moveTemp (x : Nat) : SimM R Eq (Mach.moveTemp x : M (Mach V) Unit) (Mach.moveTemp x : M (Mach W) Unit) :=
  sim_mod fun _ _ hh => ⟨hh, rfl, rfl, rfl⟩

theorem sim_assign (x : Nat) : SimM R Eq (Mach.assign z conv x e) (Mach.assign z' conv' x e') := by
  unfold Mach.assign
  refine Sim.got fun s h' hh => Sim.ite (fun _ => ?_) fun _ => ?_
  · unfold Mach.assignBorrow
    refine Sim.got fun s h' hh => ?_
    rw [← size_same (envR (s := s) (s' := ⟨h', s.st, s.n, s.bor⟩) ⟨hh, rfl, rfl, rfl⟩) he]
    refine (Sim.ass _ _).eq fun _ => (sim_fillTemp hz hc he x).eq fun _ => Sim.got fun s h' hh => ?_
    rw [← size_same (envR (s := s) (s' := ⟨h', s.st, s.n, s.bor⟩) ⟨hh, rfl, rfl, rfl⟩) he]
    refine (Sim.ass _ _).eq fun _ => (sim_onSlot _ (sim_upd _)).eq fun _ => Sim.got fun s h' hh => ?_
    rw [← size_same (envR (s := s) (s' := ⟨h', s.st, s.n, s.bor⟩) ⟨hh, rfl, rfl, rfl⟩) he]
    refine (Sim.forN _ fun i => (Sim.reads (Q := R) fun s s' hs => ?_).bind fun _ _ h => sim_onSlot _ (sim_set i h)).eq fun _ =>
      sim_setDims he x
    rw [← hs.2.1]
    exact get_same hs.1 _ i
  · exact (sim_fillTemp hz hc he x).eq fun _ => (sim_moveTemp x).eq fun _ => sim_setDims he x

omit hc he in
theorem sim_assignScalar (x : Nat) {v : V} {w : W} (hv : R v w) : SimM R Eq (Mach.assignScalar z x v) (Mach.assignScalar z' x w) := by
  unfold Mach.assignScalar
  refine Sim.got fun s h' hh => Sim.ite (fun _ => ?_) fun _ => ?_
  · exact (sim_onSlot _ (sim_upd _)).eq fun _ => sim_onSlot _ (sim_set 0 hv)
  · exact (sim_onSlot _ (sim_resize hz 1)).eq fun _ => sim_onSlot _ (sim_set 0 hv)

omit hc he in
theorem sim_vecResize (x n : Nat) : SimM R Eq (Mach.resize z x n) (Mach.resize z' x n) := by
  unfold Mach.resize
  refine Sim.got fun s h' hh => Sim.ite (fun _ => sim_onSlot _ ?_) fun _ => sim_onSlot _ (sim_resize hz n)
  exact (Sim.ass _ _).eq fun _ => sim_self.eq fun _ => Sim.ite (fun _ => sim_upd _) fun _ => Sim.liftEq _

omit hz hc he in
theorem sim_subSet (x : Nat) (ind : List Nat) (pos : Nat) {v : V} {w : W} (hv : R v w) :
    SimM R Eq (Mach.subSet x ind pos v) (Mach.subSet x ind pos w) :=
  Sim.got fun _ _ _ => (Sim.liftEq _).eq fun _ => (Sim.liftEq _).eq fun j => sim_onSlot _ (sim_set j hv)

theorem sim_subAssign (same : Bool) (x : Nat) (ind : List Nat) :
    SimM R Eq (Mach.subAssign z conv same x ind e) (Mach.subAssign z' conv' same x ind e') := by
  refine sim_withTmp fun t => ?_
  unfold Mach.subAssignBody
  refine Sim.got fun s h' hh => ?_
  rw [← size_same (envR (s := s) (s' := ⟨h', s.st, s.n, s.bor⟩) ⟨hh, rfl, rfl, rfl⟩) he]
  refine (Sim.ass _ _).eq fun _ => (sim_fillTemp hz hc he t).eq fun _ => Sim.got fun s h' hh => ?_
  have hk : SimM R Eq (M.forN ind.length (fun i => do
      let v ← M.reads (fun s : Mach V => (s.st (t, true)).get s.heap i)
      Mach.subSet x ind (i % ind.length) v)) (M.forN ind.length (fun i => do
      let v ← M.reads (fun s : Mach W => (s.st (t, true)).get s.heap i)
      Mach.subSet x ind (i % ind.length) v)) := by
    refine Sim.forN _ fun i => (Sim.reads (Q := R) fun s s' hs => ?_).bind fun _ _ h => sim_subSet x ind _ h
    rw [← hs.2.1]
    exact get_same hs.1 _ i
  refine Sim.ite (fun _ => ?_) fun _ => hk
  exact (sim_vecResize hz x _).eq fun _ => hk

theorem sim_declExpr : SimM R Eq (Mach.declExpr z conv e) (Mach.declExpr z' conv' e') := by
  refine sim_decl fun x => Sim.got fun s h' hh => ?_
  rw [← size_same (envR (s := s) (s' := ⟨h', s.st, s.n, s.bor⟩) ⟨hh, rfl, rfl, rfl⟩) he]
  have hk : SimM R Eq (do
      let s ← M.get
      M.forN (s.st (x, false)).sz (fun i => do
        let v ← M.reads (fun s : Mach V => e.el s.env i)
        let w ← M.lift (conv v)
        Mach.onSlot (x, false) (Store.set i w))
      Mach.setDims x e) (do
      let s ← M.get
      M.forN (s.st (x, false)).sz (fun i => do
        let v ← M.reads (fun s : Mach W => e'.el s.env i)
        let w ← M.lift (conv' v)
        Mach.onSlot (x, false) (Store.set i w))
      Mach.setDims x e') := Sim.got fun s h' hh => (sim_loop hc he _ _).eq fun _ => sim_setDims he x
  refine Sim.ite (fun _ => ?_) fun _ => ?_
  · exact (sim_onSlot _ (sim_resize hz _)).eq fun _ => hk
  · exact (sim_onSlot _ (sim_upd _)).eq fun _ => hk

omit hc he
omit hz in
theorem sim_declCopy (y : Nat) : SimM R Eq (Mach.declCopy y : M (Mach V) Unit) (Mach.declCopy y : M (Mach W) Unit) := by
  refine sim_decl fun x => Sim.got fun s h' hh => Sim.ite (fun _ => ?_) fun _ => ?_
  · refine (sim_mod fun _ _ hh => ⟨hh, rfl, rfl, rfl⟩).eq fun _ => ?_
    exact sim_onSlot _ (sim_copyCtor _)
  · exact (sim_onSlot _ (sim_copyCtor _)).eq fun _ => sim_onSlot _ (sim_copyCtor _)

theorem sim_declTemp {l : List V} {l' : List W} (hl : List.Forall₂ R l l') (mp : MP) :
    SimM R Eq (Mach.declTemp z l mp) (Mach.declTemp z' l' mp) := by
  refine sim_withTmp fun t => Sim.eq ?_ fun _ => sim_decl fun x => sim_mod fun _ _ hh => ⟨hh, rfl, rfl, rfl⟩
  unfold Mach.makeTemp
  rw [← hl.length_eq]
  exact (sim_onSlot _ (sim_ctorSize hz _)).eq fun _ => (Sim.forN _ fun i => (Sim.lift (getL_same hl i)).bind fun _ _ h =>
    sim_onSlot _ (sim_set i h)).eq fun _ => sim_onSlot _ (sim_upd _)

theorem sim_declPtr (p : Ptr) (n : Nat) : SimM R Eq (Mach.declPtr z p n) (Mach.declPtr z' p n) :=
  sim_decl fun _ => (sim_onSlot _ (sim_ctorSize hz n)).eq fun _ => (Sim.forN _ fun i => (Sim.reads fun _ _ hs => load_same hs.1 p i).bind
    fun _ _ h => sim_onSlot _ (sim_set i h)).eq fun _ => sim_onSlot _ (sim_upd _)

omit hz in
theorem sim_callerArray {l : List V} {l' : List W} (hl : List.Forall₂ R l l') : SimM R Eq (Mach.callerArray l) (Mach.callerArray l') := by
  refine sim_mod fun s h' hh => ⟨?_, rfl, rfl, rfl⟩
  refine ⟨fun b => ?_, congrArg (· + 1) hh.next, hh.sched⟩
  have := (hh.setBlk s.heap.next (x := ⟨l.length, fun i => l[i]?, true, false⟩) (y := ⟨l'.length, fun i => l'[i]?, true, false⟩)
    ⟨hl.length_eq, rfl, rfl, fun i => forall₂_getElem hl i⟩).blk b
  rw [hh.next] at this
  show BlockR R ((s.heap.setBlk s.heap.next _).blk b) ((h'.setBlk h'.next _).blk b)
  rw [hh.next]
  exact this

/-- One operation. -/
theorem sim_exec {c : Cmd V} {c' : Cmd W} (h : SameCmd R c c') : SimM R Eq (Mach.exec z c) (Mach.exec z' c') := by
  cases h with
  | callerArray h => exact sim_callerArray h
  | declDefault => exact sim_decl fun _ => Sim.pure rfl
  | declSize n => exact sim_decl fun _ => sim_onSlot _ (sim_ctorSize hz n)
  | declScalar h => exact sim_decl fun _ => (sim_onSlot _ (sim_ctorInt hz 1)).eq fun _ => sim_onSlot _ (sim_set 0 h)
  | declMat r c => exact sim_decl fun _ => (sim_onSlot _ (sim_ctorSize hz _)).eq fun _ => sim_onSlot _ (sim_upd _)
  | declMatVal r c h =>
    exact sim_decl fun _ => (sim_onSlot _ (sim_ctorSize hz _)).eq fun _ => (sim_onSlot _ (sim_upd _)).eq fun _ =>
        sim_onSlot _ (sim_fillScalar h)
  | declCopy y => exact sim_declCopy y
  | declExpr hc he => exact sim_declExpr hz hc he
  | declTemp mp h => exact sim_declTemp hz h mp
  | declPtr p n => exact sim_declPtr hz p n
  | declBorrow p n => exact sim_decl fun _ => sim_mod fun _ _ hh => ⟨hh, rfl, rfl, rfl⟩
  | assign x hc he => exact sim_assign hz hc he x
  | assignScalar x h => exact sim_assignScalar hz x h
  | subAssign same x ind hc he => exact sim_subAssign hz hc he same x ind
  | subAssignScalar x ind h => exact Sim.forN _ fun i => sim_subSet x ind i h
  | setElem x i h => exact sim_onSlot _ (sim_set i h)
  | resize x n => exact sim_vecResize hz x n
  | fill x h => exact sim_onSlot _ (sim_fillScalar h)
  | fillVec x y => exact Sim.got fun _ _ _ => sim_onSlot _ (sim_fillVec _)
  | pushBack x h => exact sim_onSlot _ (sim_pushBack hz h)
  | storeAssign x y => exact Sim.got fun _ _ _ => sim_onSlot _ (sim_storeAssign hz _)
  | destroy x => exact sim_destroy x

omit hz in
theorem machR_start (sched : List Bool) : MachR R (Mach.start sched) (Mach.start sched) :=
  ⟨⟨fun _ => ⟨rfl, rfl, rfl, fun _ => trivial⟩, rfl, rfl⟩, rfl, rfl, rfl⟩

/-- Histories. -/
theorem machR_runAll {cs : List (Cmd V)} {cs' : List (Cmd W)} (h : List.Forall₂ (SameCmd R) cs cs') :
    ∀ {s : Mach V} {s' : Mach W}, MachR R s s' →
      (Mach.runAll z cs s).1 = (Mach.runAll z' cs' s').1 ∧ MachR R (Mach.runAll z cs s).2 (Mach.runAll z' cs' s').2 := by
  induction h with
  | nil => exact fun hs => ⟨rfl, hs⟩
  | cons hc _ ih =>
    intro s s' hs
    have h1 := sim_exec hz hc s s' hs
    simp only [Mach.runAll]
    revert h1
    rcases Mach.exec z _ s with ⟨o, s1⟩
    rcases Mach.exec z' _ s' with ⟨o', s1'⟩
    intro h1
    cases o <;> cases o' <;> first | exact h1.1.elim | exact ih h1.2 | exact ⟨congrArg some h1.1, h1.2⟩

omit hz in
theorem sameView_of {s : Mach V} {s' : Mach W} (h : MachR R s s') : SameView R s s' :=
  fun x => ⟨congrFun (envR h).size x, congrFun (envR h).mp x, fun i => (envR h).get x i⟩

/-! ## Control flow -/

/-- Results correspond. -/
def EndR (R : V → W → Prop) : Option (Out Unit × Prog.St V) → Option (Out Unit × Prog.St W) → Prop
  | none, none => True
  | some (o, s), some (o', s') => o = o' ∧ s.1 = s'.1 ∧ MachR R s.2 s'.2
  | _, _ => False

def StR (R : V → W → Prop) (s : Prog.St V) (s' : Prog.St W) : Prop := s.1 = s'.1 ∧ MachR R s.2 s'.2

omit hz in
theorem endR_andThen {r : Option (Out Unit × Prog.St V)} {r' : Option (Out Unit × Prog.St W)} {k k'} (h : EndR R r r')
    (hk : ∀ s s', StR R s s' → EndR R (k s) (k' s')) : EndR R (Prog.andThen r k) (Prog.andThen r' k') := by
  rcases r with _ | ⟨o, s⟩ <;> rcases r' with _ | ⟨o', s'⟩
  · trivial
  · exact h.elim
  · exact h.elim
  · obtain ⟨rfl, h2⟩ := h
    cases o with
    | ok _ => exact hk s s' h2
    | thr m => exact ⟨rfl, h2⟩
    | ub u => exact ⟨rfl, h2⟩

omit hz in
theorem endR_withOut {Q : α → β → Prop} {o : Out α × Prog.St V} {o' : Out β × Prog.St W} {k k'} (h : SameOut Q o.1 o'.1) (hs : StR R o.2 o'.2)
    (hk : ∀ a b s s', Q a b → StR R s s' → EndR R (k a s) (k' b s')) : EndR R (Prog.withOut o k) (Prog.withOut o' k') := by
  rcases o with ⟨o, s⟩
  rcases o' with ⟨o', s'⟩
  cases o <;> cases o' <;> first | exact h.elim | exact hk _ _ _ _ h hs | exact ⟨congrArg _ h, hs⟩

omit hz in
theorem sim_leave (lo n : Nat) : SimM R Eq (Mach.leave lo n : M (Mach V) Unit) (Mach.leave lo n : M (Mach W) Unit) := by
  induction n with
  | zero => exact Sim.pure rfl
  | succ n ih => exact (sim_destroy _).eq fun _ => ih

omit hz in
theorem endR_inBlock {b : Prog.St V → Option (Out Unit × Prog.St V)} {b' : Prog.St W → Option (Out Unit × Prog.St W)} {s s'}
    (hs : StR R s s') (h : EndR R (b s) (b' s')) : EndR R (Prog.inBlock b s) (Prog.inBlock b' s') := by
  unfold Prog.inBlock
  revert h
  rcases b s with _ | ⟨o, s1⟩ <;> rcases b' s' with _ | ⟨o', s1'⟩
  · exact id
  · exact False.elim
  · exact False.elim
  · rintro ⟨rfl, hw, hm⟩
    have hl := sim_leave (R := R) s.2.n (s1.2.n - s.2.n) s1.2 s1'.2 hm
    cases o with
    | ub u => exact ⟨rfl, hw, hm⟩
    | ok _ =>
      dsimp only
      rw [← hs.2.2.2.1, ← hm.2.2.1]
      revert hl
      rcases Mach.leave s.2.n (s1.2.n - s.2.n) s1.2 with ⟨q, m⟩
      rcases Mach.leave s.2.n (s1.2.n - s.2.n) s1'.2 with ⟨q', m'⟩
      intro hl
      have := sameOut_unit hl.1
      dsimp only at this
      subst this
      cases q <;> exact ⟨rfl, hw, hl.2⟩
    | thr _ =>
      dsimp only
      rw [← hs.2.2.2.1, ← hm.2.2.1]
      revert hl
      rcases Mach.leave s.2.n (s1.2.n - s.2.n) s1.2 with ⟨q, m⟩
      rcases Mach.leave s.2.n (s1.2.n - s.2.n) s1'.2 with ⟨q', m'⟩
      intro hl
      have := sameOut_unit hl.1
      dsimp only at this
      subst this
      cases q <;> exact ⟨rfl, hw, hl.2⟩

omit hz in
theorem toScalar_same {env : Env V} {env' : Env W} (E : EnvR R env env') {e : Expr V} {e' : Expr W} (h : SameExpr R e e') (bool : Bool) :
    Sim Eq R (toScalar bool env e) (toScalar bool env' e') := by
  unfold toScalar
  rw [← size_same E h]
  have hk : Sim Eq R (M.lift (e.el env 0) : L V) (M.lift (e'.el env' 0) : L W) := Sim.lift (el_same E h 0)
  refine Sim.ite (fun _ => ?_) fun _ => hk
  exact Sim.eq (fun a b hab => by subst hab; exact ⟨sameOut_refl _, rfl⟩) fun _ => hk

omit hz in
theorem lengthOf_same {env : Env V} {env' : Env W} (E : EnvR R env env') {e : Expr V} {e' : Expr W} (h : SameExpr R e e') :
    lengthOf env e = lengthOf env' e' := by
  have := size_same E h
  cases h <;> first | rfl | exact congrArg (fun n : Nat => wrapI32 n) this

omit hz in
theorem endR_range {X : Type} {P : V → W → Prop} {m : AM X Unit} {s : Prog.St V} {s' : Prog.St W} (hs : StR P s s') :
    SameOut Eq (Prog.range m s).1 (Prog.range m s').1 ∧ StR P (Prog.range m s).2 (Prog.range m s').2 := by
  unfold Prog.range
  rw [← hs.1]
  rcases m (s.1, (Heap.empty, {})) with ⟨o, ws, h, d⟩
  cases o with
  | ok _ => exact ⟨sameOut_refl _, rfl, hs.2⟩
  | thr _ => exact ⟨rfl, rfl, hs.2⟩
  | ub _ => exact ⟨rfl, rfl, hs.2⟩

omit hz in
theorem endR_each {b : α → Prog.St V → Option (Out Unit × Prog.St V)} {b' : α → Prog.St W → Option (Out Unit × Prog.St W)}
    (h : ∀ a s s', StR R s s' → EndR R (b a s) (b' a s')) (l : List α) : ∀ s s', StR R s s' → EndR R (Prog.each b l s) (Prog.each b' l s') := by
  induction l with
  | nil => exact fun s s' hs => ⟨rfl, hs⟩
  | cons a l ih => exact fun s s' hs => endR_andThen (h a s s' hs) ih

omit hz in
theorem endR_rounds {t : Prog.St V → Out Bool × Prog.St V} {t' : Prog.St W → Out Bool × Prog.St W}
    {b : Prog.St V → Option (Out Unit × Prog.St V)} {b' : Prog.St W → Option (Out Unit × Prog.St W)}
    (ht : ∀ s s', StR R s s' → SameOut Eq (t s).1 (t' s').1 ∧ StR R (t s).2 (t' s').2)
    (hb : ∀ s s', StR R s s' → EndR R (b s) (b' s')) (n : Nat) :
    ∀ s s', StR R s s' → EndR R (Prog.rounds t b n s) (Prog.rounds t' b' n s') := by
  induction n with
  | zero => exact fun _ _ _ => trivial
  | succ n ih =>
    intro s s' hs
    refine endR_withOut (ht s s' hs).1 (ht s s' hs).2 fun x y u u' hxy hu => ?_
    subst hxy
    cases x
    · exact ⟨rfl, hu⟩
    · exact endR_andThen (hb u u' hu) ih

omit hz in
theorem endR_eachAt (p : Ptr) {b : V → Prog.St V → Option (Out Unit × Prog.St V)} {b' : W → Prog.St W → Option (Out Unit × Prog.St W)}
    (h : ∀ v v', R v v' → ∀ s s', StR R s s' → EndR R (b v s) (b' v' s')) (n : Nat) :
    ∀ i s s', StR R s s' → EndR R (Prog.eachAt p b n i s) (Prog.eachAt p b' n i s') := by
  induction n with
  | zero => exact fun _ s s' hs => ⟨rfl, hs⟩
  | succ n ih =>
    exact fun i s s' hs => endR_withOut (load_same hs.2.1 p i) hs fun x y t t' hxy ht => endR_andThen (h x y hxy t t' ht) (ih (i + 1))

/-- Programs. -/
theorem endR_run (fuel : Nat) {p : Prog V} {p' : Prog W} (h : SameProg R p p') :
    ∀ s s', StR R s s' → EndR R (p.run z fuel s) (p'.run z' fuel s') := by
  have hcmd : ∀ {c : Cmd V} {c' : Cmd W} {s : Prog.St V} {s' : Prog.St W}, SameCmd R c c' → StR R s s' →
      EndR R (some ((Mach.exec z c s.2).1, (s.1, (Mach.exec z c s.2).2))) (some ((Mach.exec z' c' s'.2).1, (s'.1, (Mach.exec z' c' s'.2).2))) :=
    fun hc hs => ⟨sameOut_unit (sim_exec hz hc _ _ hs.2).1, hs.1, (sim_exec hz hc _ _ hs.2).2⟩
  have hsay : ∀ {α β : Type} {Q : α → β → Prop} {m : L α} {m' : L β} {s : Prog.St V} {s' : Prog.St W}, Sim Eq Q m m' → StR R s s' →
      SameOut Q (Prog.say m s).1 (Prog.say m' s').1 ∧ StR R (Prog.say m s).2 (Prog.say m' s').2 :=
    fun hm hs => ⟨(hm _ _ hs.1).1, (hm _ _ hs.1).2, hs.2⟩
  induction h with
  | skip => exact fun s s' hs => ⟨rfl, hs⟩
  | cmd hc => exact fun s s' hs => hcmd hc hs
  | seq _ _ ia ib => exact fun s s' hs => endR_andThen (ia s s' hs) ib
  | decl hc _ ih =>
    intro s s' hs
    refine endR_andThen (hcmd hc hs) fun t t' ht => ?_
    rw [← ht.2.2.2.1]
    exact ih _ t t' ht
  | read bool he _ ih =>
    intro s s' hs
    have := hsay (toScalar_same (envR hs.2) he bool) hs
    exact endR_withOut this.1 this.2 fun a b t t' hab ht => ih a b hab t t' ht
  | @index i e e' k k' he _ ih =>
    intro s s' hs
    have e1 := size_same (envR hs.2) he
    simp only [Prog.run, ← e1]
    have := hsay (Q := Eq) (m := calcIndVector (e.size s.2.env) i) (m' := calcIndVector (e.size s.2.env) i) (fun a b hab => by subst hab; exact ⟨sameOut_refl _, rfl⟩) hs
    exact endR_withOut this.1 this.2 fun a b t t' hab ht => by subst hab; exact ih a t t' ht
  | len he _ ih =>
    intro s s' hs
    simp only [Prog.run, ← lengthOf_same (envR hs.2) he]
    exact ih _ s s' hs
  | loop bool he hc _ ih =>
    intro s s' hs
    exact endR_rounds (fun t t' ht => hsay ((toScalar_same (envR ht.2) he bool).bind fun a b hab => Sim.pure (hc a b hab)) ht) ih fuel s s' hs
  | forVec x _ ih =>
    intro s s' hs
    simp only [Prog.run, ← hs.2.2.1]
    exact endR_eachAt _ ih _ _ s s' hs
  | forInt a b _ ih =>
    intro s s' hs
    exact endR_withOut (endR_range hs).1 (endR_range hs).2 fun a b t t' hab ht => by subst hab; exact endR_each ih a t t' ht
  | forDbl a b _ ih =>
    intro s s' hs
    exact endR_withOut (endR_range hs).1 (endR_range hs).2 fun a b t t' hab ht => by subst hab; exact endR_each ih a t t' ht
  | block _ ih => exact fun s s' hs => endR_inBlock hs (ih s s' hs)
  | throw m => exact fun s s' hs => ⟨rfl, hs⟩
  | tryCatch _ _ ia ib =>
    intro s s' hs
    have h1 := endR_inBlock hs (ia s s' hs)
    simp only [Prog.run]
    revert h1
    rcases Prog.inBlock _ s with _ | ⟨o, t⟩ <;> rcases Prog.inBlock _ s' with _ | ⟨o', t'⟩
    · exact id
    · exact False.elim
    · exact False.elim
    · rintro ⟨rfl, ht⟩
      cases o with
      | ok _ => exact ⟨rfl, ht⟩
      | ub _ => exact ⟨rfl, ht⟩
      | thr m => exact endR_inBlock ht (ib m t t' ht)

end ETR.Data
