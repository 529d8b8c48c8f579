import Verif.Lemmas.MachAssign

/-! Which vectors can always be assigned to: their `temp` member is usable.  Borrowed vectors always
have this property, other vectors unless they were default constructed. -/

namespace ETR
variable {V : Type}

/-- The property holds unless the outcome is undefined behaviour. -/
def Kept {σ α : Type} (P : σ → Prop) : Out α × σ → Prop
  | (.ub _, _) => True
  | (_, s) => P s

namespace Store

/-- `temp.resize` does not throw "try to delete nullptr". -/
def Good (s : Store) : Prop := s.allocated = true → s.p ≠ none

/-- The operation keeps a property of the store, also when it throws. -/
def Pres {α : Type} (R : Store → Prop) (m : SM V α) : Prop :=
  ∀ st, R st.2 → Kept (fun st => R st.2) (m st)

variable {R : Store → Prop} {α β : Type}

theorem Pres.bind {m : SM V α} {f : α → SM V β} (h1 : Pres R m) (h2 : ∀ a, Pres R (f a)) :
    Pres R (m >>= f) := by
  intro st hs
  have := h1 st hs
  rw [M.bind_apply]
  rcases hm : m st with ⟨o, st'⟩
  rw [hm] at this
  cases o with
  | ok a => exact h2 a st' this
  | thr e => exact this
  | ub k => trivial

theorem Pres.pure (a : α) : Pres R (Pure.pure a : SM V α) := fun _ hs => hs
theorem Pres.lift (o : Out α) : Pres R (M.lift o : SM V α) := by
  intro st hs; rw [M.lift_apply]; cases o <;> first | exact hs | trivial
theorem Pres.ass (c : Prop) [Decidable c] (m : String) : Pres R (M.ass c m : SM V Unit) :=
  Pres.lift _
theorem Pres.reads (f : Heap V × Store → Out α) : Pres R (M.reads f) := by
  intro st hs; rw [M.reads_apply]; cases f st <;> first | exact hs | trivial
theorem Pres.self : Pres R (Store.self : SM V Store) := fun _ hs => hs
theorem Pres.upd {f : Store → Store} (h : ∀ s, R s → R (f s)) : Pres R (Store.upd f : SM V Unit) :=
  fun st hs => h st.2 hs
theorem Pres.heapM (m : M (Heap V) α) : Pres R (Store.heapM m) := by
  intro st hs
  show Kept (fun st => R st.2) (((m st.1).1, ((m st.1).2, st.2)))
  rcases m st.1 with ⟨o, h⟩
  cases o <;> first | exact hs | trivial
theorem Pres.forN {f : Nat → SM V Unit} (n : Nat) (h : ∀ i, Pres R (f i)) : Pres R (M.forN n f) := by
  induction n with
  | zero => exact Pres.pure ()
  | succ n ih => exact Pres.bind ih (fun _ => h n)

theorem Pres.set (i : Nat) (v : V) : Pres R (Store.set i v) :=
  Pres.bind Pres.self (fun _ => Pres.bind (Pres.lift _) (fun _ => Pres.heapM _))
theorem Pres.fillScalar (v : V) : Pres R (Store.fillScalar v) :=
  Pres.bind Pres.self (fun _ => Pres.heapM _)
theorem Pres.fillVec (o : Store) : Pres R (Store.fillVec o : SM V Unit) :=
  Pres.bind Pres.self (fun _ => Pres.bind (Pres.ass _ _) (fun _ => Pres.forN _ (fun _ => Pres.bind (Pres.reads _) (fun _ => Pres.heapM _))))

theorem Pres.ite {c : Prop} [Decidable c] {m m' : SM V α} (h1 : Pres R m) (h2 : Pres R m') :
    Pres R (if c then m else m') := by split; exacts [h1, h2]

/-- The store has memory. -/
def HasPtr (s : Store) : Prop := s.p ≠ none

theorem Pres.resize {zero : V} {n : Nat} (h1 : ∀ s s', R s → s'.p = s.p → s'.allocated = s.allocated
    → R s') (h2 : ∀ s : Store, s.p ≠ none → R s) : Pres R (Store.resize zero n) := by
  have hupd : ∀ c : Nat, Pres R (Store.upd (fun s => { s with capacity := c }) : SM V Unit) :=
    fun c => Pres.upd (fun s hs => h1 s _ hs rfl rfl)
  have hupd' : ∀ c : Nat, Pres R (Store.upd (fun s => { s with sz := c }) : SM V Unit) :=
    fun c => Pres.upd (fun s hs => h1 s _ hs rfl rfl)
  unfold Store.resize
  refine Pres.bind (Pres.ass _ _) (fun _ => ?_)
  intro st hs
  rw [M.bind_ok (self_apply _)]
  by_cases hal : st.2.allocated = true
  · rw [if_neg (by simpa using hal)]
    have hf : ∀ b : Nat, Pres R (Store.upd (fun s =>
        { s with p := some b, sz := n, allocated := true }) : SM V Unit) :=
      fun b => Pres.upd (fun s _ => h2 _ (by simp))
    exact Pres.ite (c := n > st.2.capacity)
      (Pres.bind (Pres.ass (st.2.p ≠ none) "try to delete nullptr")
        (fun _ => Pres.bind (Pres.heapM (Heap.delete st.2.p)) (fun _ => Pres.bind
        (Pres.lift (capOf n)) (fun c => Pres.bind (hupd c) (fun _ => Pres.bind
        (Pres.heapM (Heap.new c)) (fun b => Pres.bind (hf b) (fun _ => Pres.fillScalar zero)))))))
      (hupd' n) st hs
  · rw [if_pos (by simpa using hal)]
    have hinit : Kept (fun st => R st.2) (Store.init n st) := by
      unfold Store.init
      rw [M.bind_ok (self_apply _), if_neg (by simpa using hal)]
      beta_reduce
      exact Pres.bind (hupd' n) (fun _ => Pres.bind (Pres.lift (capOf n)) (fun c =>
        Pres.bind (hupd c) (fun _ => Pres.bind (Pres.heapM (Heap.new c)) (fun b =>
        Pres.upd (f := fun s => { s with p := some b, allocated := true })
          (fun s _ => h2 _ (by simp)))))) st hs
    rw [M.bind_apply]
    rcases hm : Store.init n st with ⟨o, st'⟩
    rw [hm] at hinit
    cases o with
    | ok a => exact Pres.fillScalar zero st' hinit
    | thr e => exact hinit
    | ub k => trivial

theorem Pres.resizeGood {zero : V} {n : Nat} : Pres Good (Store.resize zero n) :=
  Pres.resize (fun _ _ h e1 e2 ha => by rw [e1]; rw [e2] at ha; exact h ha) (fun _ h _ => h)
theorem Pres.resizePtr {zero : V} {n : Nat} : Pres HasPtr (Store.resize zero n) :=
  Pres.resize (fun _ _ h e1 _ => by unfold HasPtr; rw [e1]; exact h) (fun _ h => h)

theorem Pres.updPtr {f : Store → Store} (h : ∀ s, (f s).p = s.p) :
    Pres HasPtr (Store.upd f : SM V Unit) :=
  Pres.upd (fun s hs => by unfold HasPtr; rw [h]; exact hs)

theorem Pres.realloc {zero : V} {n : Nat} : Pres HasPtr (Store.realloc zero n) := by
  unfold Store.realloc
  refine Pres.bind (Pres.lift _) (fun c => Pres.bind (Pres.updPtr (fun _ => rfl)) (fun _ =>
    Pres.bind (Pres.heapM _) (fun b => Pres.bind Pres.self (fun s => Pres.bind (Pres.forN _
    (fun i => Pres.bind (Pres.reads _) (fun v => Pres.heapM _))) (fun _ => Pres.bind (Pres.forN _
    (fun i => Pres.heapM _)) (fun _ => Pres.bind (Pres.heapM _) (fun _ => Pres.upd ?_)))))))
  intro s _
  simp [HasPtr]

theorem Pres.assign {zero : V} {o : Store} : Pres HasPtr (Store.assign zero o) := by
  have hl : Pres HasPtr (do
      let s ← Store.self
      M.forN s.sz (fun i => do
        let v ← M.reads (fun st => o.get st.1 i)
        Store.heapM (Heap.store s.p i v)) : SM V Unit) :=
    Pres.bind Pres.self (fun s => Pres.forN _ (fun i => Pres.bind (Pres.reads _)
      (fun v => Pres.heapM _)))
  unfold Store.assign
  refine Pres.bind Pres.self (fun s => ?_)
  split
  · split
    · exact Pres.bind Pres.realloc (fun _ => hl)
    · exact Pres.bind Pres.resizePtr (fun _ => hl)
  · exact hl

theorem Pres.pushBack {zero v : V} : Pres HasPtr (Store.pushBack zero v) := by
  unfold Store.pushBack
  refine Pres.bind Pres.self (fun s => ?_)
  split
  · exact Pres.bind Pres.realloc (fun _ => Pres.bind (Pres.updPtr (fun _ => rfl)) (fun _ =>
      Pres.bind Pres.self (fun _ => Pres.bind (Pres.heapM _) (fun _ => Pres.bind (Pres.lift _)
      (fun _ => Pres.updPtr (fun _ => rfl))))))
  · split
    · exact Pres.bind (Pres.heapM _) (fun _ => Pres.updPtr (fun _ => rfl))
    · exact Pres.pure ()

theorem copyCtor_good {o : Store} {st : Heap V × Store} {a : Unit} {st' : Heap V × Store}
    (h : Store.copyCtor o st = (.ok a, st')) : Good st'.2 := by
  unfold Store.copyCtor at h
  rw [M.bind_ok (upd_apply _ _)] at h
  by_cases ha : o.allocated = true
  · rw [if_pos ha] at h
    rw [M.bind_apply] at h
    rcases hm : (Store.heapM (Heap.new o.capacity) : SM V Nat) (st.1, { st.2 with
      sz := o.sz, capacity := o.capacity, allocated := o.allocated }) with ⟨x, st1⟩
    rw [hm] at h
    cases x with
    | ok b =>
      simp only [] at h
      rw [M.bind_ok (upd_apply _ _)] at h
      have := Pres.heapM (R := HasPtr) (Heap.copyRange o.p o.capacity (some b))
        (st1.1, { st1.2 with p := some b }) (by simp [HasPtr])
      rw [h] at this
      exact fun _ => this
    | thr e => simp at h
    | ub k => simp at h
  · rw [if_neg ha] at h
    simp only [M.pure_apply, Prod.mk.injEq] at h
    rw [← h.2]
    intro h'; exact absurd h' ha

end Store

namespace Mach
open Store

/-- The vector `x` can be assigned to (`a = true`), or: if it is borrowed then it can be assigned to
(`a = false`).  The kinds of all objects are fixed to `bo`. -/
structure Ready (a : Bool) (x : Nat) (bo : Nat → Bool) (s : Mach V) : Prop where
  bor : s.bor = bo
  lt : a = true → x < s.n
  good : (bo x = true ∨ a = true) → Good (s.st (x, true))
  ptr : (bo x = false ∧ a = true) → HasPtr (s.st (x, false))

/-- The operation keeps a property of the state, also when it throws. -/
def MPres {α : Type} (P : Mach V → Prop) (m : M (Mach V) α) : Prop :=
  ∀ s, P s → Kept P (m s)

variable {P : Mach V → Prop} {α β : Type} {a : Bool} {x : Nat} {bo : Nat → Bool}

theorem MPres.bind {m : M (Mach V) α} {f : α → M (Mach V) β} (h1 : MPres P m)
    (h2 : ∀ a, MPres P (f a)) : MPres P (m >>= f) := by
  intro st hs
  have := h1 st hs
  rw [M.bind_apply]
  rcases hm : m st with ⟨o, st'⟩
  rw [hm] at this
  cases o with
  | ok a => exact h2 a st' this
  | thr e => exact this
  | ub k => trivial

theorem MPres.pure (a : α) : MPres P (Pure.pure a : M (Mach V) α) := fun _ hs => hs
theorem MPres.lift (o : Out α) : MPres P (M.lift o) := by
  intro st hs; rw [M.lift_apply]; cases o <;> first | exact hs | trivial
theorem MPres.ass (c : Prop) [Decidable c] (m : String) : MPres P (M.ass c m) := MPres.lift _
theorem MPres.reads (f : Mach V → Out α) : MPres P (M.reads f) := by
  intro st hs; rw [M.reads_apply]; cases f st <;> first | exact hs | trivial
theorem MPres.get : MPres P (M.get : M (Mach V) (Mach V)) := fun _ hs => hs
theorem MPres.getB {f : Mach V → M (Mach V) β} (h : ∀ s, P s → MPres P (f s)) :
    MPres P (M.get >>= f) := fun s hs => h s hs s hs
theorem MPres.forN {f : Nat → M (Mach V) Unit} (n : Nat) (h : ∀ i, MPres P (f i)) :
    MPres P (M.forN n f) := by
  induction n with
  | zero => exact MPres.pure ()
  | succ n ih => exact MPres.bind ih (fun _ => h n)
theorem MPres.ite {c : Prop} [Decidable c] {m m' : M (Mach V) α} (h1 : c → MPres P m)
    (h2 : ¬ c → MPres P m') : MPres P (if c then m else m') := by
  split
  · exact h1 (by assumption)
  · exact h2 (by assumption)

theorem MPres.onSlot {y : Slot} {m : SM V α}
    (ht : y = (x, true) → (bo x = true ∨ a = true) → Pres Good m)
    (hd : y = (x, false) → (bo x = false ∧ a = true) → Pres HasPtr m) :
    MPres (Ready a x bo) (Mach.onSlot y m) := by
  intro s R
  rw [onSlot_apply]
  rcases hm : m (s.heap, s.st y) with ⟨o, st'⟩
  have key : (∀ k, o ≠ .ub k) → Ready a x bo (s.put y st') := by
    intro ho
    refine ⟨R.bor, R.lt, fun hc => ?_, fun hc => ?_⟩
    · by_cases hy : (x, true) = y
      · subst hy
        rw [put_same]
        have := ht rfl hc (s.heap, s.st (x, true)) (R.good hc)
        rw [hm] at this
        cases o with
        | ok a => exact this
        | thr e => exact this
        | ub k => exact absurd rfl (ho k)
      · rw [put_ne _ _ hy]; exact R.good hc
    · by_cases hy : (x, false) = y
      · subst hy
        rw [put_same]
        have := hd rfl hc (s.heap, s.st (x, false)) (R.ptr hc)
        rw [hm] at this
        cases o with
        | ok a => exact this
        | thr e => exact this
        | ub k => exact absurd rfl (ho k)
      · rw [put_ne _ _ hy]; exact R.ptr hc
  cases o with
  | ok a => exact key (by simp)
  | thr e => exact key (by simp)
  | ub k => trivial

/-- An operation on a data member. -/
theorem MPres.onD {y : Nat} {m : SM V α} (h : Pres HasPtr m) :
    MPres (Ready a x bo) (Mach.onSlot (y, false) m) := MPres.onSlot (by simp) (fun _ _ => h)
/-- An operation on a slot of another object. -/
theorem MPres.onOther {y : Slot} {m : SM V α} (h : y.1 ≠ x) :
    MPres (Ready a x bo) (Mach.onSlot y m) :=
  MPres.onSlot (by rintro rfl; exact absurd rfl h) (by rintro rfl; exact absurd rfl h)

theorem MPres.fillTemp {zero : V} {conv : V → Out V} {t : Nat} {e : Expr V} :
    MPres (Ready a x bo) (Mach.fillTemp zero conv t e) := by
  unfold Mach.fillTemp
  exact MPres.bind MPres.get (fun s => MPres.bind (MPres.onSlot (fun _ _ => Pres.resizeGood)
    (by simp)) (fun _ => MPres.forN _ (fun i => MPres.bind (MPres.reads _) (fun v =>
    MPres.bind (MPres.lift _) (fun w => MPres.onSlot (fun _ _ => Pres.set _ _) (by simp))))))

theorem MPres.setDims {y : Nat} {e : Expr V} : MPres (Ready a x bo) (Mach.setDims y e) := by
  unfold Mach.setDims
  exact MPres.bind MPres.get (fun s => MPres.ite (fun _ => MPres.bind (MPres.lift _) (fun r =>
    MPres.bind (MPres.lift _) (fun c => MPres.onD (Pres.updPtr (fun _ => rfl)))))
    (fun _ => MPres.pure ()))

theorem MPres.setElem {y i : Nat} {v : V} : MPres (Ready a x bo) (Mach.setElem y i v) :=
  MPres.onD (Pres.set _ _)

theorem fillTemp_ptr {zero : V} {conv : V → Out V} {t : Nat} {e : Expr V} {s s' : Mach V}
    (I : Inv s) (hlim : e.size s.env ≤ 2 ^ 30)
    (h : Mach.fillTemp zero conv t e s = (.ok (), s')) :
    ∃ r, s' = s.put (t, true) r ∧ HasPtr r.2 ∧ r.2.allocated = true := by
  have := fillTemp_post (zero := zero) (conv := conv) (t := t) (e := e) I hlim
  rw [h] at this
  obtain ⟨hg, L, hL, hsz, hel⟩ := this
  obtain ⟨h1, t1, e1, _, _, _, a1, p1, _⟩ := fillTemp_ok (zero := zero) I hg hsz hel hL (by omega)
  rw [h] at e1
  simp only [Prod.mk.injEq, true_and] at e1
  exact ⟨_, e1, p1, a1⟩

theorem pres_assign {zero : V} {conv : V → Out V} {y : Nat} {e : Expr V} {s : Mach V} (I : Inv s)
    (hlim : e.size s.env ≤ 2 ^ 30) (R : Ready a x bo s) :
    Kept (Ready a x bo) (Mach.assign zero conv y e s) := by
  unfold Mach.assign
  rw [M.bind_ok (M.get_apply _)]
  by_cases hb : s.bor y = true
  · rw [if_pos hb]
    refine (?_ : MPres (Ready a x bo) (assignBorrow zero conv y e)) s R
    unfold assignBorrow
    exact MPres.bind MPres.get (fun s => MPres.bind (MPres.ass _ _) (fun _ => MPres.bind
      MPres.fillTemp (fun _ => MPres.bind MPres.get (fun s => MPres.bind (MPres.ass _ _) (fun _ =>
      MPres.bind (MPres.onD (Pres.updPtr (fun _ => rfl))) (fun _ => MPres.bind MPres.get (fun s =>
      MPres.bind (MPres.forN _ (fun i => MPres.bind (MPres.reads _) (fun v =>
      MPres.onD (Pres.set _ _)))) (fun _ => MPres.setDims))))))))
  · rw [if_neg hb]
    unfold assignBuffer
    have h1 := MPres.fillTemp (zero := zero) (conv := conv) (t := y) (e := e) s R
    rw [M.bind_apply]
    rcases hm : Mach.fillTemp zero conv y e s with ⟨o, s1⟩
    rw [hm] at h1
    cases o with
    | ub k => trivial
    | thr m => exact h1
    | ok u =>
      simp only [] at h1 ⊢
      obtain ⟨r, rfl, hp, hal⟩ := fillTemp_ptr I hlim hm
      rw [M.bind_ok (show moveTemp y (s.put (y, true) r) = (.ok (), _) from rfl)]
      refine MPres.setDims (y := y) (e := e) _ ⟨h1.bor, h1.lt, fun hc => ?_, fun hc => ?_⟩
      · by_cases hxy : x = y
        · subst hxy
          have hbx : bo x = false := by
            rw [← R.bor]; simpa using hb
          have ha : a = true := by
            rcases hc with h | h
            · rw [hbx] at h; simp at h
            · exact h
          intro _
          have := R.ptr ⟨hbx, ha⟩
          simp only [Prod.mk.injEq, Bool.true_eq_false, and_false, if_false, if_true]
          rw [put_ne _ _ (by simp)]
          exact this
        · have := h1.good hc
          simpa [hxy] using this
      · by_cases hxy : x = y
        · subst hxy
          simp only [if_true, put_same, moveit]
          exact hp
        · have := h1.ptr hc
          simpa [hxy] using this

/-- `Ready` for the kinds the state has. -/
def ReadyS (a : Bool) (x : Nat) (s : Mach V) : Prop := Ready a x s.bor s

theorem kept_mono {σ : Type} {P Q : σ → Prop} {r : Out α × σ} (h : Kept P r) (hi : ∀ s, P s → Q s) :
    Kept Q r := by
  rcases r with ⟨o, s⟩
  cases o with
  | ub k => trivial
  | ok a => exact hi s h
  | thr e => exact hi s h

theorem Ready.toS {s : Mach V} (R : Ready a x bo s) : ReadyS a x s := by
  have := R.bor
  subst this
  exact R

theorem MPres.run {m : M (Mach V) α} (h : ∀ bo, MPres (Ready a x bo) m) {s : Mach V}
    (R : ReadyS a x s) : Kept (ReadyS a x) (m s) := kept_mono (h _ s R) (fun _ h => Ready.toS h)

theorem Ready.triv {s : Mach V} (ha : a = false) (hb : s.bor x = false) : ReadyS a x s :=
  ⟨rfl, by simp [ha], by simp [ha, hb], by simp [ha]⟩

theorem ready_destroy_self {y : Nat} {s : Mach V} (ha : a = false) :
    Kept (ReadyS a y) (Mach.destroy y s) := by
  rcases hm : Mach.destroy y s with ⟨o, s'⟩
  cases o with
  | ub k => trivial
  | ok u =>
    refine Ready.triv ha ?_
    unfold Mach.destroy at hm
    rw [M.bind_apply] at hm
    rcases h1 : Mach.onSlot (y, true) Store.dtor s with ⟨o1, s1⟩
    rw [h1] at hm
    cases o1 <;> simp only [Prod.mk.injEq, reduceCtorEq, false_and] at hm
    rw [M.bind_ok (M.get_apply _)] at hm
    split at hm
    · rw [M.bind_apply] at hm
      rcases h2 : Mach.onSlot (y, false) Store.dtor s1 with ⟨o2, s2⟩
      rw [h2] at hm
      cases o2 <;> simp only [Prod.mk.injEq, reduceCtorEq, false_and] at hm
      rw [M.modify_apply] at hm
      simp only [Prod.mk.injEq] at hm
      rw [← hm.2]; simp
    · simp only [M.modify_apply, Prod.mk.injEq] at hm
      rw [← hm.2]; simp
  | thr e =>
    -- the destructor does not throw
    exfalso
    have hd : ∀ (z : Slot) (s1 : Mach V) m s', Mach.onSlot z Store.dtor s1 ≠ (.thr m, s') := by
      intro z s1 m s' h
      rw [onSlot_apply] at h
      simp only [Prod.mk.injEq] at h
      have h := h.1
      unfold Store.dtor at h
      rw [M.bind_ok (self_apply _)] at h
      split at h
      · split at h
        · rw [M.bind_apply] at h
          unfold Store.heapM at h
          rw [M.zoom_apply] at h
          unfold Heap.delete at h
          simp only [] at h
          split at h <;> rename_i heq
          · simp [upd_apply] at h
          · simp only [Prod.mk.injEq] at heq
            split at heq
            · simp at heq
            · split at heq
              · simp at heq
              · split at heq <;> simp at heq
          · simp at h
        · simp at h
      · simp at h
    unfold Mach.destroy at hm
    rw [M.bind_apply] at hm
    rcases h1 : Mach.onSlot (y, true) Store.dtor s with ⟨o1, s1⟩
    rw [h1] at hm
    cases o1 with
    | ub k => simp at hm
    | thr m => exact hd _ _ _ _ h1
    | ok u =>
      simp only [] at hm
      rw [M.bind_ok (M.get_apply _)] at hm
      split at hm
      · rw [M.bind_apply] at hm
        rcases h2 : Mach.onSlot (y, false) Store.dtor s1 with ⟨o2, s2⟩
        rw [h2] at hm
        cases o2 with
        | ub k => simp at hm
        | thr m => exact hd _ _ _ _ h2
        | ok u => simp at hm
      · simp at hm

theorem ready_destroy {y : Nat} {s : Mach V} (R : ReadyS a x s) (hy : a = true → y ≠ x) :
    Kept (ReadyS a x) (Mach.destroy y s) := by
  by_cases hyx : y = x
  · have ha : a = false := by
      cases a with
      | false => rfl
      | true => exact absurd hyx (hy rfl)
    subst hyx
    exact ready_destroy_self ha
  · have hmod : ∀ s1, Ready a x s.bor s1 → ReadyS a x ({ s1 with
        st := fun z => if z.1 = y then {} else s1.st z
        bor := fun z => if z = y then false else s1.bor z } : Mach V) := by
      intro s1 R1
      have hxy : x ≠ y := fun h => hyx h.symm
      have hb : (if x = y then false else s1.bor x) = s.bor x := by
        rw [if_neg hxy, R1.bor]
      refine ⟨rfl, R1.lt, fun hc => ?_, fun hc => ?_⟩
      · simp only [hb] at hc
        simp only [hxy, if_false]
        exact R1.good hc
      · simp only [hb] at hc
        simp only [hxy, if_false]
        exact R1.ptr hc
    unfold Mach.destroy
    have h1 := MPres.onOther (a := a) (x := x) (bo := s.bor) (y := (y, true)) (m := Store.dtor) hyx
      s R
    rw [M.bind_apply]
    rcases hm1 : Mach.onSlot (y, true) Store.dtor s with ⟨o1, s1⟩
    rw [hm1] at h1
    cases o1 with
    | ub k => trivial
    | thr m => exact Ready.toS h1
    | ok u =>
      simp only []
      rw [M.bind_ok (M.get_apply _)]
      split
      · have h2 := MPres.onOther (a := a) (x := x) (bo := s.bor) (y := (y, false))
          (m := Store.dtor) hyx s1 h1
        rw [M.bind_apply]
        rcases hm2 : Mach.onSlot (y, false) Store.dtor s1 with ⟨o2, s2⟩
        rw [hm2] at h2
        cases o2 with
        | ub k => trivial
        | thr m => exact Ready.toS h2
        | ok u => exact hmod s2 h2
      · exact hmod s1 h1

theorem ready_bump {s : Mach V} (R : ReadyS a x s) : ReadyS a x s.bump :=
  ⟨rfl, fun h => Nat.lt_succ_of_lt (R.lt h), R.good, R.ptr⟩

theorem kept_thr {P : Mach V → Prop} {m : M (Mach V) Unit} {e : String} {s : Mach V}
    (h : Kept P (m s)) : Kept P ((m >>= fun _ => (M.lift (.thr e) : M (Mach V) Unit)) s) := by
  rw [M.bind_apply]
  rcases hd : m s with ⟨o, s2⟩
  rw [hd] at h
  cases o with
  | ok u => exact h
  | thr m => exact h
  | ub k => trivial

theorem ready_decl {body : Nat → M (Mach V) Unit} {s : Mach V} (R : ReadyS a x s)
    (hb : x ≠ s.n → Kept (ReadyS a x) (body s.n s.bump))
    (hn : x = s.n → ∀ s', body s.n s.bump = (.ok (), s') → ReadyS a x s') :
    Kept (ReadyS a x) (Mach.decl body s) := by
  have hxa : a = true → s.n ≠ x := fun h => Nat.ne_of_gt (R.lt h)
  rcases hm : body s.n s.bump with ⟨o, s'⟩
  rw [hm] at hb
  cases o with
  | ub k => rw [decl_ub hm]; trivial
  | ok u =>
    rw [decl_ok hm]
    by_cases hx : x = s.n
    · exact hn hx s' hm
    · exact hb hx
  | thr e =>
    rw [decl_thr hm]
    refine kept_thr ?_
    by_cases hx : x = s.n
    · have ha : a = false := by
        cases a with
        | false => rfl
        | true => exact absurd hx.symm (hxa rfl)
      rw [← hx]
      exact ready_destroy_self ha
    · exact ready_destroy (hb hx) hxa

theorem ready_withTmp {body : Nat → M (Mach V) Unit} {s : Mach V} (R : ReadyS a x s)
    (hb : Kept (ReadyS a x) (body s.n s.bump)) : Kept (ReadyS a x) (Mach.withTmp body s) := by
  have hxa : a = true → s.n ≠ x := fun h => Nat.ne_of_gt (R.lt h)
  rcases hm : body s.n s.bump with ⟨o, s'⟩
  rw [hm] at hb
  cases o with
  | ub k => rw [withTmp_ub hm]; trivial
  | ok u => rw [withTmp_ok hm]; exact ready_destroy hb hxa
  | thr e => rw [withTmp_thr hm]; exact kept_thr (ready_destroy hb hxa)

/-- A declaration whose body keeps `Ready`. -/
theorem ready_decl' {body : Nat → M (Mach V) Unit} {s : Mach V} (R : ReadyS a x s)
    (hb : ∀ bo, MPres (Ready a x bo) (body s.n)) : Kept (ReadyS a x) (Mach.decl body s) := by
  have := MPres.run hb (ready_bump R)
  refine ready_decl R (fun _ => this) (fun _ s' h => ?_)
  rw [h] at this
  exact this

theorem Pres.ctorSize {zero : V} {n : Nat} : Pres HasPtr (Store.ctorSize zero n) := by
  unfold Store.ctorSize
  exact Pres.bind (Pres.lift _) (fun c => Pres.bind (Pres.updPtr (fun _ => rfl)) (fun _ =>
    Pres.bind (Pres.ass _ _) (fun _ => Pres.bind (Pres.heapM _) (fun b => Pres.bind
    (Pres.upd (fun s _ => by simp [HasPtr])) (fun _ => Pres.bind (Pres.heapM _) (fun _ =>
    Pres.updPtr (fun _ => rfl)))))))

theorem Pres.ctorInt {zero : V} {n : Int} : Pres HasPtr (Store.ctorInt zero n) := by
  unfold Store.ctorInt
  exact Pres.bind (Pres.lift _) (fun c => Pres.bind (Pres.updPtr (fun _ => rfl)) (fun _ =>
    Pres.bind (Pres.ass _ _) (fun _ => Pres.bind (Pres.heapM _) (fun b => Pres.bind
    (Pres.upd (fun s _ => by simp [HasPtr])) (fun _ => Pres.bind (Pres.heapM _) (fun _ =>
    Pres.updPtr (fun _ => rfl)))))))

theorem Pres.copyCtor {o : Store} : Pres HasPtr (Store.copyCtor o : SM V Unit) := by
  unfold Store.copyCtor
  exact Pres.bind (Pres.updPtr (fun _ => rfl)) (fun _ => Pres.ite (Pres.bind (Pres.heapM _)
    (fun b => Pres.bind (Pres.upd (fun s _ => by simp [HasPtr])) (fun _ => Pres.heapM _)))
    (Pres.pure ()))

theorem Pres.borrowResize {n : Nat} : Pres HasPtr (Mach.borrowResize n : SM V Unit) := by
  unfold Mach.borrowResize
  exact Pres.bind (Pres.ass _ _) (fun _ => Pres.bind Pres.self (fun s => Pres.ite
    (Pres.updPtr (fun _ => rfl)) (Pres.lift _)))

theorem MPres.resize {zero : V} {y n : Nat} : MPres (Ready a x bo) (Mach.resize zero y n) := by
  unfold Mach.resize
  exact MPres.bind MPres.get (fun s => MPres.ite (fun _ => MPres.onD Pres.borrowResize)
    (fun _ => MPres.onD Pres.resizePtr))

theorem MPres.subSet {y : Nat} {ind : List Nat} {pos : Nat} {v : V} :
    MPres (Ready a x bo) (Mach.subSet y ind pos v) := by
  unfold Mach.subSet
  exact MPres.bind MPres.get (fun s => MPres.bind (MPres.lift _) (fun _ => MPres.bind (MPres.lift _)
    (fun _ => MPres.onD (Pres.set _ _))))

theorem MPres.subAssignBody {zero : V} {conv : V → Out V} {same : Bool} {y : Nat} {ind : List Nat}
    {e : Expr V} {t : Nat} : MPres (Ready a x bo) (subAssignBody zero conv same y ind e t) := by
  have hl : MPres (Ready a x bo) (M.forN ind.length (fun i => do
      let v ← M.reads (fun s : Mach V => (s.st (t, true)).get s.heap i)
      Mach.subSet y ind (i % ind.length) v)) :=
    MPres.forN _ (fun i => MPres.bind (MPres.reads _) (fun v => MPres.subSet))
  unfold Mach.subAssignBody
  refine MPres.bind MPres.get (fun s => MPres.bind (MPres.ass _ _) (fun _ => MPres.bind
    MPres.fillTemp (fun _ => MPres.bind MPres.get (fun s => MPres.ite (fun _ => ?_)
    (fun _ => ?_)))))
  · exact MPres.bind MPres.resize (fun _ => hl)
  · exact hl

theorem ready_declCopy {y : Nat} {s : Mach V} (I : Inv s) (R : ReadyS a x s) :
    Kept (ReadyS a x) (Mach.declCopy y s) := by
  unfold Mach.declCopy
  by_cases hby : s.bor y = true
  · set s1 : Mach V := { s.bump with
        st := fun z => if z = (s.n, false) then s.st (y, false) else s.st z
        bor := fun z => if z = s.n then true else s.bor z } with hs1
    have hrun : ∀ r, (do
        let s' ← M.get
        if s'.bor y then
          M.modify (fun s' => { s' with
            st := fun z => if z = (s.n, false) then s'.st (y, false) else s'.st z
            bor := fun z => if z = s.n then true else s'.bor z })
        else
          Mach.onSlot (s.n, false) (Store.copyCtor (s'.st (y, false)))
        Mach.onSlot (s.n, true) (Store.copyCtor (s'.st (y, true))) : M (Mach V) Unit) s.bump = r →
        Mach.onSlot (s.n, true) (Store.copyCtor (s.st (y, true))) s1 = r := by
      intro r h
      rw [← h, M.bind_ok (M.get_apply _), if_pos (show s.bump.bor y = true from hby),
        M.bind_ok (M.modify_apply _ _)]
      rfl
    refine ready_decl R (fun hx => ?_) (fun hx s' h => ?_)
    · rw [← hrun _ rfl]
      have R1 : ReadyS a x s1 := by
        have hb1 : s1.bor x = s.bor x := by simp [hs1, hx]
        refine ⟨rfl, fun h => Nat.lt_succ_of_lt (R.lt h), fun hc => ?_, fun hc => ?_⟩
        · rw [hb1] at hc
          have := R.good hc
          simpa [hs1] using this
        · rw [hb1] at hc
          have := R.ptr hc
          simpa [hs1, hx] using this
      exact MPres.run (fun bo => MPres.onOther (fun h => hx h.symm)) R1
    · have h1 := hrun _ h
      rw [onSlot_apply] at h1
      rcases hm : (Store.copyCtor (s.st (y, true)) : SM V Unit) (s1.heap, s1.st (s.n, true))
        with ⟨o, st'⟩
      rw [hm] at h1
      simp only [Prod.mk.injEq] at h1
      obtain ⟨rfl, rfl⟩ := h1
      have hg := copyCtor_good hm
      have ha : a = false := by
        cases a with
        | false => rfl
        | true => exact absurd hx (Nat.ne_of_lt (R.lt rfl))
      subst hx
      exact ⟨rfl, by simp [ha], fun _ => by rw [put_same]; exact hg, by simp [ha]⟩
  · have hrun : ∀ r, (do
        let s' ← M.get
        if s'.bor y then
          M.modify (fun s' => { s' with
            st := fun z => if z = (s.n, false) then s'.st (y, false) else s'.st z
            bor := fun z => if z = s.n then true else s'.bor z })
        else
          Mach.onSlot (s.n, false) (Store.copyCtor (s'.st (y, false)))
        Mach.onSlot (s.n, true) (Store.copyCtor (s'.st (y, true))) : M (Mach V) Unit) s.bump = r →
        (do
          Mach.onSlot (s.n, false) (Store.copyCtor (s.st (y, false)))
          Mach.onSlot (s.n, true) (Store.copyCtor (s.st (y, true))) : M (Mach V) Unit) s.bump = r := by
      intro r h
      rw [← h, M.bind_ok (M.get_apply _), if_neg (show ¬ s.bump.bor y = true from hby)]
      rfl
    refine ready_decl R (fun hx => ?_) (fun hx s' h => ?_)
    · rw [← hrun _ rfl]
      exact MPres.run (fun bo => MPres.bind (MPres.onOther (fun h => hx h.symm)) (fun _ =>
        MPres.onOther (fun h => hx h.symm))) (ready_bump R)
    · have h1 := hrun _ h
      have ha : a = false := by
        cases a with
        | false => rfl
        | true => exact absurd hx (Nat.ne_of_lt (R.lt rfl))
      subst hx
      have hf := (I.fresh s.n (le_refl _)).2.2
      have hp : ∀ (z : Slot) (o : Store), MPres (fun s1 : Mach V => s1.bor = s.bor)
          (Mach.onSlot z (Store.copyCtor o)) := by
        intro z o s1 hs1
        rw [onSlot_apply]
        rcases Store.copyCtor o (s1.heap, s1.st z) with ⟨o, st'⟩
        cases o <;> first | exact hs1 | trivial
      have := MPres.bind (hp (s.n, false) (s.st (y, false))) (fun _ => hp (s.n, true)
        (s.st (y, true))) s.bump rfl
      rw [h1] at this
      exact Ready.triv ha (by rw [show s'.bor = s.bor from this]; exact hf)

/-- Every operation but the destruction of `x` keeps `Ready`. -/
theorem exec_ready {zero : V} {c : Cmd V} {s : Mach V} (I : Inv s) (hal : s.Allowed c)
    (hd : a = true → c ≠ .destroy x) (R : ReadyS a x s) : Kept (ReadyS a x) (exec zero c s) := by
  cases c with
  | callerArray l => exact ⟨rfl, R.lt, R.good, R.ptr⟩
  | declDefault =>
    unfold exec Mach.declDefault
    exact ready_decl' R (fun bo => MPres.pure ())
  | declSize n =>
    unfold exec Mach.declSize
    exact ready_decl' R (fun bo => MPres.onD Pres.ctorSize)
  | declScalar v =>
    unfold exec Mach.declScalar
    
    exact ready_decl' R (fun bo => MPres.bind (MPres.onD Pres.ctorInt) (fun _ =>
      MPres.onD (Pres.set _ _)))
  | declMat r c =>
    unfold exec Mach.declMat
    
    exact ready_decl' R (fun bo => MPres.bind (MPres.onD Pres.ctorSize) (fun _ =>
      MPres.onD (Pres.updPtr (fun _ => rfl))))
  | declMatVal r c v =>
    unfold exec Mach.declMatVal
    
    exact ready_decl' R (fun bo => MPres.bind (MPres.onD Pres.ctorSize) (fun _ =>
      MPres.bind (MPres.onD (Pres.updPtr (fun _ => rfl))) (fun _ => MPres.onD (Pres.fillScalar _))))
  | declCopy y => exact ready_declCopy I R
  | declExpr conv e =>
    unfold exec Mach.declExpr
    
    refine ready_decl' R (fun bo => MPres.bind MPres.get (fun s1 => ?_))
    have hl : MPres (Ready a x bo) (do
        let s' ← M.get
        M.forN (s'.st (s.n, false)).sz (fun i => do
          let v ← M.reads (fun s => e.el s.env i)
          let w ← M.lift (conv v)
          Mach.onSlot (s.n, false) (Store.set i w))
        Mach.setDims s.n e : M (Mach V) Unit) :=
      MPres.bind MPres.get (fun s' => MPres.bind (MPres.forN _ (fun i => MPres.bind (MPres.reads _)
        (fun v => MPres.bind (MPres.lift _) (fun w => MPres.onD (Pres.set _ _)))))
        (fun _ => MPres.setDims))
    refine MPres.ite (fun _ => ?_) (fun _ => ?_)
    · exact MPres.bind (MPres.onD Pres.resizePtr) (fun _ => hl)
    · exact MPres.bind (MPres.onD (Pres.updPtr (fun _ => rfl))) (fun _ => hl)
  | declTemp l mp =>
    unfold exec Mach.declTemp
    
    refine ready_withTmp R ?_
    have h1 : ∀ bo, MPres (Ready a x bo) (makeTemp zero l mp s.n) := fun bo =>
      MPres.bind (MPres.onD Pres.ctorSize) (fun _ => MPres.bind (MPres.forN _ (fun i =>
        MPres.bind (MPres.lift _) (fun v => MPres.onD (Pres.set _ _)))) (fun _ =>
        MPres.onD (Pres.updPtr (fun _ => rfl))))
    have hn : ∀ s1 : Mach V, s1.n = s.n + 1 → ReadyS a x s1 →
        Kept (ReadyS a x) (Mach.decl (fun y => stealTemp s.n y) s1) := by
      intro s1 hn R1
      have key : ∀ s', stealTemp s.n s1.n s1.bump = (.ok (), s') → ReadyS a x s' := by
        intro s' h
        unfold stealTemp at h
        simp only [M.modify_apply, Prod.mk.injEq, true_and] at h
        rw [← h]
        refine ⟨rfl, fun h => Nat.lt_succ_of_lt (R1.lt h), fun hc => ?_, fun hc => ?_⟩
        · simpa [Mach.bump] using R1.good hc
        · have hx := R.lt hc.2
          have e1 : x ≠ s.n := by omega
          have e2 : x ≠ s1.n := by omega
          simpa [e1, e2, Mach.bump] using R1.ptr hc
      refine ready_decl R1 (fun _ => ?_) (fun _ => key)
      exact key _ rfl
    have hnn : MPres (fun s1 : Mach V => s1.n = s.n + 1) (makeTemp zero l mp s.n) := by
      have ho : ∀ {α : Type} (m : SM V α) , MPres (fun s1 : Mach V => s1.n = s.n + 1)
          (Mach.onSlot (s.n, false) m) := by
        intro α m s1 hs1
        rw [onSlot_apply]
        rcases m (s1.heap, s1.st (s.n, false)) with ⟨o, st'⟩
        cases o <;> first | exact hs1 | trivial
      exact MPres.bind (ho _) (fun _ => MPres.bind (MPres.forN _ (fun i =>
        MPres.bind (MPres.lift _) (fun v => ho _))) (fun _ => ho _))
    have k1 := MPres.run h1 (ready_bump R)
    have k2 := hnn s.bump rfl
    show Kept (ReadyS a x) ((makeTemp zero l mp s.n >>= fun _ =>
      Mach.decl (fun y => stealTemp s.n y)) s.bump)
    rw [M.bind_apply]
    rcases hm : makeTemp zero l mp s.n s.bump with ⟨o, s1⟩
    rw [hm] at k1 k2
    cases o with
    | ub k => trivial
    | thr e => exact k1
    | ok u => exact hn s1 k2 k1
  | declPtr p n =>
    unfold exec Mach.declPtr
    
    exact ready_decl' R (fun bo => MPres.bind (MPres.onD Pres.ctorSize) (fun _ => MPres.bind
      (MPres.forN _ (fun i => MPres.bind (MPres.reads _) (fun v => MPres.onD (Pres.set _ _))))
      (fun _ => MPres.onD (Pres.updPtr (fun _ => rfl)))))
  | declBorrow p n =>
    unfold exec Mach.declBorrow
    
    have hf := I.fresh s.n (le_refl _)
    have key : ReadyS a x ({ s.bump with
        st := fun z => if z = (s.n, false) then
          { p := p, sz := n, capacity := n, allocated := true } else s.st z
        bor := fun z => if z = s.n then true else s.bor z } : Mach V) := by
      refine ⟨rfl, fun h => Nat.lt_succ_of_lt (R.lt h), fun hc => ?_, fun hc => ?_⟩
      · simp only [] at hc ⊢
        by_cases hx : x = s.n
        · subst hx
          simp only [Prod.mk.injEq, Bool.true_eq_false, and_false, if_false]
          rw [hf.2.1]; intro h; simp at h
        · rw [if_neg hx] at hc
          simpa using R.good hc
      · have hx : x ≠ s.n := Nat.ne_of_lt (R.lt hc.2)
        simp only [hx, if_false] at hc
        simpa [hx] using R.ptr hc
    refine ready_decl R (fun _ => key) (fun _ s' h => ?_)
    simp only [M.modify_apply, Prod.mk.injEq, true_and] at h
    rw [← h]
    exact key
  | assign conv y e =>
    exact kept_mono (pres_assign I hal.2.2.2 R) (fun _ h => Ready.toS h)
  | assignScalar y v =>
    refine MPres.run (fun bo => ?_) R
    refine MPres.bind MPres.get (fun s => MPres.ite (fun _ => ?_) (fun _ => ?_))
    · exact MPres.bind (MPres.onD (Pres.updPtr (fun _ => rfl))) (fun _ => MPres.onD (Pres.set _ _))
    · exact MPres.bind (MPres.onD Pres.resizePtr) (fun _ => MPres.onD (Pres.set _ _))
  | subAssign conv same y ind e =>
    exact ready_withTmp R (MPres.run (fun bo => MPres.subAssignBody) (ready_bump R))
  | subAssignScalar y ind v =>
    exact MPres.run (fun bo => MPres.forN _ (fun i => MPres.subSet)) R
  | setElem y i v => exact MPres.run (fun bo => MPres.setElem) R
  | resize y n => exact MPres.run (fun bo => MPres.resize) R
  | fill y v => exact MPres.run (fun bo => MPres.onD (Pres.fillScalar _)) R
  | fillVec y z => exact MPres.run (fun bo => MPres.bind MPres.get (fun s =>
      MPres.onD (Pres.fillVec _))) R
  | pushBack y v => exact MPres.run (fun bo => MPres.onD Pres.pushBack) R
  | storeAssign y z => exact MPres.run (fun bo => MPres.bind MPres.get (fun s =>
      MPres.onD Pres.assign)) R
  | destroy y => exact ready_destroy R (fun h hy => hd h (by rw [hy]))

/-- The same for histories. -/
theorem runAll_ready {zero : V} : ∀ (cs : List (Cmd V)) (s : Mach V), Inv s →
    AllowedAll zero cs s → (a = true → Cmd.destroy x ∉ cs) → ReadyS a x s → ∀ s',
    runAll zero cs s = (none, s') → ReadyS a x s' := by
  intro cs
  induction cs with
  | nil => intro s _ _ _ R s' h; simp only [runAll, Prod.mk.injEq, true_and] at h; rw [← h]; exact R
  | cons c cs ih =>
    intro s I hal hd R s' h
    have h1 := exec_ready (zero := zero) I hal.1 (fun h hc => hd h (by simp [hc])) R
    have h2 := exec_safe (zero := zero) I hal.1 s rfl
    have h3 := hal.2
    rw [runAll] at h
    rcases hm : exec zero c s with ⟨o, s1⟩
    rw [hm] at h h1 h2 h3
    cases o with
    | ub k => simp at h
    | ok u => exact ih s1 h2 h3 (fun h hc => hd h (by simp [hc])) h1 s' h
    | thr e => exact ih s1 h2 h3 (fun h hc => hd h (by simp [hc])) h1 s' h

/-! ### New objects -/

/-- The `temp` member of `x` is usable. -/
def GT (x : Nat) (s : Mach V) : Prop := Good (s.st (x, true))

theorem MPres.onDG {y : Nat} {m : SM V α} : MPres (GT x) (Mach.onSlot (y, false) m) := by
  intro s h
  rw [onSlot_apply]
  rcases m (s.heap, s.st (y, false)) with ⟨o, st'⟩
  have : GT x (s.put (y, false) st') := by unfold GT; rw [put_ne _ _ (by simp)]; exact h
  cases o <;> first | exact this | trivial

theorem MPres.setDimsG {y : Nat} {e : Expr V} : MPres (GT x) (Mach.setDims y e) := by
  unfold Mach.setDims
  exact MPres.bind MPres.get (fun s => MPres.ite (fun _ => MPres.bind (MPres.lift _) (fun r =>
    MPres.bind (MPres.lift _) (fun c => MPres.onDG))) (fun _ => MPres.pure ()))

theorem kept_ok {σ : Type} {P : σ → Prop} {r : Out α × σ} {v : α} {s : σ} (h : Kept P r)
    (e : r = (.ok v, s)) : P s := by subst e; exact h

theorem declG {body : Nat → M (Mach V) Unit} {s s' : Mach V} (I : Inv s)
    (hb : MPres (GT s.n) (body s.n)) (h : Mach.decl body s = (.ok (), s')) : GT s.n s' := by
  have h0 : GT s.n s.bump := by
    have := (I.fresh s.n (le_refl _)).2.1
    show Good (s.st (s.n, true))
    rw [this]; intro h; simp at h
  have h1 := hb s.bump h0
  rcases hm : body s.n s.bump with ⟨o, s1⟩
  rw [hm] at h1
  cases o with
  | ub k => rw [decl_ub hm] at h; simp at h
  | ok u =>
    rw [decl_ok hm] at h
    simp only [Prod.mk.injEq, true_and] at h
    rw [← h]; exact h1
  | thr e =>
    rw [decl_thr hm, M.bind_apply] at h
    rcases hd : Mach.destroy s.n s1 with ⟨o, s2⟩
    rw [hd] at h
    cases o <;> simp at h

end Mach

/-- The command is a declaration. -/
def Cmd.isDecl : Cmd V → Bool
  | .declDefault | .declSize _ | .declScalar _ | .declMat _ _ | .declMatVal _ _ _ | .declCopy _
  | .declExpr _ _ | .declTemp _ _ | .declPtr _ _ | .declBorrow _ _ => true
  | _ => false

namespace Mach

/-- The identifier of the vector that a declaration creates (the temporary of `declTemp` takes the
one before it). -/
def newId (s : Mach V) : Cmd V → Nat
  | .declTemp _ _ => s.n + 1
  | _ => s.n

open Store

variable {α : Type} {x : Nat}

theorem MPres.onOtherG {y : Slot} {m : SM V α} (h : y.1 ≠ x) :
    MPres (GT x) (Mach.onSlot y m) := by
  intro s hs
  rw [onSlot_apply]
  rcases m (s.heap, s.st y) with ⟨o, st'⟩
  have : GT x (s.put y st') := by
    unfold GT; rw [put_ne _ _ (by rintro rfl; exact h rfl)]; exact hs
  cases o <;> first | exact this | trivial

theorem MPres.destroyG {y : Nat} (h : y ≠ x) : MPres (GT x) (Mach.destroy y : M (Mach V) Unit) := by
  have hm : MPres (GT x) (M.modify (fun s => { s with
      st := fun z => if z.1 = y then {} else s.st z
      bor := fun z => if z = y then false else s.bor z }) : M (Mach V) Unit) := by
    intro s hs
    show Good (if (x, true).1 = y then {} else s.st (x, true))
    rw [if_neg (fun hxy => h hxy.symm)]
    exact hs
  unfold Mach.destroy
  refine MPres.bind (MPres.onOtherG h) (fun _ => MPres.bind MPres.get (fun s => MPres.ite
    (fun _ => ?_) (fun _ => ?_)))
  · exact MPres.bind (MPres.onOtherG h) (fun _ => hm)
  · exact hm

theorem declTempG {zero : V} {l : List V} {mp : MP} {s s' : Mach V} (I : Inv s)
    (h : Mach.declTemp zero l mp s = (.ok (), s')) : GT (s.n + 1) s' := by
  have h0 : GT (s.n + 1) s.bump := by
    have := (I.fresh (s.n + 1) (by omega)).2.1
    show Good (s.st (s.n + 1, true))
    rw [this]; intro h; simp at h
  have hmk : MPres (GT (s.n + 1)) (makeTemp zero l mp s.n) :=
    MPres.bind MPres.onDG (fun _ => MPres.bind (MPres.forN _ (fun i =>
      MPres.bind (MPres.lift _) (fun v => MPres.onDG))) (fun _ => MPres.onDG))
  have hst : MPres (GT (s.n + 1)) (Mach.decl (fun y => stealTemp s.n y) : M (Mach V) Unit) := by
    intro s1 h1
    rw [decl_ok (s' := (stealTemp s.n s1.n s1.bump).2) (a := ()) rfl]
    show Good ((stealTemp s.n s1.n s1.bump).2.st (s.n + 1, true))
    simpa [stealTemp, Mach.bump, GT] using h1
  have hb := MPres.bind hmk (fun _ => hst) s.bump h0
  unfold Mach.declTemp at h
  rcases hm : (makeTemp zero l mp s.n >>= fun _ => Mach.decl (fun y => stealTemp s.n y)) s.bump
    with ⟨o, s1⟩
  rw [hm] at hb
  cases o with
  | ub k => rw [withTmp_ub (by exact hm)] at h; simp at h
  | thr e =>
    rw [withTmp_thr (by exact hm), M.bind_apply] at h
    rcases hd : Mach.destroy s.n s1 with ⟨o, s2⟩
    rw [hd] at h
    cases o <;> simp at h
  | ok u =>
    rw [withTmp_ok (by exact hm)] at h
    have := MPres.destroyG (x := s.n + 1) (y := s.n) (by omega) s1 hb
    rw [h] at this
    exact this

theorem declCopyG {y : Nat} {s s' : Mach V} (h : Mach.declCopy y s = (.ok (), s')) :
    GT s.n s' := by
  unfold Mach.declCopy at h
  rcases hm : (do
        let s' ← M.get
        if s'.bor y then
          M.modify (fun s' => { s' with
            st := fun z => if z = (s.n, false) then s'.st (y, false) else s'.st z
            bor := fun z => if z = s.n then true else s'.bor z })
        else
          Mach.onSlot (s.n, false) (Store.copyCtor (s'.st (y, false)))
        Mach.onSlot (s.n, true) (Store.copyCtor (s'.st (y, true))) : M (Mach V) Unit) s.bump
    with ⟨o, s1⟩
  have hl : ∀ s2 : Mach V, ∀ s3, Mach.onSlot (s.n, true) (Store.copyCtor (s.st (y, true))) s2
      = (.ok (), s3) → GT s.n s3 := by
    intro s2 s3 h1
    rw [onSlot_apply] at h1
    rcases hc : (Store.copyCtor (s.st (y, true)) : SM V Unit) (s2.heap, s2.st (s.n, true))
      with ⟨o, st'⟩
    rw [hc] at h1
    simp only [Prod.mk.injEq] at h1
    obtain ⟨rfl, rfl⟩ := h1
    unfold GT
    rw [put_same]
    exact copyCtor_good hc
  cases o with
  | ub k => rw [decl_ub (by exact hm)] at h; simp at h
  | thr e =>
    rw [decl_thr (by exact hm), M.bind_apply] at h
    rcases hd : Mach.destroy s.n s1 with ⟨o, s2⟩
    rw [hd] at h
    cases o <;> simp at h
  | ok u =>
    rw [decl_ok (by exact hm)] at h
    simp only [Prod.mk.injEq, true_and] at h
    subst h
    rw [M.bind_ok (M.get_apply _)] at hm
    split at hm
    · rw [M.bind_ok (M.modify_apply _ _)] at hm
      exact hl _ _ hm
    · rw [M.bind_apply] at hm
      rcases hc : Mach.onSlot (s.n, false) (Store.copyCtor (s.bump.st (y, false))) s.bump
        with ⟨o, s2⟩
      rw [hc] at hm
      cases o with
      | ok u => exact hl _ _ hm
      | thr e => simp at hm
      | ub k => simp at hm

/-- A new vector that is not empty can be assigned to. -/
theorem decl_ready {zero : V} {c : Cmd V} {s s' : Mach V} (I : Inv s) (hal : s.Allowed c)
    (hc : c.isDecl = true) (h : exec zero c s = (.ok (), s')) (hb : s'.bor (s.newId c) = false)
    (hne : 1 ≤ s'.env.size (s.newId c)) : ReadyS true (s.newId c) s' := by
  have I' : Inv s' := by
    have := exec_safe (zero := zero) I hal s rfl
    rw [h] at this; exact this
  have hG : GT (s.newId c) s' := by
    cases c with
    | declDefault =>
      replace h : Mach.declDefault s = _ := h
      unfold Mach.declDefault at h
      refine declG I ?_ h
      exact MPres.pure ()
    | declSize n =>
      replace h : Mach.declSize zero n s = _ := h
      unfold Mach.declSize at h
      refine declG I ?_ h
      exact MPres.onDG
    | declScalar v =>
      replace h : Mach.declScalar zero v s = _ := h
      unfold Mach.declScalar at h
      refine declG I ?_ h
      exact MPres.bind MPres.onDG (fun _ => MPres.onDG)
    | declMat r c =>
      replace h : Mach.declMat zero r c s = _ := h
      unfold Mach.declMat at h
      refine declG I ?_ h
      exact MPres.bind MPres.onDG (fun _ => MPres.onDG)
    | declMatVal r c v =>
      replace h : Mach.declMatVal zero r c v s = _ := h
      unfold Mach.declMatVal at h
      refine declG I ?_ h
      exact MPres.bind MPres.onDG (fun _ => MPres.bind MPres.onDG (fun _ => MPres.onDG))
    | declCopy y => exact declCopyG h
    | declExpr conv e =>
      replace h : Mach.declExpr zero conv e s = _ := h
      unfold Mach.declExpr at h
      refine declG I ?_ h
      have hl : MPres (GT s.n) (do
          let s' ← M.get
          M.forN (s'.st (s.n, false)).sz (fun i => do
            let v ← M.reads (fun s => e.el s.env i)
            let w ← M.lift (conv v)
            Mach.onSlot (s.n, false) (Store.set i w))
          Mach.setDims s.n e : M (Mach V) Unit) :=
        MPres.bind MPres.get (fun s' => MPres.bind (MPres.forN _ (fun i => MPres.bind
          (MPres.reads _) (fun v => MPres.bind (MPres.lift _) (fun w => MPres.onDG))))
          (fun _ => MPres.setDimsG))
      exact MPres.bind MPres.get (fun s1 => MPres.ite (fun _ => MPres.bind MPres.onDG (fun _ => hl))
        (fun _ => MPres.bind MPres.onDG (fun _ => hl)))
    | declTemp l mp => exact declTempG I h
    | declPtr p n =>
      replace h : Mach.declPtr zero p n s = _ := h
      unfold Mach.declPtr at h
      refine declG I ?_ h
      exact MPres.bind MPres.onDG (fun _ => MPres.bind (MPres.forN _ (fun i =>
        MPres.bind (MPres.reads _) (fun v => MPres.onDG))) (fun _ => MPres.onDG))
    | declBorrow p n =>
      replace h : Mach.declBorrow p n s = _ := h
      unfold Mach.declBorrow at h
      refine declG I ?_ h
      intro s1 h1
      show Good (if ((s.n, true) : Slot) = (s.n, false) then _ else s1.st (s.n, true))
      rw [if_neg (by simp)]; exact h1
    | callerArray l => simp [Cmd.isDecl] at hc
    | assign conv y e => simp [Cmd.isDecl] at hc
    | assignScalar y v => simp [Cmd.isDecl] at hc
    | subAssign conv same y ind e => simp [Cmd.isDecl] at hc
    | subAssignScalar y ind v => simp [Cmd.isDecl] at hc
    | setElem y i v => simp [Cmd.isDecl] at hc
    | resize y n => simp [Cmd.isDecl] at hc
    | fill y v => simp [Cmd.isDecl] at hc
    | fillVec y z => simp [Cmd.isDecl] at hc
    | pushBack y v => simp [Cmd.isDecl] at hc
    | storeAssign y z => simp [Cmd.isDecl] at hc
    | destroy y => simp [Cmd.isDecl] at hc
  refine ⟨rfl, fun _ => ?_, fun _ => hG, fun _ hp => ?_⟩
  · by_contra hlt
    have := (I'.fresh _ (Nat.le_of_not_lt hlt)).1
    simp only [Mach.env, this] at hne
    omega
  · have := (I'.d _ hb).wf.null hp
    simp only [Mach.env] at hne
    omega

end Mach
end ETR
