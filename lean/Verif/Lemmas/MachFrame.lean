import Verif.Lemmas.MachBor

/-! What an operation leaves alone: cells of memory blocks that no vector reaches, and the vectors
that are not the target of the operation. -/

namespace ETR
variable {V : Type}

/-- The operation keeps a property, also when it throws. -/
def KP {σ α : Type} (P : σ → Prop) (m : M σ α) : Prop := ∀ s, P s → Kept P (m s)

section generic
variable {σ α β : Type} {P : σ → Prop}

theorem KP.bind {m : M σ α} {f : α → M σ β} (h1 : KP P m) (h2 : ∀ a, KP P (f a)) :
    KP P (m >>= f) := by
  intro st hs
  have := h1 st hs
  rw [M.bind_apply]
  rcases hm : m st with ⟨o, st'⟩
  rw [hm] at this
  cases o with
  | ok a => exact h2 a st' this
  | thr e => exact this
  | ub k => trivial

theorem KP.pure (a : α) : KP P (Pure.pure a : M σ α) := fun _ hs => hs
theorem KP.lift (o : Out α) : KP P (M.lift o : M σ α) := by
  intro st hs; rw [M.lift_apply]; cases o <;> first | exact hs | trivial
theorem KP.ass (c : Prop) [Decidable c] (m : String) : KP P (M.ass c m : M σ Unit) := KP.lift _
theorem KP.assB {c : Prop} [Decidable c] {m : String} {f : Unit → M σ β} (h : c → KP P (f ())) :
    KP P (M.ass c m >>= f) := by
  intro s hs
  by_cases hc : c
  · rw [M.bind_ok (M.ass_pos hc _)]; exact h hc s hs
  · rw [M.bind_thr (M.ass_neg hc _)]; exact hs
theorem KP.reads (f : σ → Out α) : KP P (M.reads f) := by
  intro st hs; rw [M.reads_apply]; cases f st <;> first | exact hs | trivial
theorem KP.getB {f : σ → M σ β} (h : ∀ s, P s → KP P (f s)) : KP P (M.get >>= f) :=
  fun s hs => h s hs s hs
theorem KP.modify {f : σ → σ} (h : ∀ s, P s → P (f s)) : KP P (M.modify f) := fun s hs => h s hs
theorem KP.forN {f : Nat → M σ Unit} (n : Nat) (h : ∀ i, i < n → KP P (f i)) :
    KP P (M.forN n f) := by
  induction n with
  | zero => exact KP.pure ()
  | succ n ih => exact KP.bind (ih (fun i hi => h i (by omega))) (fun _ => h n (by omega))
theorem KP.ite {c : Prop} [Decidable c] {m m' : M σ α} (h1 : c → KP P m)
    (h2 : ¬ c → KP P m') : KP P (if c then m else m') := by
  split
  · exact h1 (by assumption)
  · exact h2 (by assumption)

end generic

/-! ### Heap -/

/-- Cell `j` and the shape of block `b` are as in `B`. -/
structure CellOK (b j : Nat) (B : Block V) (h : Heap V) : Prop where
  lt : b < h.next
  cell : (h.blk b).cell j = B.cell j
  live : (h.blk b).live = B.live
  newed : (h.blk b).newed = B.newed
  len : (h.blk b).len = B.len

namespace Heap
variable {b j : Nat} {B : Block V}

theorem _root_.ETR.CellOK.setBlk {h : Heap V} (k : CellOK b j B h) {c : Nat} {x : Block V}
    (hc : c ≠ b) : CellOK b j B (h.setBlk c x) := by
  have e : (h.setBlk c x).blk b = h.blk b := by simp [Heap.setBlk, Ne.symm hc]
  exact ⟨k.lt, by rw [e]; exact k.cell, by rw [e]; exact k.live, by rw [e]; exact k.newed,
    by rw [e]; exact k.len⟩

theorem new_keeps {n : Nat} {h : Heap V} (k : CellOK b j B h) :
    Kept (CellOK b j B) (Heap.new n h) ∧ ∀ c h', Heap.new n h = (.ok c, h') → c ≠ b := by
  have key : ∀ sch, CellOK b j B { h.setBlk h.next ⟨n, fun _ => none, true, true⟩ with
      next := h.next + 1, sched := sch } := by
    intro sch
    have := k.setBlk (c := h.next) (x := ⟨n, fun _ => none, true, true⟩) (Nat.ne_of_gt k.lt)
    exact ⟨Nat.lt_succ_of_lt k.lt, this.cell, this.live, this.newed, this.len⟩
  unfold Heap.new
  split
  · exact ⟨k, by simp⟩
  · split
    · exact ⟨⟨k.lt, k.cell, k.live, k.newed, k.len⟩, by simp⟩
    · refine ⟨key _, fun c h' e => ?_⟩
      simp only [Prod.mk.injEq, Out.ok.injEq] at e
      rw [← e.1]; exact Nat.ne_of_gt k.lt

theorem delete_keeps {p : Ptr} (hp : p ≠ some b) : KP (CellOK b j B) (Heap.delete p) := by
  intro h k
  unfold Heap.delete
  split
  · exact k
  · rename_i c
    split
    · trivial
    · split
      · trivial
      · exact k.setBlk (by rintro rfl; exact hp rfl)

theorem putCell_keeps {p : Ptr} {i : Nat} {v : Option V} (hp : p ≠ some b ∨ i ≠ j) :
    KP (CellOK b j B) (Heap.putCell p i v) := by
  intro h k
  unfold Heap.putCell
  split
  · trivial
  · rename_i c
    split
    · trivial
    · split
      · trivial
      · by_cases hc : c = b
        · subst hc
          have hij : j ≠ i := by
            rcases hp with h | h
            · exact absurd rfl h
            · exact fun e => h e.symm
          refine ⟨k.lt, ?_, ?_, ?_, ?_⟩ <;> simp only [Heap.setBlk, if_true]
          · rw [if_neg hij]; exact k.cell
          · exact k.live
          · exact k.newed
          · exact k.len
        · exact k.setBlk hc

theorem fillRange_keeps {p : Ptr} {n : Nat} {v : V} (hp : p ≠ some b ∨ n ≤ j) :
    KP (CellOK b j B) (Heap.fillRange p n v) :=
  KP.forN _ (fun i hi => putCell_keeps (hp.imp id (fun h => by omega)))

theorem copyRange_keeps {src p : Ptr} {n : Nat} (hp : p ≠ some b ∨ n ≤ j) :
    KP (CellOK b j B) (Heap.copyRange src n p) :=
  KP.forN _ (fun i hi => KP.bind (KP.reads _) (fun _ =>
    putCell_keeps (hp.imp id (fun h => by omega))))

end Heap

/-! ### Store -/

namespace Store
variable {b j : Nat} {B : Block V} {α β : Type}

/-- State of a store that has nothing to do with block `b`. -/
def RA (b j : Nat) (B : Block V) (st : Heap V × Store) : Prop :=
  CellOK b j B st.1 ∧ st.2.p ≠ some b

/-- A borrowed range does not reach cell `j` of block `b`. -/
def CB (b j : Nat) (s : Store) : Prop :=
  s.p = some b → 1 ≤ s.capacity ∧ s.sz ≤ s.capacity ∧ s.capacity ≤ j

def RB (b j : Nat) (B : Block V) (st : Heap V × Store) : Prop :=
  CellOK b j B st.1 ∧ CB b j st.2

theorem KP.heapA {m : M (Heap V) α} (h : KP (CellOK b j B) m) : KP (RA b j B) (heapM m) := by
  intro st hs
  show Kept _ (((m st.1).1, ((m st.1).2, st.2)))
  have := h st.1 hs.1
  rcases hm : m st.1 with ⟨o, h'⟩
  rw [hm] at this
  cases o <;> first | exact ⟨this, hs.2⟩ | trivial

theorem KP.heapB {m : M (Heap V) α} (h : KP (CellOK b j B) m) : KP (RB b j B) (heapM m) := by
  intro st hs
  show Kept _ (((m st.1).1, ((m st.1).2, st.2)))
  have := h st.1 hs.1
  rcases hm : m st.1 with ⟨o, h'⟩
  rw [hm] at this
  cases o <;> first | exact ⟨this, hs.2⟩ | trivial

theorem KP.newB {n : Nat} {f : Nat → SM V β} (h : ∀ c, c ≠ b → KP (RA b j B) (f c)) :
    KP (RA b j B) (heapM (Heap.new n) >>= f) := by
  intro st hs
  obtain ⟨h1, h2⟩ := Heap.new_keeps (n := n) hs.1
  have hm : (heapM (Heap.new n) : SM V Nat) st = ((Heap.new n st.1).1, ((Heap.new n st.1).2, st.2)) :=
    rfl
  rw [M.bind_apply, hm]
  rcases hn : Heap.new n st.1 with ⟨o, h'⟩
  rw [hn] at h1 h2
  cases o with
  | ok c => exact h c (h2 c h' rfl) _ ⟨h1, hs.2⟩
  | thr e => exact ⟨h1, hs.2⟩
  | ub k => trivial

theorem KP.selfA {f : Store → SM V β} (h : ∀ s : Store, s.p ≠ some b → KP (RA b j B) (f s)) :
    KP (RA b j B) (Store.self >>= f) := by
  intro st hs
  rw [M.bind_ok (self_apply _)]
  exact h st.2 hs.2 st hs

theorem KP.selfB {f : Store → SM V β} (h : ∀ s : Store, CB b j s → KP (RB b j B) (f s)) :
    KP (RB b j B) (Store.self >>= f) := by
  intro st hs
  rw [M.bind_ok (self_apply _)]
  exact h st.2 hs.2 st hs

theorem KP.updA {f : Store → Store} (h : ∀ s : Store, s.p ≠ some b → (f s).p ≠ some b) :
    KP (RA b j B) (Store.upd f : SM V Unit) := fun _ hs => ⟨hs.1, h _ hs.2⟩

theorem KP.updB {f : Store → Store} (h : ∀ s : Store, CB b j s → CB b j (f s)) :
    KP (RB b j B) (Store.upd f : SM V Unit) := fun _ hs => ⟨hs.1, h _ hs.2⟩

theorem KP.setA {i : Nat} {v : V} : KP (RA b j B) (Store.set i v) :=
  KP.selfA (fun _ hs => KP.bind (KP.lift _) (fun _ => KP.heapA (Heap.putCell_keeps (Or.inl hs))))

theorem KP.setB {i : Nat} {v : V} : KP (RB b j B) (Store.set i v) := by
  refine KP.selfB (fun s hs => ?_)
  intro st hst
  by_cases hi : i < s.sz
  · refine KP.bind (KP.lift _) (fun _ => KP.heapB (Heap.putCell_keeps ?_)) st hst
    by_cases hp : s.p = some b
    · obtain ⟨_, h2, h3⟩ := hs hp
      exact Or.inr (by omega)
    · exact Or.inl hp
  · have : ∃ m, s.checkIdx i = .thr m := by
      unfold checkIdx
      by_cases ha : s.allocated = true
      · exact ⟨"Error: out of boundaries --> value beyond size of vector", by
          rw [Out.ass_pos ha]; exact Out.ass_neg hi⟩
      · exact ⟨"No memory was allocated", by rw [Out.ass_neg ha]; rfl⟩
    obtain ⟨m, hm⟩ := this
    rw [hm]
    exact hst

theorem KP.fillA {v : V} : KP (RA b j B) (Store.fillScalar v) :=
  KP.selfA (fun _ hs => KP.heapA (Heap.fillRange_keeps (Or.inl hs)))

theorem reach_or {s : Store} (h : CB b j s) : s.p ≠ some b ∨ s.sz ≤ j := by
  by_cases hp : s.p = some b
  · obtain ⟨_, h2, h3⟩ := h hp
    exact Or.inr (by omega)
  · exact Or.inl hp

theorem KP.fillB {v : V} : KP (RB b j B) (Store.fillScalar v) :=
  KP.selfB (fun _ hs => KP.heapB (Heap.fillRange_keeps (reach_or hs)))

theorem KP.fillVecA {o : Store} : KP (RA b j B) (Store.fillVec o : SM V Unit) :=
  KP.selfA (fun _ hs => KP.bind (KP.ass _ _) (fun _ =>
    KP.forN _ (fun _ _ => KP.bind (KP.reads _) (fun _ => KP.heapA (Heap.putCell_keeps (Or.inl hs))))))

theorem KP.fillVecB {o : Store} : KP (RB b j B) (Store.fillVec o : SM V Unit) :=
  KP.selfB (fun _ hs => KP.bind (KP.ass _ _) (fun _ =>
    KP.forN _ (fun i hi => KP.bind (KP.reads _) (fun _ => KP.heapB (Heap.putCell_keeps ((reach_or hs).imp id (fun h => by omega)))))))

theorem KP.setPtr {c : Nat} (hc : c ≠ b) {f : Store → Store} (hf : ∀ s, (f s).p = some c) :
    KP (RA b j B) (Store.upd f : SM V Unit) :=
  KP.updA (fun s _ => by rw [hf]; simpa using hc)

theorem KP.initA {n : Nat} : KP (RA b j B) (Store.init n : SM V Unit) := by
  have hr : KP (RA b j B) (do
      Store.upd (fun s => { s with sz := n })
      let c ← M.lift (capOf n)
      Store.upd (fun s => { s with capacity := c })
      let b ← heapM (Heap.new c)
      Store.upd (fun s => { s with p := some b, allocated := true }) : SM V Unit) :=
    KP.bind (KP.updA (fun _ h => h)) (fun _ => KP.bind (KP.lift _) (fun c => KP.bind
      (KP.updA (fun _ h => h)) (fun _ => KP.newB (fun c hc => KP.setPtr hc (fun _ => rfl)))))
  unfold Store.init
  refine KP.selfA (fun s hs => KP.ite (fun _ => ?_) (fun _ => hr))
  exact KP.bind (KP.ass _ _) (fun _ => KP.bind (KP.heapA (Heap.delete_keeps hs)) (fun _ =>
    KP.bind (KP.updA (fun _ _ => by simp)) (fun _ => hr)))

theorem KP.resizeA {zero : V} {n : Nat} : KP (RA b j B) (Store.resize zero n) := by
  unfold Store.resize
  refine KP.bind (KP.ass _ _) (fun _ => KP.selfA (fun s hs => KP.ite (fun _ => ?_) (fun _ =>
    KP.ite (fun _ => ?_) (fun _ => ?_))))
  · exact KP.bind KP.initA (fun _ => KP.fillA)
  · exact KP.bind (KP.ass _ _) (fun _ => KP.bind (KP.heapA (Heap.delete_keeps hs)) (fun _ =>
      KP.bind (KP.lift _) (fun c => KP.bind (KP.updA (fun _ h => h)) (fun _ => KP.newB
      (fun c hc => KP.bind (KP.setPtr hc (fun _ => rfl)) (fun _ => KP.fillA))))))
  · exact KP.updA (fun _ h => h)

theorem KP.ctorSizeA {zero : V} {n : Nat} : KP (RA b j B) (Store.ctorSize zero n) := by
  unfold Store.ctorSize
  exact KP.bind (KP.lift _) (fun c => KP.bind (KP.updA (fun _ h => h)) (fun _ => KP.bind (KP.ass _ _)
    (fun _ => KP.newB (fun c hc => KP.bind (KP.setPtr hc (fun _ => rfl)) (fun _ => KP.bind
    (KP.heapA (Heap.fillRange_keeps (Or.inl (by simpa using hc)))) (fun _ =>
    KP.updA (fun _ h => h)))))))

theorem KP.ctorIntA {zero : V} {n : Int} : KP (RA b j B) (Store.ctorInt zero n) := by
  unfold Store.ctorInt
  exact KP.bind (KP.lift _) (fun c => KP.bind (KP.updA (fun _ h => h)) (fun _ => KP.bind (KP.ass _ _)
    (fun _ => KP.newB (fun c hc => KP.bind (KP.setPtr hc (fun _ => rfl)) (fun _ => KP.bind
    (KP.heapA (Heap.fillRange_keeps (Or.inl (by simpa using hc)))) (fun _ =>
    KP.updA (fun _ h => h)))))))

theorem KP.copyCtorA {o : Store} : KP (RA b j B) (Store.copyCtor o : SM V Unit) := by
  unfold Store.copyCtor
  exact KP.bind (KP.updA (fun _ h => h)) (fun _ => KP.ite (fun _ => KP.newB (fun c hc => KP.bind
    (KP.setPtr hc (fun _ => rfl)) (fun _ => KP.heapA (Heap.copyRange_keeps
    (Or.inl (by simpa using hc)))))) (fun _ => KP.pure ()))

theorem KP.reallocA {zero : V} {n : Nat} : KP (RA b j B) (Store.realloc zero n) := by
  unfold Store.realloc
  refine KP.bind (KP.lift _) (fun c => KP.bind (KP.updA (fun _ h => h)) (fun _ => KP.newB
    (fun c hc => KP.selfA (fun s hs => ?_))))
  have hc' : some c ≠ some b := by simpa using hc
  exact KP.bind (KP.forN _ (fun i _ => KP.bind (KP.reads _) (fun v =>
    KP.heapA (Heap.putCell_keeps (Or.inl hc'))))) (fun _ => KP.bind (KP.forN _ (fun i _ =>
    KP.heapA (Heap.putCell_keeps (Or.inl hc')))) (fun _ => KP.bind
    (KP.heapA (Heap.delete_keeps hs)) (fun _ => KP.setPtr hc (fun _ => rfl))))

theorem KP.assignA {zero : V} {o : Store} : KP (RA b j B) (Store.assign zero o) := by
  have hl : KP (RA b j B) (do
      let s ← Store.self
      M.forN s.sz (fun i => do
        let v ← M.reads (fun st => o.get st.1 i)
        Store.heapM (Heap.store s.p i v)) : SM V Unit) :=
    KP.selfA (fun s hs => KP.forN _ (fun i _ => KP.bind (KP.reads _)
      (fun v => KP.heapA (Heap.putCell_keeps (Or.inl hs)))))
  unfold Store.assign
  refine KP.selfA (fun s hs => KP.ite (fun _ => KP.ite (fun _ => ?_) (fun _ => ?_)) (fun _ => hl))
  · exact KP.bind KP.reallocA (fun _ => hl)
  · exact KP.bind KP.resizeA (fun _ => hl)

theorem KP.pushBackA {zero v : V} : KP (RA b j B) (Store.pushBack zero v) := by
  unfold Store.pushBack
  refine KP.selfA (fun s hs => KP.ite (fun _ => ?_) (fun _ => KP.ite (fun _ => ?_)
    (fun _ => KP.pure ())))
  · exact KP.bind KP.reallocA (fun _ => KP.bind (KP.updA (fun _ h => h)) (fun _ => KP.selfA
      (fun s hs => KP.bind (KP.heapA (Heap.putCell_keeps (Or.inl hs))) (fun _ => KP.bind (KP.lift _)
      (fun n => KP.updA (fun _ h => h))))))
  · exact KP.bind (KP.heapA (Heap.putCell_keeps (Or.inl hs))) (fun _ => KP.updA (fun _ h => h))

theorem KP.dtorA : KP (RA b j B) (Store.dtor : SM V Unit) := by
  unfold Store.dtor
  exact KP.selfA (fun s hs => KP.ite (fun _ => KP.ite (fun _ => KP.bind
    (KP.heapA (Heap.delete_keeps hs)) (fun _ => KP.updA (fun _ _ => by simp)))
    (fun _ => KP.pure ())) (fun _ => KP.pure ()))

theorem KP.borrowResizeB {n : Nat} : KP (RB b j B) (Mach.borrowResize n : SM V Unit) := by
  unfold Mach.borrowResize
  refine KP.bind (KP.ass _ _) (fun _ => ?_)
  intro st hs
  rw [M.bind_ok (self_apply _)]
  split
  · rename_i hn
    exact ⟨hs.1, fun hp => ⟨(hs.2 hp).1, hn, (hs.2 hp).2.2⟩⟩
  · exact hs

end Store

/-! ### Machine -/

/-- The vector an operation acts on. -/
def Cmd.target : Cmd V → Option Nat
  | .assign _ x _ | .assignScalar x _ | .subAssign _ _ x _ _ | .subAssignScalar x _ _
  | .setElem x _ _ | .resize x _ | .fill x _ | .fillVec x _ | .pushBack x _ | .storeAssign x _
  | .destroy x => some x
  | _ => none

namespace Mach
open Store
variable {α β : Type} {y b j : Nat} {B : Block V} {d : Store}

/-- Cell `j` of block `b` is out of reach of all vectors but possibly the vector `y`, whose data
member is `d`. -/
structure FI (y b j : Nat) (B : Block V) (d : Store) (s : Mach V) : Prop where
  k : CellOK b j B s.heap
  own : ∀ z, z ≠ (y, false) → s.owned z → (s.st z).p ≠ some b
  brw : ∀ x, s.bor x = true → CB b j (s.st (x, false))
  fr : s.st (y, false) = d
  frb : s.bor y = false

theorem FI.slotA {z : Slot} {m : SM V α} (hz : z ≠ (y, false)) (h : KP (RA b j B) m) :
    ∀ s : Mach V, s.owned z → FI y b j B d s → Kept (FI y b j B d) (Mach.onSlot z m s) := by
  intro s ho I
  rw [onSlot_apply]
  have := h (s.heap, s.st z) ⟨I.k, I.own z hz ho⟩
  rcases hm : m (s.heap, s.st z) with ⟨o, st'⟩
  rw [hm] at this
  have key : RA b j B st' → FI y b j B d (s.put z st') := by
    intro hr
    refine ⟨hr.1, fun w hw how => ?_, fun x hx => ?_, ?_, I.frb⟩
    · by_cases hwz : w = z
      · subst hwz; rw [put_same]; exact hr.2
      · rw [put_ne _ _ hwz]; exact I.own w hw how
    · have hxz : (x, false) ≠ z := by
        rintro rfl
        rcases ho with h | h
        · simp at h
        · rw [show s.bor x = true from hx] at h; simp at h
      rw [put_ne _ _ hxz]; exact I.brw x hx
    · rw [put_ne _ _ (Ne.symm hz)]; exact I.fr
  cases o with
  | ok a => exact key this
  | thr e => exact key this
  | ub k => trivial

theorem FI.slotB {x : Nat} {m : SM V α} (h : KP (RB b j B) m) :
    ∀ s : Mach V, s.bor x = true → FI y b j B d s →
      Kept (FI y b j B d) (Mach.onSlot (x, false) m s) := by
  intro s ho I
  rw [onSlot_apply]
  have := h (s.heap, s.st (x, false)) ⟨I.k, I.brw x ho⟩
  rcases hm : m (s.heap, s.st (x, false)) with ⟨o, st'⟩
  rw [hm] at this
  have key : RB b j B st' → FI y b j B d (s.put (x, false) st') := by
    intro hr
    refine ⟨hr.1, fun w hw how => ?_, fun x' hx => ?_, ?_, I.frb⟩
    · have hwz : w ≠ (x, false) := by
        rintro rfl
        rcases how with h | h
        · simp at h
        · have h : s.bor x = false := h
          rw [ho] at h; simp at h
      rw [put_ne _ _ hwz]; exact I.own w hw how
    · by_cases hxz : x' = x
      · subst hxz; rw [put_same]; exact hr.2
      · rw [put_ne _ _ (by simpa using hxz)]; exact I.brw x' hx
    · have hyx : (y, false) ≠ (x, false) := by
        intro h
        simp only [Prod.mk.injEq, and_true] at h
        subst h; have := I.frb; rw [ho] at this; simp at this
      rw [put_ne _ _ hyx]; exact I.fr
  cases o with
  | ok a => exact key this
  | thr e => exact key this
  | ub k => trivial

/-- `temp` members are always owned. -/
theorem FI.temp {x : Nat} {m : SM V α} (h : KP (RA b j B) m) :
    KP (FI y b j B d) (Mach.onSlot (x, true) m) :=
  fun s I => FI.slotA (by simp) h s (Or.inl rfl) I

/-- The data member of a vector of either kind, if the operation is harmless for both. -/
theorem FI.data {x : Nat} {m : SM V α} (hx : x ≠ y) (h1 : KP (RA b j B) m) (h2 : KP (RB b j B) m) :
    KP (FI y b j B d) (Mach.onSlot (x, false) m) := by
  intro s I
  cases hb : s.bor x with
  | true => exact FI.slotB h2 s hb I
  | false => exact FI.slotA (by simpa using hx) h1 s (Or.inr hb) I

/-- The kinds of the vectors are fixed as well. -/
def FIb (y b j : Nat) (B : Block V) (d : Store) (bo : Nat → Bool) (s : Mach V) : Prop :=
  FI y b j B d s ∧ s.bor = bo

theorem FIb.slot {z : Slot} {m : SM V α} {bo : Nat → Bool} (h : KP (FI y b j B d) (Mach.onSlot z m)) :
    KP (FIb y b j B d bo) (Mach.onSlot z m) := by
  intro s hs
  have := h s hs.1
  rw [onSlot_apply] at this ⊢
  rcases hm : m (s.heap, s.st z) with ⟨o, st'⟩
  rw [hm] at this
  cases o with
  | ok a => exact ⟨this, hs.2⟩
  | thr e => exact ⟨this, hs.2⟩
  | ub k => trivial

/-- The data member of an owning vector. -/
theorem FIb.dataA {x : Nat} {m : SM V α} {bo : Nat → Bool} (hx : x ≠ y) (hb : bo x = false)
    (h1 : KP (RA b j B) m) : KP (FIb y b j B d bo) (Mach.onSlot (x, false) m) := by
  intro s hs
  have := FI.slotA (z := (x, false)) (by simpa using hx) h1 s (Or.inr (by rw [hs.2]; exact hb)) hs.1
  rw [onSlot_apply] at this ⊢
  rcases hm : m (s.heap, s.st (x, false)) with ⟨o, st'⟩
  rw [hm] at this
  cases o with
  | ok a => exact ⟨this, hs.2⟩
  | thr e => exact ⟨this, hs.2⟩
  | ub k => trivial

theorem FIb.dataB {x : Nat} {m : SM V α} {bo : Nat → Bool} (hb : bo x = true)
    (h1 : KP (RB b j B) m) : KP (FIb y b j B d bo) (Mach.onSlot (x, false) m) := by
  intro s hs
  have := FI.slotB (x := x) h1 s (by rw [hs.2]; exact hb) hs.1
  rw [onSlot_apply] at this ⊢
  rcases hm : m (s.heap, s.st (x, false)) with ⟨o, st'⟩
  rw [hm] at this
  cases o with
  | ok a => exact ⟨this, hs.2⟩
  | thr e => exact ⟨this, hs.2⟩
  | ub k => trivial

theorem FIb.run {m : M (Mach V) α} (h : ∀ bo, KP (FIb y b j B d bo) m) : KP (FI y b j B d) m :=
  fun s hs => kept_mono (h s.bor s ⟨hs, rfl⟩) (fun _ h => h.1)

theorem FIb.fillTemp {zero : V} {conv : V → Out V} {t : Nat} {e : Expr V} {bo : Nat → Bool} :
    KP (FIb y b j B d bo) (Mach.fillTemp zero conv t e) := by
  unfold Mach.fillTemp
  exact KP.getB (fun s _ => KP.bind (FIb.slot (FI.temp KP.resizeA)) (fun _ => KP.forN _ (fun i _ =>
    KP.bind (KP.reads _) (fun v => KP.bind (KP.lift _) (fun w => FIb.slot (FI.temp KP.setA))))))

theorem FI.updMp {x : Nat} (hx : x ≠ y) {f : Store → MP} :
    KP (FI y b j B d) (Mach.onSlot (x, false) (Store.upd (fun s => { s with mp := f s }))) :=
  FI.data hx (KP.updA (fun _ h => h)) (KP.updB (fun _ h => h))

theorem FI.setDims {x : Nat} (hx : x ≠ y) {e : Expr V} :
    KP (FI y b j B d) (Mach.setDims x e) := by
  unfold Mach.setDims
  exact KP.getB (fun s _ => KP.ite (fun _ => KP.bind (KP.lift _) (fun r => KP.bind (KP.lift _)
    (fun c => FI.updMp hx))) (fun _ => KP.pure ()))

theorem FI.set {x i : Nat} {v : V} (hx : x ≠ y) :
    KP (FI y b j B d) (Mach.onSlot (x, false) (Store.set i v)) := FI.data hx KP.setA KP.setB

variable {bo : Nat → Bool}

theorem FIb.setDims {x : Nat} (hx : x ≠ y) {e : Expr V} :
    KP (FIb y b j B d bo) (Mach.setDims x e) := by
  unfold Mach.setDims
  exact KP.getB (fun s _ => KP.ite (fun _ => KP.bind (KP.lift _) (fun r => KP.bind (KP.lift _)
    (fun c => FIb.slot (FI.updMp hx)))) (fun _ => KP.pure ()))

theorem FIb.set {x i : Nat} {v : V} (hx : x ≠ y) :
    KP (FIb y b j B d bo) (Mach.onSlot (x, false) (Store.set i v)) := FIb.slot (FI.set hx)

theorem FIb.resize {zero : V} {x n : Nat} (hx : x ≠ y) :
    KP (FIb y b j B d bo) (Mach.resize zero x n) := by
  unfold Mach.resize
  refine KP.getB (fun s hs => KP.ite (fun hb => ?_) (fun hb => ?_))
  · exact FIb.dataB (by rw [← hs.2]; exact hb) KP.borrowResizeB
  · exact FIb.dataA hx (by rw [← hs.2]; simpa using hb) KP.resizeA

theorem FIb.subSet {x : Nat} {ind : List Nat} {pos : Nat} {v : V} (hx : x ≠ y) :
    KP (FIb y b j B d bo) (Mach.subSet x ind pos v) := by
  unfold Mach.subSet
  exact KP.getB (fun s _ => KP.bind (KP.lift _) (fun _ => KP.bind (KP.lift _)
    (fun _ => FIb.set hx)))

theorem FIb.subAssignBody {zero : V} {conv : V → Out V} {same : Bool} {x : Nat} {ind : List Nat}
    {e : Expr V} {t : Nat} (hx : x ≠ y) :
    KP (FIb y b j B d bo) (Mach.subAssignBody zero conv same x ind e t) := by
  have hl : KP (FIb y b j B d bo) (M.forN ind.length (fun i => do
      let v ← M.reads (fun s : Mach V => (s.st (t, true)).get s.heap i)
      Mach.subSet x ind (i % ind.length) v)) :=
    KP.forN _ (fun i _ => KP.bind (KP.reads _) (fun v => FIb.subSet hx))
  unfold Mach.subAssignBody
  exact KP.getB (fun s _ => KP.bind (KP.ass _ _) (fun _ => KP.bind FIb.fillTemp (fun _ =>
    KP.getB (fun s _ => KP.ite (fun _ => KP.bind (FIb.resize hx) (fun _ => hl)) (fun _ => hl)))))

theorem FI.moveTemp {x : Nat} {s : Mach V} (hx : x ≠ y) (hb : s.bor x = false)
    (I : FI y b j B d s) : FI y b j B d (Mach.moveTemp x s).2 := by
  have h1 := I.own (x, false) (by simpa using hx) (Or.inr hb)
  have h2 := I.own (x, true) (by simp) (Or.inl rfl)
  refine ⟨I.k, fun z hz ho => ?_, fun x' hx' => ?_, ?_, I.frb⟩
  · show (if z = (x, false) then _ else if z = (x, true) then _ else s.st z).p ≠ some b
    split
    · exact h2
    · split
      · exact h1
      · exact I.own z hz ho
  · have hne : x' ≠ x := by
      rintro rfl
      have hx' : s.bor x' = true := hx'
      rw [hb] at hx'; simp at hx'
    show CB b j (if (x', false) = (x, false) then _ else if (x', false) = (x, true) then _
      else s.st (x', false))
    rw [if_neg (by simpa using hne), if_neg (by simp)]
    exact I.brw x' hx'
  · show (if (y, false) = (x, false) then _ else if (y, false) = (x, true) then _
      else s.st (y, false)) = d
    rw [if_neg (by simpa using Ne.symm hx), if_neg (by simp)]
    exact I.fr

/-- Assignment to another vector. -/
theorem FIb.assign {zero : V} {conv : V → Out V} {x : Nat} {e : Expr V} (hx : x ≠ y) :
    KP (FIb y b j B d bo) (Mach.assign zero conv x e) := by
  unfold Mach.assign
  refine KP.getB (fun s0 hs0 => KP.ite (fun hb => ?_) (fun hb => ?_))
  · have hbx : bo x = true := by rw [← hs0.2]; exact hb
    unfold assignBorrow
    intro s hs
    rw [M.bind_ok (M.get_apply _)]
    by_cases hc : e.size s.env ≤ (s.st (x, false)).capacity
    · rw [M.bind_ok (M.ass_pos hc _)]
      -- the data members stay as they are during the evaluation
      have hf : KP (fun s1 : Mach V => FIb y b j B d bo s1 ∧ ∀ z, s1.st (z, false) = s.st (z, false))
          (Mach.fillTemp zero conv x e) := by
        have ho : ∀ {α : Type} (m : SM V α), KP (RA b j B) m → KP (fun s1 : Mach V =>
            FIb y b j B d bo s1 ∧ ∀ z, s1.st (z, false) = s.st (z, false))
            (Mach.onSlot (x, true) m) := by
          intro α m hm s1 hs1
          have := FIb.slot (FI.temp (x := x) hm) s1 hs1.1
          rw [onSlot_apply] at this ⊢
          rcases hm : m (s1.heap, s1.st (x, true)) with ⟨o, st'⟩
          rw [hm] at this
          have h2 : ∀ z, (s1.put (x, true) st').st (z, false) = s.st (z, false) := fun z => by
            rw [put_ne _ _ (by simp)]; exact hs1.2 z
          cases o with
          | ok a => exact ⟨this, h2⟩
          | thr e => exact ⟨this, h2⟩
          | ub k => trivial
        unfold Mach.fillTemp
        exact KP.getB (fun s _ => KP.bind (ho _ KP.resizeA) (fun _ => KP.forN _ (fun i _ =>
          KP.bind (KP.reads _) (fun v => KP.bind (KP.lift _) (fun w => ho _ KP.setA)))))
      have h1 := hf s ⟨hs, fun _ => rfl⟩
      rw [M.bind_apply]
      rcases hm : Mach.fillTemp zero conv x e s with ⟨o, s1⟩
      rw [hm] at h1
      cases o with
      | ub k => trivial
      | thr m => exact h1.1
      | ok u =>
        simp only []
        have hsz : e.size s1.env = e.size s.env :=
          Expr.size_congr (fun z => by simp only [Mach.env]; rw [h1.2 z]) e
        rw [M.bind_ok (M.get_apply _)]
        by_cases hss : (s1.st (x, false)).sz ≤ e.size s1.env
        · rw [M.bind_ok (M.ass_pos hss _)]
          have hu := FI.slotB (y := y) (b := b) (j := j) (B := B) (d := d) (x := x)
            (m := (Store.upd (fun d => { d with sz := min (e.size s1.env) d.capacity }) : SM V Unit))
            (KP.updB (fun s h hp => ⟨(h hp).1, Nat.min_le_right _ _, (h hp).2.2⟩)) s1
            (by rw [h1.1.2]; exact hbx) h1.1.1
          have he : Mach.onSlot (x, false) (Store.upd (fun d => { d with sz := e.size s1.env })) s1
              = Mach.onSlot (x, false) (Store.upd (fun d =>
                  { d with sz := min (e.size s1.env) d.capacity })) s1 := by
            have : min (e.size s1.env) (s1.st (x, false)).capacity = e.size s1.env := by
              rw [hsz, h1.2 x]; omega
            simp only [onSlot_apply, upd_apply, this]
          rw [M.bind_apply, he]
          have hbo : ((Mach.onSlot (x, false) (Store.upd (fun d =>
              { d with sz := min (e.size s1.env) d.capacity })) s1).2).bor = bo := h1.1.2
          rw [onSlot_apply] at hu hbo ⊢
          refine KP.getB (P := FIb y b j B d bo) (fun s _ => KP.bind (KP.forN _ (fun i _ =>
            KP.bind (KP.reads _) (fun v => FIb.set hx))) (fun _ => FIb.setDims hx)) _ ⟨hu, hbo⟩
        · rw [M.bind_thr (M.ass_neg hss _)]
          exact h1.1
    · rw [M.bind_thr (M.ass_neg hc _)]
      exact hs
  · have hbx : bo x = false := by rw [← hs0.2]; simpa using hb
    unfold assignBuffer
    refine KP.bind FIb.fillTemp (fun _ => KP.bind ?_ (fun _ => FIb.setDims hx))
    intro s hs
    exact ⟨FI.moveTemp hx (by rw [hs.2]; exact hbx) hs.1, hs.2⟩

theorem FI.reset {x : Nat} (hx : x ≠ y) : KP (FI y b j B d) (M.modify (fun s => { s with
      st := fun z => if z.1 = x then {} else s.st z
      bor := fun z => if z = x then false else s.bor z }) : M (Mach V) Unit) := by
  refine KP.modify (fun s I => ⟨I.k, fun z hz ho => ?_, fun x' hx' => ?_, ?_, ?_⟩)
  · simp only []
    split
    · simp
    · rename_i hzx
      refine I.own z hz (ho.imp id (fun h => ?_))
      simpa [hzx] using h
  · have : x' ≠ x := by rintro rfl; simp at hx'
    simp only [this, if_false] at hx' ⊢
    exact I.brw x' hx'
  · simp only [if_neg (Ne.symm hx)]; exact I.fr
  · simp only [if_neg (Ne.symm hx)]; exact I.frb

theorem FI.destroy {x : Nat} (hx : x ≠ y) : KP (FI y b j B d) (Mach.destroy x : M (Mach V) Unit) := by
  unfold Mach.destroy
  refine KP.bind (FI.temp KP.dtorA) (fun _ => ?_)
  intro s hs
  rw [M.bind_ok (M.get_apply _)]
  split
  · rename_i hb
    have h1 := FI.slotA (z := (x, false)) (by simpa using hx) KP.dtorA s (Or.inr (by simpa using hb)) hs
    rw [M.bind_apply]
    rcases hm : Mach.onSlot (x, false) Store.dtor s with ⟨o, s'⟩
    rw [hm] at h1
    cases o with
    | ok a => exact FI.reset hx s' h1
    | thr e => exact h1
    | ub k => trivial
  · exact FI.reset hx s hs

theorem FI.bump {s : Mach V} (I : FI y b j B d s) : FI y b j B d s.bump :=
  ⟨I.k, I.own, I.brw, I.fr, I.frb⟩

theorem FI.decl {body : Nat → M (Mach V) Unit} {s : Mach V} (hy : s.n ≠ y)
    (h : Kept (FI y b j B d) (body s.n s.bump)) : Kept (FI y b j B d) (Mach.decl body s) := by
  rcases hm : body s.n s.bump with ⟨o, s'⟩
  rw [hm] at h
  cases o with
  | ub k => rw [decl_ub hm]; trivial
  | ok u => rw [decl_ok hm]; exact h
  | thr e => rw [decl_thr hm]; exact kept_thr (FI.destroy hy s' h)

theorem FI.withTmp {body : Nat → M (Mach V) Unit} {s : Mach V} (hy : s.n ≠ y)
    (h : Kept (FI y b j B d) (body s.n s.bump)) : Kept (FI y b j B d) (Mach.withTmp body s) := by
  rcases hm : body s.n s.bump with ⟨o, s'⟩
  rw [hm] at h
  cases o with
  | ub k => rw [withTmp_ub hm]; trivial
  | ok u => rw [withTmp_ok hm]; exact FI.destroy hy s' h
  | thr e => rw [withTmp_thr hm]; exact kept_thr (FI.destroy hy s' h)

/-- Body of a constructor of an owning vector. -/
theorem FI.declA {body : Nat → M (Mach V) Unit} {s : Mach V} (I : FI y b j B d s) (i : Inv s)
    (hy : s.n ≠ y) (h : ∀ bo, bo s.n = false → KP (FIb y b j B d bo) (body s.n)) :
    Kept (FI y b j B d) (Mach.decl body s) :=
  FI.decl hy (kept_mono (h s.bor (i.fresh s.n (le_refl _)).2.2 s.bump ⟨I.bump, rfl⟩)
    (fun _ h => h.1))

theorem exec_frame {zero : V} {c : Cmd V} {s : Mach V} (i : Inv s) (hal : s.Allowed c)
    (hy : y < s.n ∨ s.n + 1 < y) (ht : c.target ≠ some y)
    (hbw : ∀ p n, c = .declBorrow p n → p = some b → n ≤ j) (I : FI y b j B d s) :
    Kept (FI y b j B d) (exec zero c s) := by
  have hn : s.n ≠ y := by omega
  cases c with
  | callerArray l =>
    refine ⟨?_, I.own, I.brw, I.fr, I.frb⟩
    have := I.k.setBlk (c := s.heap.next) (x := ⟨l.length, fun i => l[i]?, true, false⟩)
      (Nat.ne_of_gt I.k.lt)
    exact ⟨Nat.lt_succ_of_lt I.k.lt, this.cell, this.live, this.newed, this.len⟩
  | declDefault =>
    unfold exec Mach.declDefault
    exact FI.declA I i hn (fun bo _ => KP.pure ())
  | declSize n =>
    unfold exec Mach.declSize
    exact FI.declA I i hn (fun bo hb => FIb.dataA hn hb KP.ctorSizeA)
  | declScalar v =>
    unfold exec Mach.declScalar
    exact FI.declA I i hn (fun bo hb => KP.bind (FIb.dataA hn hb KP.ctorIntA) (fun _ => FIb.set hn))
  | declMat r c =>
    unfold exec Mach.declMat
    exact FI.declA I i hn (fun bo hb => KP.bind (FIb.dataA hn hb KP.ctorSizeA) (fun _ =>
      FIb.slot (FI.updMp hn)))
  | declMatVal r c v =>
    unfold exec Mach.declMatVal
    exact FI.declA I i hn (fun bo hb => KP.bind (FIb.dataA hn hb KP.ctorSizeA) (fun _ =>
      KP.bind (FIb.slot (FI.updMp hn)) (fun _ => FIb.dataA hn hb KP.fillA)))
  | declCopy x =>
    unfold exec Mach.declCopy
    refine FI.decl hn ?_
    rw [M.bind_ok (M.get_apply _)]
    by_cases hb : s.bump.bor x = true
    · rw [if_pos hb, M.bind_ok (M.modify_apply _ _)]
      refine FI.temp KP.copyCtorA _ ⟨I.k, fun z hz ho => ?_, fun x' hx' => ?_, ?_, ?_⟩
      · simp only []
        have hzn : z ≠ (s.n, false) := by
          rintro rfl
          rcases ho with h | h
          · simp at h
          · simp at h
        rw [if_neg hzn]
        refine I.own z hz (ho.imp id (fun h => ?_))
        simp only [] at h
        split at h
        · simp at h
        · exact h
      · simp only []
        by_cases hxn : x' = s.n
        · subst hxn; simp only [if_true]; exact I.brw x hb
        · simp only [Prod.mk.injEq, hxn, false_and, if_false] at hx' ⊢
          exact I.brw x' hx'
      · simp only [Prod.mk.injEq, Ne.symm hn, false_and, if_false]; exact I.fr
      · simp only [Ne.symm hn, if_false]; exact I.frb
    · rw [if_neg hb]
      have hf := (i.fresh s.n (le_refl _)).2.2
      exact kept_mono (KP.bind (P := FIb y b j B d s.bor) (FIb.dataA hn hf KP.copyCtorA) (fun _ =>
        FIb.slot (FI.temp KP.copyCtorA)) s.bump ⟨I.bump, rfl⟩) (fun _ h => h.1)
  | declExpr conv e =>
    unfold exec Mach.declExpr
    refine FI.declA I i hn (fun bo hb => KP.getB (fun s1 _ => ?_))
    have hl : KP (FIb y b j B d bo) (do
        let s' ← M.get
        M.forN (s'.st (s.n, false)).sz (fun i => do
          let v ← M.reads (fun s => e.el s.env i)
          let w ← M.lift (conv v)
          Mach.onSlot (s.n, false) (Store.set i w))
        Mach.setDims s.n e : M (Mach V) Unit) :=
      KP.getB (fun s' _ => KP.bind (KP.forN _ (fun i _ => KP.bind (KP.reads _)
        (fun v => KP.bind (KP.lift _) (fun w => FIb.set hn)))) (fun _ => FIb.setDims hn))
    exact KP.ite (fun _ => KP.bind (FIb.dataA hn hb KP.resizeA) (fun _ => hl))
      (fun _ => KP.bind (FIb.dataA hn hb (KP.updA (fun _ h => h))) (fun _ => hl))
  | declTemp l mp =>
    unfold exec Mach.declTemp
    have hf := (i.fresh s.n (le_refl _)).2.2
    have hf1 := (i.fresh (s.n + 1) (by omega)).2.2
    refine FI.withTmp hn ?_
    have hmk : KP (FIb y b j B d s.bor) (makeTemp zero l mp s.n) :=
      KP.bind (FIb.dataA hn hf KP.ctorSizeA) (fun _ => KP.bind (KP.forN _ (fun i _ =>
        KP.bind (KP.lift _) (fun v => FIb.set hn))) (fun _ => FIb.slot (FI.updMp hn)))
    have hnn : KP (fun s1 : Mach V => s1.n = s.n + 1) (makeTemp zero l mp s.n) := by
      have ho : ∀ {α : Type} (m : SM V α) , KP (fun s1 : Mach V => s1.n = s.n + 1)
          (Mach.onSlot (s.n, false) m) := by
        intro α m s1 hs1
        rw [onSlot_apply]
        rcases m (s1.heap, s1.st (s.n, false)) with ⟨o, st'⟩
        cases o <;> first | exact hs1 | trivial
      exact KP.bind (ho _) (fun _ => KP.bind (KP.forN _ (fun i _ =>
        KP.bind (KP.lift _) (fun v => ho _))) (fun _ => ho _))
    have k1 := hmk s.bump ⟨I.bump, rfl⟩
    have k2 := hnn s.bump rfl
    show Kept (FI y b j B d) ((makeTemp zero l mp s.n >>= fun _ =>
      Mach.decl (fun y => stealTemp s.n y)) s.bump)
    rw [M.bind_apply]
    rcases hm : makeTemp zero l mp s.n s.bump with ⟨o, s1⟩
    rw [hm] at k1 k2
    cases o with
    | ub k => trivial
    | thr e => exact k1.1
    | ok u =>
      have k2 : s1.n = s.n + 1 := k2
      have k1 : FIb y b j B d s.bor s1 := k1
      have hn1 : s1.n ≠ y := by omega
      refine FI.decl hn1 ?_
      have hb0 : s1.bor s.n = false := by rw [k1.2]; exact hf
      have hb1 : s1.bor s1.n = false := by rw [k1.2, k2]; exact hf1
      have h0 := k1.1.own (s.n, false) (by simpa using hn) (Or.inr hb0)
      have h1 := k1.1.own (s1.n, false) (by simpa using hn1) (Or.inr hb1)
      refine ⟨k1.1.k, fun z hz ho => ?_, fun x' hx' => ?_, ?_, k1.1.frb⟩
      · show (if z = (s1.n, false) then _ else if z = (s.n, false) then _ else s1.st z).p ≠ some b
        split
        · exact h0
        · split
          · exact h1
          · exact k1.1.own z hz ho
      · have hx' : s1.bor x' = true := hx'
        have e1 : x' ≠ s1.n := by rintro rfl; rw [hb1] at hx'; simp at hx'
        have e0 : x' ≠ s.n := by rintro rfl; rw [hb0] at hx'; simp at hx'
        show CB b j (if (x', false) = (s1.n, false) then _ else if (x', false) = (s.n, false) then _
          else s1.st (x', false))
        rw [if_neg (by simpa using e1), if_neg (by simpa using e0)]
        exact k1.1.brw x' hx'
      · show (if (y, false) = (s1.n, false) then _ else if (y, false) = (s.n, false) then _
          else s1.st (y, false)) = d
        rw [if_neg (by simpa using Ne.symm hn1), if_neg (by simpa using Ne.symm hn)]
        exact k1.1.fr
  | declPtr p n =>
    unfold exec Mach.declPtr
    exact FI.declA I i hn (fun bo hb => KP.bind (FIb.dataA hn hb KP.ctorSizeA) (fun _ => KP.bind
      (KP.forN _ (fun i _ => KP.bind (KP.reads _) (fun v => FIb.set hn)))
      (fun _ => FIb.slot (FI.updMp hn))))
  | declBorrow p n =>
    unfold exec Mach.declBorrow
    refine FI.decl hn ⟨I.k, fun z hz ho => ?_, fun x' hx' => ?_, ?_, ?_⟩
    · simp only []
      have hzn : z ≠ (s.n, false) := by
        rintro rfl
        rcases ho with h | h
        · simp at h
        · simp at h
      rw [if_neg hzn]
      refine I.own z hz (ho.imp id (fun h => ?_))
      simp only [] at h
      split at h
      · simp at h
      · exact h
    · simp only []
      by_cases hxn : x' = s.n
      · subst hxn
        simp only [if_true]
        intro hp
        exact ⟨hal.1, le_refl _, hbw p n rfl hp⟩
      · simp only [Prod.mk.injEq, hxn, false_and, if_false] at hx' ⊢
        exact I.brw x' hx'
    · simp only [Prod.mk.injEq, Ne.symm hn, false_and, if_false]; exact I.fr
    · simp only [Ne.symm hn, if_false]; exact I.frb
  | assign conv x e =>
    have hx : x ≠ y := by simpa [Cmd.target] using ht
    exact FIb.run (fun bo => FIb.assign hx) s I
  | assignScalar x v =>
    have hx : x ≠ y := by simpa [Cmd.target] using ht
    refine FIb.run (fun bo => ?_) s I
    refine KP.getB (fun s hs => KP.ite (fun hb => ?_) (fun hb => ?_))
    · exact KP.bind (FIb.dataB (by rw [← hs.2]; exact hb) (KP.updB (fun s h hp =>
        ⟨(h hp).1, (h hp).1, (h hp).2.2⟩))) (fun _ => FIb.set hx)
    · exact KP.bind (FIb.dataA hx (by rw [← hs.2]; simpa using hb) KP.resizeA) (fun _ => FIb.set hx)
  | subAssign conv same x ind e =>
    have hx : x ≠ y := by simpa [Cmd.target] using ht
    unfold exec Mach.subAssign
    exact FI.withTmp hn (FIb.run (fun bo => FIb.subAssignBody hx) _ I.bump)
  | subAssignScalar x ind v =>
    have hx : x ≠ y := by simpa [Cmd.target] using ht
    exact FIb.run (fun bo => KP.forN _ (fun i _ => FIb.subSet hx)) s I
  | setElem x k v =>
    have hx : x ≠ y := by simpa [Cmd.target] using ht
    exact FI.set hx s I
  | resize x n =>
    have hx : x ≠ y := by simpa [Cmd.target] using ht
    exact FIb.run (fun bo => FIb.resize hx) s I
  | fill x v =>
    have hx : x ≠ y := by simpa [Cmd.target] using ht
    exact FI.data hx KP.fillA KP.fillB s I
  | fillVec x z =>
    have hx : x ≠ y := by simpa [Cmd.target] using ht
    exact KP.getB (P := FI y b j B d) (fun s _ => FI.data hx KP.fillVecA KP.fillVecB) s I
  | pushBack x v =>
    have hx : x ≠ y := by simpa [Cmd.target] using ht
    exact FI.slotA (by simpa using hx) KP.pushBackA s (Or.inr hal.2.1) I
  | storeAssign x z =>
    have hx : x ≠ y := by simpa [Cmd.target] using ht
    show Kept _ ((M.get >>= fun s => Mach.onSlot (x, false) (Store.assign zero (s.st (z, false)))) s)
    rw [M.bind_ok (M.get_apply _)]
    exact FI.slotA (by simpa using hx) KP.assignA s (Or.inr hal.2.1) I
  | destroy x =>
    have hx : x ≠ y := by simpa [Cmd.target] using ht
    exact FI.destroy hx s I

end Mach
end ETR
