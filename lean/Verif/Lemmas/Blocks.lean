import Verif.Lemmas.Exist
import Verif.Lemmas.Scope

/-! Every block of memory that the library holds belongs to a vector, in every history: also with sizes that do not fit, copies of vectors
that were initialised from a temporary, and failed allocations. -/

namespace ETR

/-- Started in `P`, `m` returns in `Q`, throws in `E`, or has undefined behaviour. -/
def Tr {σ α : Type} (P : σ → Prop) (m : M σ α) (Q : α → σ → Prop) (E : σ → Prop) : Prop :=
  ∀ s, P s → match m s with
    | (.ok a, s') => Q a s'
    | (.thr _, s') => E s'
    | (.ub _, _) => True

section generic
variable {σ α β : Type} {P : σ → Prop} {E : σ → Prop}

theorem Tr.bind {m : M σ α} {f : α → M σ β} {R : α → σ → Prop} {Q : β → σ → Prop} (h1 : Tr P m R E) (h2 : ∀ a, Tr (R a) (f a) Q E) :
    Tr P (m >>= f) Q E := by
  intro s hs
  have h := h1 s hs
  rw [M.bind_apply]
  rcases hm : m s with ⟨o, s'⟩
  rw [hm] at h
  cases o with
  | ok a => exact h2 a s' h
  | thr e => exact h
  | ub k => trivial

theorem Tr.mono {P' : σ → Prop} {m : M σ α} {Q Q' : α → σ → Prop} {E' : σ → Prop} (h : Tr P m Q E) (hP : ∀ s, P' s → P s)
    (hQ : ∀ a s, Q a s → Q' a s) (hE : ∀ s, E s → E' s) : Tr P' m Q' E' := by
  intro s hs
  have := h s (hP s hs)
  rcases hm : m s with ⟨o, s'⟩
  rw [hm] at this
  cases o with
  | ok a => exact hQ a s' this
  | thr e => exact hE s' this
  | ub k => trivial

theorem Tr.pre {P' : σ → Prop} {m : M σ α} {Q : α → σ → Prop} (h : Tr P m Q E) (hP : ∀ s, P' s → P s) : Tr P' m Q E :=
  h.mono hP (fun _ _ h => h) (fun _ h => h)

theorem Tr.and {P' : σ → Prop} {m : M σ α} {Q Q' : α → σ → Prop} {E' : σ → Prop} (h : Tr P m Q E) (h' : Tr P' m Q' E') :
    Tr (fun s => P s ∧ P' s) m (fun a s => Q a s ∧ Q' a s) (fun s => E s ∧ E' s) := by
  intro s hs
  have h1 := h s hs.1
  have h2 := h' s hs.2
  rcases hm : m s with ⟨o, s'⟩
  rw [hm] at h1 h2
  cases o with
  | ok a => exact ⟨h1, h2⟩
  | thr e => exact ⟨h1, h2⟩
  | ub k => trivial

theorem KP.tr {m : M σ α} (h : KP P m) : Tr P m (fun _ => P) P := by
  intro s hs
  have := h s hs
  rcases hm : m s with ⟨o, s'⟩
  rw [hm] at this
  cases o with
  | ok a => exact this
  | thr e => exact this
  | ub k => trivial

theorem Tr.kp {m : M σ α} (h : Tr P m (fun _ => P) P) : KP P m := by
  intro s hs
  have := h s hs
  rcases hm : m s with ⟨o, s'⟩
  rw [hm] at this
  cases o with
  | ok a => exact this
  | thr e => exact this
  | ub k => trivial

theorem NT.tr {m : M σ α} {Q : α → σ → Prop} (h : NT P m Q) : Tr P m Q E := by
  intro s hs
  have := h s hs
  rcases hm : m s with ⟨o, s'⟩
  rw [hm] at this
  cases o with
  | ok a => exact this
  | thr e => exact this.elim
  | ub k => trivial

theorem Tr.lift {o : Out α} (hE : ∀ s, P s → E s) : Tr P (M.lift o : M σ α) (fun _ => P) E := by
  intro s hs
  rw [M.lift_apply]
  cases o with
  | ok a => exact hs
  | thr e => exact hE s hs
  | ub k => trivial

theorem Tr.ass {c : Prop} [Decidable c] {m : String} (hE : ∀ s, P s → E s) : Tr P (M.ass c m : M σ Unit) (fun _ => P) E := Tr.lift hE

theorem Tr.ite {c : Prop} [Decidable c] {m m' : M σ α} {Q : α → σ → Prop} (h1 : c → Tr P m Q E) (h2 : ¬ c → Tr P m' Q E) :
    Tr P (if c then m else m') Q E := by
  split
  · exact h1 (by assumption)
  · exact h2 (by assumption)

theorem Tr.getB {f : σ → M σ β} {Q : β → σ → Prop} (h : ∀ s, P s → Tr P (f s) Q E) : Tr P (M.get >>= f) Q E :=
  fun s hs => h s hs s hs

end generic

/-! ## One store -/

namespace Store
variable {V α β : Type}

/-- The block is allocated by the library. -/
def Lives (h : Heap V) (b : Nat) : Prop := b < h.next ∧ (h.blk b).live = true ∧ (h.blk b).newed = true

/-- The store is in charge of the block. -/
def Desig (s : Store) (b : Nat) : Prop := s.p = some b ∧ s.allocated = true

/-- All blocks belong to the store or to others, `A`. -/
def Held (A : Nat → Prop) (st : Heap V × Store) : Prop := ∀ b, Lives st.1 b → Desig st.2 b ∨ A b

/-- All blocks belong to others. -/
def Foreign (A : Nat → Prop) (st : Heap V × Store) : Prop := ∀ b, Lives st.1 b → A b

/-- All blocks but the new one belong to others. -/
def Fresh1 (A : Nat → Prop) (c : Nat) (st : Heap V × Store) : Prop := ∀ b, Lives st.1 b → b = c ∨ A b

variable {A : Nat → Prop}

theorem Foreign.ra {st : Heap V × Store} (h : Foreign A st) : Held A st := fun b hb => Or.inr (h b hb)

theorem Held.ga {st : Heap V × Store} (h : Held A st) (hn : ∀ b, ¬ Desig st.2 b) : Foreign A st := fun b hb => (h b hb).resolve_left (hn b)

/-- The heap operation creates no block. -/
def Quiet (m : M (Heap V) α) : Prop := ∀ h, match m h with
  | (.ok _, h') => ∀ b, Lives h' b → Lives h b
  | (.thr _, _) => False
  | (.ub _, _) => True

theorem Quiet.putCell {p : Ptr} {i : Nat} {v : Option V} : Quiet (Heap.putCell p i v) := by
  intro h
  unfold Heap.putCell
  cases p with
  | none => trivial
  | some c =>
    by_cases h1 : (h.blk c).live = true
    · by_cases h2 : (h.blk c).len ≤ i
      · simp [h1, h2]
      · simp only [h1, h2, not_true_eq_false, if_false]
        intro b ⟨g1, g2, g3⟩
        refine ⟨g1, ?_, ?_⟩
        · simp only [Heap.setBlk] at g2; split at g2 <;> simp_all
        · simp only [Heap.setBlk] at g3; split at g3 <;> simp_all
    · simp [h1]

theorem Quiet.bind {m : M (Heap V) α} {f : α → M (Heap V) β} (h1 : Quiet m) (h2 : ∀ a, Quiet (f a)) : Quiet (m >>= f) := by
  intro h
  have := h1 h
  rw [M.bind_apply]
  rcases hm : m h with ⟨o, h'⟩
  rw [hm] at this
  cases o with
  | thr e => exact this
  | ub k => trivial
  | ok a =>
    have g := h2 a h'
    simp only at this ⊢
    rcases hf : f a h' with ⟨o, h''⟩
    rw [hf] at g
    cases o with
    | thr e => exact g
    | ub k => trivial
    | ok b => exact fun b hb => this b (g b hb)

theorem Quiet.forN {f : Nat → M (Heap V) Unit} (h : ∀ i, Quiet (f i)) : ∀ n, Quiet (M.forN n f)
  | 0 => fun _ _ hb => hb
  | n + 1 => Quiet.bind (Quiet.forN h n) (fun _ => h n)

theorem Quiet.reads {f : Heap V → Out α} (h : ∀ s e, f s ≠ .thr e) : Quiet (M.reads f) := by
  intro s
  rw [M.reads_apply]
  cases hf : f s with
  | ok a => exact fun _ hb => hb
  | thr e => exact h s e hf
  | ub k => trivial

theorem cellAt_no_thr (h : Heap V) (p : Ptr) (i : Nat) (e : String) : h.cellAt p i ≠ .thr e := by
  unfold Heap.cellAt
  cases p with
  | none => simp
  | some b => simp only; split; · simp
              · split <;> simp

theorem load_no_thr (h : Heap V) (p : Ptr) (i : Nat) (e : String) : h.load p i ≠ .thr e := by
  unfold Heap.load
  have := cellAt_no_thr h p i
  rcases hc : h.cellAt p i with v | m | k
  · cases v <;> simp
  · exact absurd hc (this m)
  · simp

theorem Quiet.delete {p : Ptr} : Quiet (Heap.delete p : M (Heap V) Unit) := by
  intro h
  unfold Heap.delete
  cases p with
  | none => exact fun _ hb => hb
  | some c =>
    by_cases h1 : (h.blk c).newed = true
    · by_cases h2 : (h.blk c).live = true
      · simp only [h1, h2, not_true_eq_false, if_false]
        intro b ⟨g1, g2, g3⟩
        refine ⟨g1, ?_, ?_⟩
        · simp only [Heap.setBlk] at g2; split at g2 <;> simp_all
        · simp only [Heap.setBlk] at g3; split at g3 <;> simp_all
      · simp [h1, h2]
    · simp [h1]

theorem delete_dead {h h' : Heap V} {b : Nat} {u : Unit} (e : Heap.delete (some b) h = (.ok u, h')) : ¬ Lives h' b := by
  unfold Heap.delete at e
  simp only at e
  split at e
  · cases e
  · split at e
    · cases e
    · cases e
      rintro ⟨_, h2, _⟩
      simp [Heap.setBlk] at h2

/-- A property of the blocks and the store. -/
theorem Quiet.tr {m : M (Heap V) α} (h : Quiet m) {B : Nat → Prop} {F : Store → Prop} {E : Heap V × Store → Prop} :
    Tr (fun st => (∀ b, Lives st.1 b → B b) ∧ F st.2) (heapM m) (fun _ st => (∀ b, Lives st.1 b → B b) ∧ F st.2) E := by
  intro st hs
  have := h st.1
  rw [show heapM m st = ((m st.1).1, ((m st.1).2, st.2)) from rfl]
  rcases hm : m st.1 with ⟨o, h'⟩
  rw [hm] at this
  cases o with
  | ok a => exact ⟨fun b hb => hs.1 b (this b hb), hs.2⟩
  | thr e => exact this.elim
  | ub k => trivial

theorem Quiet.ra {m : M (Heap V) α} (h : Quiet m) : KP (Held A) (heapM m) := by
  intro st hs
  have := h.tr (B := fun b => Desig st.2 b ∨ A b) (F := fun s => s = st.2) (E := fun _ => False) st ⟨hs, rfl⟩
  rcases hm : heapM m st with ⟨o, st'⟩
  rw [hm] at this
  cases o with
  | ok a => intro b hb; rw [this.2]; exact this.1 b hb
  | thr e => exact this.elim
  | ub k => trivial

theorem Quiet.ga {m : M (Heap V) α} (h : Quiet m) : KP (Foreign A) (heapM m) := by
  have := h.tr (B := A) (F := fun _ => True) (E := Foreign A)
  exact (this.mono (fun _ hs => ⟨hs, trivial⟩) (fun _ _ hs => hs.1) (fun _ hs => hs)).kp

theorem KP.updRA {f : Store → Store} (h1 : ∀ s, (f s).p = s.p) (h2 : ∀ s, (f s).allocated = s.allocated) :
    KP (Held A) (upd f : SM V Unit) := by
  intro st hs b hb
  refine (hs b hb).imp (fun h => ?_) id
  unfold Desig
  rw [h1, h2]
  exact h

theorem KP.updGA {f : Store → Store} : KP (Foreign A) (upd f : SM V Unit) := fun _ hs => hs

theorem Tr.self {P E : Heap V × Store → Prop} {f : Store → SM V β} {Q : β → Heap V × Store → Prop}
    (h : ∀ s, Tr (fun st => P st ∧ st.2 = s) (f s) Q E) : Tr P (self >>= f) Q E := by
  intro st hs
  rw [M.bind_ok (self_apply _)]
  exact h st.2 st ⟨hs, rfl⟩

theorem KP.selfR {P : Heap V × Store → Prop} {f : Store → SM V β} (h : ∀ s, KP P (f s)) : KP P (Store.self >>= f) := by
  intro st hs
  rw [M.bind_ok (self_apply _)]
  exact h st.2 st hs

/-- `new`: afterwards there is one more block. -/
theorem new_na {B : Nat → Prop} {F : Store → Prop} {n : Nat} {E : Heap V × Store → Prop}
    (hE : ∀ st, (∀ b, Lives st.1 b → B b) → F st.2 → E st) :
    Tr (fun st : Heap V × Store => (∀ b, Lives st.1 b → B b) ∧ F st.2) (heapM (Heap.new n))
      (fun c st => (∀ b, Lives st.1 b → b = c ∨ B b) ∧ F st.2) E := by
  rintro ⟨h, s⟩ ⟨h1, h2⟩
  rw [heapM_apply]
  unfold Heap.new
  by_cases hn : 2 ^ 60 ≤ n
  · simp only [hn, if_true]
    exact hE _ h1 h2
  · simp only [hn, if_false]
    split
    · rename_i o s' e
      split at e
      · cases e
      · cases e
        refine ⟨fun b ⟨g1, g2, g3⟩ => ?_, h2⟩
        by_cases hb : b = h.next
        · exact Or.inl hb
        · refine Or.inr (h1 b ⟨?_, ?_, ?_⟩)
          · change b < h.next + 1 at g1; show b < h.next; omega
          · simpa [Heap.setBlk, hb] using g2
          · simpa [Heap.setBlk, hb] using g3
    · rename_i e
      split at e
      · cases e; exact hE _ h1 h2
      · cases e
    · trivial


/-! ### The operations of a store -/

theorem Quiet.store {p : Ptr} {i : Nat} {v : V} : Quiet (Heap.store p i v) := Quiet.putCell

theorem Quiet.fillRange {p : Ptr} {n : Nat} {v : V} : Quiet (Heap.fillRange p n v) := Quiet.forN (fun _ => Quiet.store) n

theorem Quiet.copyRange {p q : Ptr} {n : Nat} : Quiet (Heap.copyRange p n q : M (Heap V) Unit) :=
  Quiet.forN (fun _ => Quiet.bind (Quiet.reads (fun h e => cellAt_no_thr h _ _ e)) (fun _ => Quiet.putCell)) n

/-- After `new`, the store takes the block. -/
theorem fresh_held {f : Store → Store} {c : Nat} {E : Heap V × Store → Prop} (h : ∀ s, Desig (f s) c) :
    Tr (Fresh1 A c) (upd f : SM V Unit) (fun _ st => Held A st ∧ st.2.allocated = true) E := by
  intro st hs
  refine ⟨fun b hb => (hs b hb).imp (fun e => ?_) id, (h _).2⟩
  rw [e]
  exact h _

theorem new_fresh {n : Nat} : Tr (Foreign A : Heap V × Store → Prop) (heapM (Heap.new n)) (Fresh1 A) (Foreign A) :=
  (new_na (B := A) (F := fun _ => True) (E := Foreign A) (fun _ h _ => h)).mono (fun _ h => ⟨h, trivial⟩) (fun _ _ h => h.1) (fun _ h => h)

/-- `delete[] p` of the store's own memory. -/
theorem delete_own {s : Store} {E : Heap V × Store → Prop} :
    Tr (fun st : Heap V × Store => Held A st ∧ st.2 = s) (heapM (Heap.delete s.p)) (fun _ st => Foreign A st ∧ st.2 = s) E := by
  rintro ⟨h, s'⟩ ⟨hs, rfl⟩
  have q := (Quiet.delete (p := s'.p)) h
  rw [heapM_apply]
  rcases hm : Heap.delete s'.p h with ⟨o, h'⟩
  rw [hm] at q
  cases o with
  | thr e => exact q.elim
  | ub k => trivial
  | ok u =>
    refine ⟨fun b hb => (hs b (q b hb)).resolve_left ?_, rfl⟩
    rintro ⟨hp, _⟩
    simp only at hp
    rw [hp] at hm
    exact delete_dead hm hb

theorem Tr.pureI {P : Heap V × Store → Prop} {a : α} {Q : α → Heap V × Store → Prop} {E : Heap V × Store → Prop} (h : ∀ s, P s → Q a s) :
    Tr P (pure a : SM V α) Q E := fun s hs => h s hs

/-- A store without memory of its own: the blocks belong to others. -/
theorem Held.foreign_of {st : Heap V × Store} (h : Held A st) (hn : st.2.allocated = true → st.2.p = none) : Foreign A st :=
  h.ga (fun b hd => by have h1 := hd.1; rw [hn hd.2] at h1; cases h1)

/-- The last part of `init` and `resize`. -/
theorem alloc_tail {size : Nat} {f : Nat → Store → Store} {g : Nat → Store → Store} (hg : ∀ b s, Desig (g b s) b) :
    Tr (Foreign A : Heap V × Store → Prop) (do
      let c ← M.lift (capOf size)
      upd (f c)
      let b ← heapM (Heap.new c)
      upd (g b)) (fun _ st => Held A st ∧ st.2.allocated = true) (Held A) :=
  Tr.bind (Tr.lift (fun _ h => h.ra)) (fun _ => Tr.bind (R := fun _ => Foreign A) (KP.updGA.tr.mono (fun _ h => h) (fun _ _ h => h) (fun _ h => h.ra))
    (fun _ => Tr.bind (new_fresh.mono (fun _ h => h) (fun _ _ h => h) (fun _ h => h.ra)) (fun b => fresh_held (hg b))))

theorem init_tr {size : Nat} : Tr (Held A : Heap V × Store → Prop) (init size) (fun _ st => Held A st ∧ st.2.allocated = true) (Held A) := by
  have tail : Tr (Foreign A : Heap V × Store → Prop) (do
      upd (fun s => { s with sz := size })
      let c ← M.lift (capOf size)
      upd (fun s => { s with capacity := c })
      let b ← heapM (Heap.new c)
      upd (fun s => { s with p := some b, allocated := true })) (fun _ st => Held A st ∧ st.2.allocated = true) (Held A) :=
    Tr.bind (R := fun _ => Foreign A) (KP.updGA.tr.mono (fun _ h => h) (fun _ _ h => h) (fun _ h => h.ra)) (fun _ => alloc_tail (fun _ _ => ⟨rfl, rfl⟩))
  unfold init
  refine Tr.self (fun s => ?_)
  refine Tr.ite (fun ha => ?_) (fun ha => ?_)
  · refine Tr.bind (Tr.ass (fun _ h => h.1)) (fun _ => Tr.bind delete_own (fun _ => Tr.bind (R := fun _ => Foreign A) ?_ (fun _ => tail)))
    exact KP.updGA.tr.mono (fun _ h => h.1) (fun _ _ h => h) (fun _ h => h.ra)
  · exact tail.pre (fun st h => h.1.foreign_of (fun e => by rw [h.2] at e; exact absurd e ha))

theorem fillScalar_held {v : V} : KP (Held A) (fillScalar v) := KP.selfR (fun _ => Quiet.fillRange.ra)

theorem alloc_keep {m : SM V α} (h : KP (Held A) m) (hf : ∀ st, (m st).2.2.allocated = st.2.allocated) :
    Tr (fun st : Heap V × Store => Held A st ∧ st.2.allocated = true) m (fun _ st => Held A st ∧ st.2.allocated = true) (Held A) := by
  intro st hs
  have g := h st hs.1
  have e := hf st
  rcases hm : m st with ⟨o, st'⟩
  rw [hm] at g e
  cases o with
  | ok a => exact ⟨g, by rw [e]; exact hs.2⟩
  | thr e => exact g
  | ub k => trivial

theorem resize_tr {zero : V} {n : Nat} :
    Tr (Held A : Heap V × Store → Prop) (resize zero n) (fun _ st => Held A st ∧ st.2.allocated = true) (Held A) := by
  have fs : Tr (fun st : Heap V × Store => Held A st ∧ st.2.allocated = true) (fillScalar zero) (fun _ st => Held A st ∧ st.2.allocated = true)
      (Held A) := alloc_keep fillScalar_held (fun _ => rfl)
  unfold resize
  refine Tr.bind (Tr.ass (fun _ h => h)) (fun _ => Tr.self (fun s => ?_))
  refine Tr.ite (fun ha => ?_) (fun ha => ?_)
  · exact Tr.bind (init_tr.pre (fun _ h => h.1)) (fun _ => fs)
  · refine Tr.ite (fun hn => ?_) (fun hn => ?_)
    · refine Tr.bind (Tr.ass (fun _ h => h.1)) (fun _ => Tr.bind delete_own (fun _ => ?_))
      refine Tr.bind (Tr.lift (fun _ h => h.1.ra)) (fun c => Tr.bind (R := fun _ => Foreign A)
        (KP.updGA.tr.mono (fun _ h => h.1) (fun _ _ h => h) (fun _ h => h.ra)) (fun _ =>
        Tr.bind (new_fresh.mono (fun _ h => h) (fun _ _ h => h) (fun _ h => h.ra)) (fun b => Tr.bind (fresh_held (fun _ => ⟨rfl, rfl⟩)) (fun _ => fs))))
    · intro st hs
      refine ⟨hs.1, ?_⟩
      show st.2.allocated = true
      rw [hs.2]
      simpa using ha

theorem resize_held {zero : V} {n : Nat} : KP (Held A) (resize zero n) := (resize_tr.mono (fun _ h => h) (fun _ _ h => h.1) (fun _ h => h)).kp

theorem set_held {i : Nat} {v : V} : KP (Held A) (set i v) := KP.selfR (fun _ => KP.bind (KP.lift _) (fun _ => Quiet.store.ra))
theorem set_foreign {i : Nat} {v : V} : KP (Foreign A) (set i v) := KP.selfR (fun _ => KP.bind (KP.lift _) (fun _ => Quiet.store.ga))
theorem fillScalar_foreign {v : V} : KP (Foreign A) (fillScalar v) := KP.selfR (fun _ => Quiet.fillRange.ga)

theorem fillVec_held {o : Store} : KP (Held A) (fillVec o : SM V Unit) :=
  KP.selfR (fun _ => KP.bind (KP.ass _ _) (fun _ => KP.forN _ (fun _ _ => KP.bind (KP.reads _) (fun _ => Quiet.store.ra))))
theorem fillVec_foreign {o : Store} : KP (Foreign A) (fillVec o : SM V Unit) :=
  KP.selfR (fun _ => KP.bind (KP.ass _ _) (fun _ => KP.forN _ (fun _ _ => KP.bind (KP.reads _) (fun _ => Quiet.store.ga))))

theorem borrowResize_foreign {n : Nat} : KP (Foreign A) (Mach.borrowResize n : SM V Unit) := by
  unfold Mach.borrowResize
  exact KP.bind (KP.ass _ _) (fun _ => KP.selfR (fun _ => KP.ite (fun _ => KP.updGA) (fun _ => KP.lift _)))

theorem Tr.forN {σ : Type} {P E : σ → Prop} {f : Nat → M σ Unit} (h : ∀ i, Tr P (f i) (fun _ => P) E) : ∀ n, Tr P (M.forN n f) (fun _ => P) E
  | 0 => fun _ hs => hs
  | n + 1 => Tr.bind (Tr.forN h n) (fun _ => h n)

theorem Tr.reads {σ : Type} {P E : σ → Prop} {f : σ → Out α} (h : ∀ s e, f s ≠ .thr e) : Tr P (M.reads f) (fun _ => P) E := by
  intro s hs
  rw [M.reads_apply]
  cases hf : f s with
  | ok a => exact hs
  | thr e => exact absurd hf (h s e)
  | ub k => trivial

theorem realloc_held {zero : V} {n : Nat} : KP (Held A) (realloc zero n) := by
  refine Tr.kp ?_
  unfold realloc
  refine Tr.bind (Tr.lift (fun _ h => h)) (fun c => Tr.bind (R := fun _ => Held A) (KP.tr (KP.updRA (fun _ => rfl) (fun _ => rfl))) (fun _ => ?_))
  refine Tr.bind (R := fun b st => ∀ b', Lives st.1 b' → b' = b ∨ (Desig st.2 b' ∨ A b')) ?_ (fun b => ?_)
  · rintro ⟨h, s⟩ hs
    have := new_na (B := fun b => Desig s b ∨ A b) (F := fun t => t = s) (n := c) (E := Held A)
      (by rintro ⟨h', s'⟩ h1 rfl; exact h1) (h, s) ⟨hs, rfl⟩
    rcases hm : heapM (Heap.new c) (h, s) with ⟨o, h', s'⟩
    rw [hm] at this
    cases o with
    | ok a => obtain ⟨h1, rfl⟩ := this; exact h1
    | thr e => exact this
    | ub k => trivial
  · refine Tr.self (fun s => ?_)
    let P : Heap V × Store → Prop := fun st => (∀ b', Lives st.1 b' → b' = b ∨ (Desig s b' ∨ A b')) ∧ st.2 = s
    have q : ∀ {m : M (Heap V) Unit}, Quiet m → Tr P (heapM m) (fun _ => P) (Held A) := fun h =>
      h.tr (B := fun b' => b' = b ∨ (Desig s b' ∨ A b')) (F := fun t => t = s)
    refine Tr.pre (P := P) ?_ (by rintro st ⟨h, rfl⟩; exact ⟨h, rfl⟩)
    refine Tr.bind (Tr.forN (fun i => Tr.bind (Tr.reads (fun st e => load_no_thr _ _ _ e)) (fun v => q Quiet.store)) _) (fun _ => ?_)
    refine Tr.bind (Tr.forN (fun i => q Quiet.store) _) (fun _ => ?_)
    refine Tr.bind (R := fun _ => Fresh1 A b) ?_ (fun _ => (fresh_held (fun _ => ⟨rfl, rfl⟩)).mono (fun _ h => h) (fun _ _ h => h.1) (fun _ h => h))
    refine (delete_own (A := fun b' => b' = b ∨ A b') (s := s)).mono ?_ (fun _ _ h => h.1) (fun _ h => h)
    rintro st ⟨h, rfl⟩
    exact ⟨fun b' hb => by rcases h b' hb with h | h | h <;> simp [h], rfl⟩

theorem assign_held {zero : V} {o : Store} : KP (Held A) (assign zero o) := by
  have hl : KP (Held A) (do
      let s ← Store.self
      M.forN s.sz (fun i => do
        let v ← M.reads (fun st => o.get st.1 i)
        Store.heapM (Heap.store s.p i v)) : SM V Unit) :=
    KP.selfR (fun s => KP.forN _ (fun i _ => KP.bind (KP.reads _) (fun v => Quiet.store.ra)))
  unfold Store.assign
  refine KP.selfR (fun s => KP.ite (fun _ => KP.ite (fun _ => ?_) (fun _ => ?_)) (fun _ => hl))
  · exact KP.bind realloc_held (fun _ => hl)
  · exact KP.bind resize_held (fun _ => hl)

theorem pushBack_held {zero v : V} : KP (Held A) (pushBack zero v) := by
  unfold Store.pushBack
  refine KP.selfR (fun s => KP.ite (fun _ => ?_) (fun _ => KP.ite (fun _ => ?_) (fun _ => KP.pure ())))
  · exact KP.bind realloc_held (fun _ => KP.bind (KP.updRA (fun _ => rfl) (fun _ => rfl)) (fun _ => KP.selfR
      (fun s => KP.bind Quiet.store.ra (fun _ => KP.bind (KP.lift _) (fun n => KP.updRA (fun _ => rfl) (fun _ => rfl))))))
  · exact KP.bind Quiet.store.ra (fun _ => KP.updRA (fun _ => rfl) (fun _ => rfl))

/-- The end of the constructors. -/
theorem ctor_tail {b : Nat} {m : M (Heap V) Unit} (h : Quiet m) {f g : Store → Store} (hf : ∀ s, (f s).p = some b)
    (hg : ∀ s, s.p = some b → Desig (g s) b) :
    Tr (Fresh1 A b) (do upd f; heapM m; upd g) (fun _ => Held A) (Held A) := by
  refine Tr.bind (R := fun _ st => Fresh1 A b st ∧ st.2.p = some b) (fun st hs => ⟨hs, hf _⟩) (fun _ => Tr.bind (h.tr (F := fun s => s.p = some b))
    (fun _ => ?_))
  intro st hs b' hb
  refine (hs.1 b' hb).imp (fun e => ?_) id
  rw [e]
  exact hg _ hs.2

theorem ctorSize_tr {zero : V} {n : Nat} : Tr (Foreign A : Heap V × Store → Prop) (ctorSize zero n) (fun _ => Held A) (Held A) := by
  unfold ctorSize
  refine Tr.bind (Tr.lift (fun _ h => h.ra)) (fun c => Tr.bind (R := fun _ => Foreign A) (fun _ h => h) (fun _ => Tr.bind (Tr.ass (fun _ h => h.ra))
    (fun _ => Tr.bind (new_fresh.mono (fun _ h => h) (fun _ _ h => h) (fun _ h => h.ra)) (fun b => ctor_tail Quiet.fillRange (fun _ => rfl)
    (fun s h => ⟨h, rfl⟩)))))

theorem ctorInt_tr {zero : V} {n : Int} : Tr (Foreign A : Heap V × Store → Prop) (ctorInt zero n) (fun _ => Held A) (Held A) := by
  unfold ctorInt
  refine Tr.bind (Tr.lift (fun _ h => h.ra)) (fun c => Tr.bind (R := fun _ => Foreign A) (fun _ h => h) (fun _ => Tr.bind (Tr.ass (fun _ h => h.ra))
    (fun _ => Tr.bind (new_fresh.mono (fun _ h => h) (fun _ _ h => h) (fun _ h => h.ra)) (fun b => ctor_tail Quiet.fillRange (fun _ => rfl)
    (fun s h => ⟨h, rfl⟩)))))

theorem copyCtor_tr {o : Store} : Tr (Foreign A : Heap V × Store → Prop) (copyCtor o) (fun _ => Held A) (Held A) := by
  unfold copyCtor
  refine Tr.bind (R := fun _ st => Foreign A st ∧ st.2.allocated = o.allocated) (fun st h => ⟨h, rfl⟩) (fun _ => Tr.ite (fun ha => ?_) (fun _ => ?_))
  · refine Tr.bind (new_na (B := A) (F := fun s => s.allocated = o.allocated) (E := Held A) (fun _ h _ => fun b hb => Or.inr (h b hb))) (fun b => ?_)
    refine Tr.bind (R := fun _ => Held A) ?_ (fun _ => Quiet.copyRange.ra.tr)
    intro st hs b' hb
    refine (hs.1 b' hb).imp (fun e => ?_) id
    rw [e]
    exact ⟨rfl, by show st.2.allocated = true; rw [hs.2]; exact ha⟩
  · exact fun st h => h.1.ra

theorem dtor_tr {E : Heap V × Store → Prop} :
    Tr (Held A : Heap V × Store → Prop) dtor (fun _ st => Foreign A st ∧ ∀ b, ¬ Desig st.2 b) E := by
  unfold dtor
  refine Tr.self (fun s => Tr.ite (fun hp => Tr.ite (fun ha => ?_) (fun ha => ?_)) (fun hp => ?_))
  · exact Tr.bind delete_own (fun _ st h => ⟨h.1, fun b hd => by cases hd.2⟩)
  · intro st h
    have : st.2.allocated = true → st.2.p = none := fun e => by rw [h.2] at e; exact absurd e ha
    exact ⟨h.1.foreign_of this, fun b hd => by have h1 := hd.1; rw [this hd.2] at h1; cases h1⟩
  · intro st h
    have : st.2.allocated = true → st.2.p = none := fun _ => by rw [h.2]; simpa using hp
    exact ⟨h.1.foreign_of this, fun b hd => by have h1 := hd.1; rw [this hd.2] at h1; cases h1⟩

end Store

/-! ## All vectors -/

namespace Mach
open Store
variable {V α : Type}

/-- Who may own memory. -/
def OwnB (B : Nat → Bool) (z : Slot) : Prop := z.2 = true ∨ B z.1 = false

/-- Every block belongs to a member of a vector; the members in `S` have no memory. -/
structure PB (S : Slot → Prop) (N : Nat) (B : Nat → Bool) (s : Mach V) : Prop where
  held : ∀ b, Lives s.heap b → ∃ z, OwnB B z ∧ Desig (s.st z) b
  n : s.n = N
  bor : s.bor = B
  free : ∀ z, S z → ∀ b, ¬ Desig (s.st z) b

variable {S : Slot → Prop} {N : Nat} {B : Nat → Bool}

theorem PB.mono {S' : Slot → Prop} {s : Mach V} (h : PB S N B s) (hs : ∀ z, S' z → S z) : PB S' N B s :=
  ⟨h.held, h.n, h.bor, fun z hz => h.free z (hs z hz)⟩

/-- The blocks of the other members. -/
def RestOf (B : Nat → Bool) (st : Slot → Store) (x : Slot) (b : Nat) : Prop := ∃ z, z ≠ x ∧ OwnB B z ∧ Desig (st z) b

theorem PB.heldAt {s : Mach V} (h : PB S N B s) (x : Slot) : Store.Held (RestOf B s.st x) (s.heap, s.st x) := by
  intro b hb
  obtain ⟨z, h1, h2⟩ := h.held b hb
  by_cases hz : z = x
  · subst hz; exact Or.inl h2
  · exact Or.inr ⟨z, hz, h1, h2⟩

theorem PB.foreignAt {s : Mach V} (h : PB S N B s) {x : Slot} (hx : ¬ OwnB B x ∨ S x) : Store.Foreign (RestOf B s.st x) (s.heap, s.st x) := by
  intro b hb
  obtain ⟨z, h1, h2⟩ := h.held b hb
  refine ⟨z, ?_, h1, h2⟩
  rintro rfl
  exact hx.elim (fun e => e h1) (fun e => h.free z e b h2)

theorem PB.put_foreign {s : Mach V} (h : PB S N B s) {x : Slot} {st' : Heap V × Store} (g : Store.Foreign (RestOf B s.st x) st')
    (hS : S x → ∀ b, ¬ Desig st'.2 b) : PB S N B (s.put x st') := by
  refine ⟨fun b hb => ?_, h.n, h.bor, fun z hz b hd => ?_⟩
  · obtain ⟨z, h1, h2, h3⟩ := g b hb
    exact ⟨z, h2, by rw [put_ne _ _ h1]; exact h3⟩
  · by_cases hzx : z = x
    · subst hzx; rw [put_same] at hd; exact hS hz b hd
    · rw [put_ne _ _ hzx] at hd; exact h.free z hz b hd

theorem PB.put_held {s : Mach V} (h : PB S N B s) {x : Slot} {st' : Heap V × Store} (hx : OwnB B x) (g : Store.Held (RestOf B s.st x) st')
    {S' : Slot → Prop} (hS : ∀ z, S' z → S z ∧ z ≠ x) : PB S' N B (s.put x st') := by
  refine ⟨fun b hb => ?_, h.n, h.bor, fun z hz b hd => ?_⟩
  · rcases g b hb with hd | ⟨z, h1, h2, h3⟩
    · exact ⟨x, hx, by rw [put_same]; exact hd⟩
    · exact ⟨z, h2, by rw [put_ne _ _ h1]; exact h3⟩
  · rw [put_ne _ _ (hS z hz).2] at hd; exact h.free z (hS z hz).1 b hd

/-- An operation of a member that may own memory. -/
theorem PB.slotF {x : Slot} {m : SM V α} {F G : Store → Prop} (hx : OwnB B x) (hS : ¬ S x)
    (h : ∀ A, Tr (fun st => Store.Held A st ∧ F st.2) m (fun _ st => Store.Held A st ∧ G st.2) (Store.Held A)) :
    Tr (fun s => PB S N B s ∧ F (s.st x)) (onSlot x m) (fun _ s => PB S N B s ∧ G (s.st x)) (PB S N B) := by
  rintro s ⟨hs, hf⟩
  have := h _ (s.heap, s.st x) ⟨hs.heldAt x, hf⟩
  rw [onSlot_apply]
  rcases hm : m (s.heap, s.st x) with ⟨o, st'⟩
  rw [hm] at this
  have hS' : ∀ z, S z → S z ∧ z ≠ x := fun z hz => ⟨hz, fun e => hS (e ▸ hz)⟩
  cases o with
  | ok a => exact ⟨hs.put_held hx this.1 hS', by rw [put_same]; exact this.2⟩
  | thr e => exact hs.put_held hx this hS'
  | ub k => trivial

theorem PB.slot {x : Slot} {m : SM V α} (hx : OwnB B x) (hS : ¬ S x) (h : ∀ A, KP (Store.Held A) m) : KP (PB S N B) (onSlot x m) :=
  ((PB.slotF (F := fun _ => True) (G := fun _ => True) hx hS
    (fun A => (h A).tr.mono (fun _ h => h.1) (fun _ _ h => ⟨h, trivial⟩) (fun _ h => h))).mono (fun _ h => ⟨h, trivial⟩) (fun _ _ h => h.1) (fun _ h => h)).kp

/-- An operation of a member with borrowed memory. -/
theorem PB.slotB {x : Slot} {m : SM V α} (hx : ¬ OwnB B x) (hS : ¬ S x) (h : ∀ A, KP (Store.Foreign A) m) : KP (PB S N B) (onSlot x m) := by
  intro s hs
  have := h _ (s.heap, s.st x) (hs.foreignAt (Or.inl hx))
  rw [onSlot_apply]
  rcases hm : m (s.heap, s.st x) with ⟨o, st'⟩
  rw [hm] at this
  cases o with
  | ok a => exact hs.put_foreign this (fun e => absurd e hS)
  | thr e => exact hs.put_foreign this (fun e => absurd e hS)
  | ub k => trivial

/-- An operation that is the same for owned and borrowed memory. -/
theorem PB.slotA {x : Slot} {m : SM V α} (hS : ¬ S x) (h1 : ∀ A, KP (Store.Held A) m) (h2 : ∀ A, KP (Store.Foreign A) m) :
    KP (PB S N B) (onSlot x m) := by
  by_cases hx : OwnB B x
  · exact PB.slot hx hS h1
  · exact PB.slotB hx hS h2

/-- A constructor. -/
theorem PB.ctor {x : Slot} {m : SM V α} {S' : Slot → Prop} (hx : OwnB B x) (hS : S x) (hS' : ∀ z, S' z → S z ∧ z ≠ x)
    (h : ∀ A, Tr (Store.Foreign A) m (fun _ => Store.Held A) (Store.Held A)) :
    Tr (PB S N B) (onSlot x m) (fun _ => PB S' N B) (PB S' N B) := by
  intro s hs
  have := h _ (s.heap, s.st x) (hs.foreignAt (Or.inr hS))
  rw [onSlot_apply]
  rcases hm : m (s.heap, s.st x) with ⟨o, st'⟩
  rw [hm] at this
  cases o with
  | ok a => exact hs.put_held hx this hS'
  | thr e => exact hs.put_held hx this hS'
  | ub k => trivial

/-- A destructor. -/
theorem PB.dtor {x : Slot} {E : Mach V → Prop} :
    Tr (PB S N B) (onSlot x Store.dtor) (fun _ => PB (fun z => S z ∨ z = x) N B) E := by
  intro s hs
  have := dtor_tr (A := RestOf B s.st x) (E := fun _ => False) (s.heap, s.st x) (hs.heldAt x)
  rw [onSlot_apply]
  rcases hm : Store.dtor (s.heap, s.st x) with ⟨o, st'⟩
  rw [hm] at this
  cases o with
  | ok a =>
    have g := hs.put_foreign this.1 (fun _ => this.2)
    refine ⟨g.held, g.n, g.bor, fun z hz => ?_⟩
    rcases hz with hz | rfl
    · exact g.free z hz
    · rw [put_same]; exact this.2
  | thr e => exact this.elim
  | ub k => trivial

/-! ### Histories -/

/-- The state between two operations. -/
def WB (N : Nat) (s : Mach V) : Prop := PB (fun z => N ≤ z.1) N s.bor s ∧ ∀ x, N ≤ x → s.bor x = false

theorem PB.destroy {E : Mach V → Prop} {x : Nat} :
    Tr (PB S N B) (Mach.destroy x) (fun _ => PB (fun z => S z ∨ z.1 = x) N (fun y => if y = x then false else B y)) E := by
  unfold Mach.destroy
  refine Tr.bind PB.dtor (fun _ => Tr.getB (fun s0 hs0 => ?_))
  have fin : ∀ {S' : Slot → Prop}, (∀ z, S z → S' z) → (B x = false → S' (x, false)) → S' (x, true) → Tr (PB S' N B) (M.modify (fun s : Mach V => { s with
      st := fun y => if y.1 = x then {} else s.st y
      bor := fun y => if y = x then false else s.bor y }))
      (fun _ => PB (fun z => S z ∨ z.1 = x) N (fun y => if y = x then false else B y)) E := by
    intro S' h0 h1 h2 s hs
    refine ⟨fun b hb => ?_, hs.n, ?_, fun z hz b hd => ?_⟩
    · obtain ⟨z, g1, g2⟩ := hs.held b hb
      have hzx : z.1 ≠ x := by
        rintro rfl
        obtain ⟨z1, z2⟩ := z
        cases z2 with
        | true => exact hs.free _ h2 b g2
        | false =>
          rcases g1 with g1 | g1
          · cases g1
          · exact hs.free _ (h1 g1) b g2
      exact ⟨z, by simpa [OwnB, hzx] using g1, by simpa [hzx] using g2⟩
    · show (fun y => if y = x then false else s.bor y) = _
      rw [hs.bor]
    · by_cases hzx : z.1 = x
      · simp only [hzx, if_true] at hd
        cases hd.1
      · simp only [hzx, if_false] at hd
        exact hs.free z (h0 z (hz.resolve_right hzx)) b hd
  refine Tr.ite (fun hb => ?_) (fun hb => ?_)
  · exact Tr.bind PB.dtor (fun _ => fin (fun z hz => Or.inl (Or.inl hz)) (fun _ => Or.inr rfl) (Or.inl (Or.inr rfl)))
  · exact fin (fun z hz => Or.inl hz) (fun e => by rw [hs0.bor] at hb; exact absurd (by simpa using e) hb) (Or.inr rfl)

theorem WB.destroy {E : Mach V → Prop} {x : Nat} : Tr (WB N) (Mach.destroy x : M (Mach V) Unit) (fun _ => WB N) E := by
  intro s hs
  have := PB.destroy (E := fun _ => False) (x := x) (B := s.bor) (N := N) (S := fun z => N ≤ z.1) s hs.1
  rcases hm : Mach.destroy x s with ⟨o, s'⟩
  rw [hm] at this
  cases o with
  | ok a =>
    refine ⟨?_, fun y hy => ?_⟩
    · rw [this.bor]; exact this.mono (fun z hz => Or.inl hz)
    · rw [this.bor]; show (if y = x then false else s.bor y) = false
      rw [hs.2 y hy]; split <;> rfl
  | thr e => exact this.elim
  | ub k => trivial

/-- The state at the beginning of a constructor. -/
def WN (N : Nat) (s : Mach V) : Prop := PB (fun z => N ≤ z.1) (N + 1) s.bor s ∧ ∀ x, N ≤ x → s.bor x = false

theorem WN.wb {s : Mach V} (h : WN N s) : WB (N + 1) s := ⟨h.1.mono (fun z hz => by have : N + 1 ≤ z.1 := hz; show N ≤ z.1; omega), fun x hx => h.2 x (by omega)⟩

theorem WB.wf {s : Mach V} (h : WB N s) : WN N { s with n := s.n + 1 } :=
  ⟨⟨h.1.held, by show s.n + 1 = N + 1; rw [h.1.n], rfl, h.1.free⟩, h.2⟩

/-- The number of vectors declared so far does not decrease. -/
def WE (N : Nat) (s : Mach V) : Prop := ∃ k, N ≤ k ∧ WB k s

theorem WE.destroy {E : Mach V → Prop} {x : Nat} : Tr (WE N) (Mach.destroy x : M (Mach V) Unit) (fun _ => WE N) E := by
  rintro s ⟨k, hk, hs⟩
  have := WB.destroy (E := fun _ => False) (x := x) s hs
  rcases hm : Mach.destroy x s with ⟨o, s'⟩
  rw [hm] at this
  cases o with
  | ok a => exact ⟨k, hk, this⟩
  | thr e => exact this.elim
  | ub k => trivial

theorem WE.fail {x : Nat} {e : String} {Q : Unit → Mach V → Prop} : Tr (WE N) (Mach.destroy x >>= fun _ => M.lift (.thr e) : M (Mach V) Unit) Q (WE N) :=
  Tr.bind (R := fun _ => WE N) WE.destroy (fun _ _ h => h)

theorem WB.decl {body : Nat → M (Mach V) Unit} (h : Tr (WN N) (body N) (fun _ => WB (N + 1)) (WB (N + 1))) :
    Tr (WB N) (Mach.decl body) (fun _ => WB (N + 1)) (WE (N + 1)) := by
  intro s hs
  unfold Mach.decl
  have := h _ hs.wf
  rw [hs.1.n] at this ⊢
  rcases hm : body N { s with n := N + 1 } with ⟨o, s'⟩
  rw [hm] at this
  cases o with
  | ok a => exact this
  | ub k => trivial
  | thr e => exact WE.fail s' ⟨_, le_refl _, this⟩

theorem WB.withTmp {K : Nat} {body : Nat → M (Mach V) Unit} (h : Tr (WN N) (body N) (fun _ => WB K) (WE (N + 1))) :
    Tr (WB N) (Mach.withTmp body) (fun _ => WB K) (WE (N + 1)) := by
  intro s hs
  unfold Mach.withTmp
  have := h _ hs.wf
  rw [hs.1.n] at this ⊢
  rcases hm : body N { s with n := N + 1 } with ⟨o, s'⟩
  rw [hm] at this
  cases o with
  | ok a => exact WB.destroy s' this
  | ub k => trivial
  | thr e => exact WE.fail s' this

/-! ### The parts of the operations -/

theorem PB.set {x : Slot} {i : Nat} {v : V} (hS : ¬ S x) : KP (PB S N B) (onSlot x (Store.set i v)) :=
  PB.slotA hS (fun _ => set_held) (fun _ => set_foreign)

theorem PB.upd {x : Slot} {f : Store → Store} (hS : ¬ S x) (h1 : ∀ s, (f s).p = s.p) (h2 : ∀ s, (f s).allocated = s.allocated) :
    KP (PB S N B) (onSlot x (Store.upd f : SM V Unit)) :=
  PB.slotA hS (fun _ => KP.updRA h1 h2) (fun _ => KP.updGA)

theorem PB.fillTemp {zero : V} {conv : V → Out V} {t : Nat} {e : Expr V} (hS : ¬ S (t, true)) :
    Tr (PB S N B) (Mach.fillTemp zero conv t e) (fun _ s => PB S N B s ∧ (s.st (t, true)).allocated = true) (PB S N B) := by
  have ho : OwnB B (t, true) := Or.inl rfl
  unfold Mach.fillTemp
  refine Tr.getB (fun s hs => Tr.bind ((PB.slotF (F := fun _ => True) (G := fun d => d.allocated = true) ho hS
    (fun A => resize_tr.pre (fun _ h => h.1))).pre (fun _ h => ⟨h, trivial⟩)) (fun _ => ?_))
  refine Store.Tr.forN (fun i => Tr.bind (R := fun _ s => PB S N B s ∧ (s.st (t, true)).allocated = true)
    ((KP.tr (KP.reads _)).mono (fun _ h => h) (fun _ _ h => h) (fun _ h => h.1)) (fun v => Tr.bind (Tr.lift (fun _ h => h.1)) (fun w => ?_))) _
  refine PB.slotF (F := fun d => d.allocated = true) (G := fun d => d.allocated = true) ho hS (fun A => alloc_keep set_held (fun st => ?_))
  unfold Store.set
  rw [M.bind_ok (self_apply _), M.bind_apply, M.lift_apply]
  cases checkIdx st.2 i <;> rfl

theorem PB.fillTemp_kp {zero : V} {conv : V → Out V} {t : Nat} {e : Expr V} (hS : ¬ S (t, true)) : KP (PB S N B) (Mach.fillTemp zero conv t e) :=
  ((PB.fillTemp hS).mono (fun _ h => h) (fun _ _ h => h.1) (fun _ h => h)).kp

theorem PB.setDims {x : Nat} {e : Expr V} (hS : ¬ S (x, false)) : KP (PB S N B) (Mach.setDims x e) := by
  unfold Mach.setDims
  exact KP.getB (fun s _ => KP.ite (fun _ => KP.bind (KP.lift _) (fun r => KP.bind (KP.lift _)
    (fun c => PB.upd hS (fun _ => rfl) (fun _ => rfl)))) (fun _ => KP.pure ()))

theorem PB.moveTemp {x : Nat} (hS : ∀ k, ¬ S (x, k)) (hb : B x = false) {E : Mach V → Prop} :
    Tr (fun s => PB S N B s ∧ (s.st (x, true)).allocated = true) (Mach.moveTemp x) (fun _ => PB S N B) E := by
  rintro s ⟨hs, ha⟩
  refine ⟨fun b hl => ?_, hs.n, hs.bor, fun z hz b hd => ?_⟩
  · obtain ⟨z, h1, h2⟩ := hs.held b hl
    by_cases z1 : z = (x, false)
    · subst z1
      exact ⟨(x, true), Or.inl rfl, by simpa [Store.moveit, Desig] using ⟨h2.1, ha⟩⟩
    · by_cases z2 : z = (x, true)
      · subst z2
        exact ⟨(x, false), Or.inr hb, by simpa [Store.moveit, Desig] using h2.1⟩
      · exact ⟨z, h1, by simpa [z1, z2] using h2⟩
  · have z1 : z ≠ (x, false) := by rintro rfl; exact hS _ hz
    have z2 : z ≠ (x, true) := by rintro rfl; exact hS _ hz
    simp only [z1, z2, if_false] at hd
    exact hs.free z hz b hd

theorem PB.assign {zero : V} {conv : V → Out V} {x : Nat} {e : Expr V} (hS : ∀ k, ¬ S (x, k)) :
    KP (PB S N B) (Mach.assign zero conv x e) := by
  unfold Mach.assign
  refine KP.getB (fun s hs => KP.ite (fun hb => ?_) (fun hb => ?_))
  · unfold assignBorrow
    exact KP.getB (fun s _ => KP.bind (KP.ass _ _) (fun _ => KP.bind (PB.fillTemp_kp (hS _)) (fun _ => KP.getB (fun s _ =>
      KP.bind (KP.ass _ _) (fun _ => KP.bind (PB.upd (hS _) (fun _ => rfl) (fun _ => rfl)) (fun _ => KP.getB (fun s _ => KP.bind
        (KP.forN _ (fun i _ => KP.bind (KP.reads _) (fun v => PB.set (hS _)))) (fun _ => PB.setDims (hS _)))))))))
  · unfold assignBuffer
    rw [hs.bor] at hb
    exact Tr.kp (Tr.bind (PB.fillTemp (hS _)) (fun _ => Tr.bind (PB.moveTemp hS (by simpa using hb)) (fun _ => (PB.setDims (hS _)).tr)))

theorem PB.resize {zero : V} {x n : Nat} (hS : ∀ k, ¬ S (x, k)) : KP (PB S N B) (Mach.resize zero x n) := by
  unfold Mach.resize
  refine KP.getB (fun s hs => KP.ite (fun hb => ?_) (fun hb => ?_))
  · rw [hs.bor] at hb
    exact PB.slotB (by simp [OwnB, hb]) (hS _) (fun _ => borrowResize_foreign)
  · rw [hs.bor] at hb
    exact PB.slot (Or.inr (by simpa using hb)) (hS _) (fun _ => resize_held)

theorem PB.assignScalar {zero : V} {x : Nat} {v : V} (hS : ∀ k, ¬ S (x, k)) : KP (PB S N B) (Mach.assignScalar zero x v) := by
  unfold Mach.assignScalar
  refine KP.getB (fun s hs => KP.ite (fun hb => ?_) (fun hb => ?_))
  · exact KP.bind (PB.upd (hS _) (fun _ => rfl) (fun _ => rfl)) (fun _ => PB.set (hS _))
  · rw [hs.bor] at hb
    exact KP.bind (PB.slot (Or.inr (by simpa using hb)) (hS _) (fun _ => resize_held)) (fun _ => PB.set (hS _))

theorem PB.subSet {x : Nat} {ind : List Nat} {pos : Nat} {v : V} (hS : ∀ k, ¬ S (x, k)) : KP (PB S N B) (Mach.subSet x ind pos v) := by
  unfold Mach.subSet
  exact KP.getB (fun s _ => KP.bind (KP.lift _) (fun k => KP.bind (KP.lift _) (fun j => PB.set (hS _))))

theorem PB.subAssignBody {zero : V} {conv : V → Out V} {same : Bool} {x t : Nat} {ind : List Nat} {e : Expr V}
    (hS : ∀ k, ¬ S (x, k)) (ht : ∀ k, ¬ S (t, k)) : KP (PB S N B) (Mach.subAssignBody zero conv same x ind e t) := by
  unfold Mach.subAssignBody
  have loop : KP (PB S N B) (M.forN ind.length (fun i => do
    let v ← M.reads (fun s => (s.st (t, true)).get s.heap i)
    Mach.subSet x ind (i % ind.length) v) : M (Mach V) Unit) :=
    KP.forN _ (fun i _ => KP.bind (KP.reads _) (fun v => PB.subSet hS))
  exact KP.getB (fun s _ => KP.bind (KP.ass _ _) (fun _ => KP.bind (PB.fillTemp_kp (ht _)) (fun _ => KP.getB (fun s _ =>
    KP.ite (fun _ => KP.bind (PB.resize hS) (fun _ => loop)) (fun _ => loop)))))

/-- What keeps the invariant for all sets of vectors keeps the state between two operations. -/
theorem PB.wb {m : M (Mach V) α} (h : ∀ B, KP (PB (fun z => N ≤ z.1) N B) m) : KP (WB N) m := by
  intro s hs
  have := h s.bor s hs.1
  rcases hm : m s with ⟨o, s'⟩
  rw [hm] at this
  have key : PB (fun z => N ≤ z.1) N s.bor s' → WB N s' := fun g => ⟨by rw [g.bor]; exact g, by rw [g.bor]; exact hs.2⟩
  cases o with
  | ok a => exact key this
  | thr e => exact key this
  | ub k => trivial

/-- A constructor of a vector with memory of its own. -/
theorem PB.wf {m : M (Mach V) Unit} (h : ∀ B, (∀ x, N ≤ x → B x = false) →
      Tr (PB (fun z => N ≤ z.1) (N + 1) B) m (fun _ => PB (fun z => N + 1 ≤ z.1) (N + 1) B) (PB (fun z => N + 1 ≤ z.1) (N + 1) B)) :
    Tr (WN N) m (fun _ => WB (N + 1)) (WB (N + 1)) := by
  intro s hs
  have := h s.bor hs.2 s hs.1
  rcases hm : m s with ⟨o, s'⟩
  rw [hm] at this
  have key : PB (fun z => N + 1 ≤ z.1) (N + 1) s.bor s' → WB (N + 1) s' :=
    fun g => ⟨by rw [g.bor]; exact g, fun x hx => by rw [g.bor]; exact hs.2 x (by omega)⟩
  cases o with
  | ok a => exact key this
  | thr e => exact key this
  | ub k => trivial

theorem PB.toWB {s : Mach V} (h : PB (fun z => N ≤ z.1) N B s) (hB : ∀ x, N ≤ x → B x = false) : WB N s :=
  ⟨by rw [h.bor]; exact h, by rw [h.bor]; exact hB⟩

theorem PB.ctorD {m : SM V α} (hB : ∀ x, N ≤ x → B x = false) (h : ∀ A, Tr (Store.Foreign A) m (fun _ => Store.Held A) (Store.Held A)) :
    Tr (PB (fun z => N ≤ z.1) (N + 1) B) (onSlot (N, false) m) (fun _ => PB (fun z => N + 1 ≤ z.1) (N + 1) B) (PB (fun z => N + 1 ≤ z.1) (N + 1) B) :=
  PB.ctor (Or.inr (hB N (le_refl _))) (le_refl N) (fun z hz => ⟨by omega, by rintro rfl; simp at hz⟩) h

theorem notS : ∀ k, ¬ (fun z : Slot => N + 1 ≤ z.1) (N, k) := fun k h => by simp at h

/-- A copy. -/
theorem WB.declCopy {y : Nat} : Tr (WB N) (Mach.declCopy y : M (Mach V) Unit) (fun _ => WB (N + 1)) (WE (N + 1)) := by
  unfold Mach.declCopy
  refine WB.decl (fun s hs => ?_)
  obtain ⟨B, hb⟩ : ∃ B, s.bor = B := ⟨_, rfl⟩
  obtain ⟨hs, hB⟩ := hs
  rw [hb] at hs hB
  have second : ∀ (B' : Nat → Bool) (o : Store), (∀ x, N + 1 ≤ x → B' x = false) →
      Tr (PB (fun z => N ≤ z.1 ∧ z ≠ (N, false)) (N + 1) B') (onSlot (N, true) (Store.copyCtor o) : M (Mach V) Unit) (fun _ => WB (N + 1)) (WB (N + 1)) :=
    fun B' o hB' => (PB.ctor (S := fun z => N ≤ z.1 ∧ z ≠ (N, false)) (S' := fun z => N + 1 ≤ z.1) (Or.inl rfl) ⟨le_refl N, by simp⟩
      (fun z hz => ⟨⟨by omega, by rintro rfl; simp at hz⟩, by rintro rfl; simp at hz⟩) (fun _ => copyCtor_tr)).mono (fun _ h => h)
      (fun _ _ h => h.toWB hB') (fun _ h => h.toWB hB')
  rw [M.bind_ok (M.get_apply _)]
  by_cases hy : s.bor y = true
  · rw [if_pos hy]
    rw [M.bind_ok (M.modify_apply _ _)]
    refine second (fun z => if z = N then true else B z) _ (fun x hx => ?_) _ ⟨fun b hl => ?_, hs.n, ?_, fun z hz b hd => ?_⟩
    · rw [if_neg (by omega)]; exact hB x (by omega)
    · obtain ⟨z, h1, h2⟩ := hs.held b hl
      have hz : z ≠ (N, false) := by rintro rfl; exact hs.free _ (le_refl N) b h2
      refine ⟨z, ?_, by simpa [hz] using h2⟩
      rcases h1 with h1 | h1
      · exact Or.inl h1
      · by_cases h3 : z.1 = N
        · left
          obtain ⟨z1, z2⟩ := z
          cases z2 with
          | true => rfl
          | false => exact absurd (by simpa using h3) hz
        · right; simp only [if_neg h3]; exact h1
    · show (fun z => if z = N then true else s.bor z) = _
      rw [hb]
    · simp only [hz.2, if_false] at hd
      exact hs.free z hz.1 b hd
  · rw [if_neg hy]
    refine Tr.bind (R := fun _ => PB (fun z => N ≤ z.1 ∧ z ≠ (N, false)) (N + 1) B) ?_ (fun _ => second B _ (fun x hx => hB x (by omega))) s hs
    exact (PB.ctor (S' := fun z => N ≤ z.1 ∧ z ≠ (N, false)) (Or.inr (hB N (le_refl _))) (le_refl N) (fun z hz => hz) (fun _ => copyCtor_tr)).mono (fun _ h => h)
      (fun _ _ h => h) (fun _ h => (h.mono (fun z hz => ⟨by have : N + 1 ≤ z.1 := hz; omega, by rintro rfl; simp at hz⟩)).toWB (fun x hx => hB x (by omega)))

theorem WB.declBorrow {p : Ptr} {n : Nat} : Tr (WB N) (Mach.declBorrow p n : M (Mach V) Unit) (fun _ => WB (N + 1)) (WE (N + 1)) := by
  unfold Mach.declBorrow
  refine WB.decl (fun s hs => ?_)
  obtain ⟨hs, hB⟩ := hs
  have : PB (fun z => N + 1 ≤ z.1) (N + 1) (fun z => if z = N then true else s.bor z) (({ s with
      st := fun z => if z = (N, false) then { p := p, sz := n, capacity := n, allocated := true } else s.st z
      bor := fun z => if z = N then true else s.bor z } : Mach V)) := by
    refine ⟨fun b hl => ?_, hs.n, rfl, fun z hz b hd => ?_⟩
    · obtain ⟨z, h1, h2⟩ := hs.held b hl
      have hz : z ≠ (N, false) := by rintro rfl; exact hs.free _ (le_refl N) b h2
      refine ⟨z, ?_, by simpa [hz] using h2⟩
      rcases h1 with h1 | h1
      · exact Or.inl h1
      · by_cases h3 : z.1 = N
        · left
          obtain ⟨z1, z2⟩ := z
          cases z2 with
          | true => rfl
          | false => exact absurd (by simpa using h3) hz
        · right; simp only [if_neg h3]; exact h1
    · have h1 : z ≠ (N, false) := by rintro rfl; simp at hz
      simp only [h1, if_false] at hd
      exact hs.free z (by have : N + 1 ≤ z.1 := hz; show N ≤ z.1; omega) b hd
  exact this.toWB (fun x hx => by rw [if_neg (by omega)]; exact hB x (by omega))

theorem PB.makeTemp {zero : V} {l : List V} {mp : MP} (hB : ∀ x, N ≤ x → B x = false) :
    Tr (PB (fun z => N ≤ z.1) (N + 1) B) (Mach.makeTemp zero l mp N) (fun _ => PB (fun z => N + 1 ≤ z.1) (N + 1) B) (PB (fun z => N + 1 ≤ z.1) (N + 1) B) := by
  unfold Mach.makeTemp
  exact Tr.bind (PB.ctorD hB (fun _ => ctorSize_tr)) (fun _ => KP.tr (KP.bind (KP.forN _ (fun i _ => KP.bind (KP.lift _) (fun v => PB.set (notS _))))
    (fun _ => PB.upd (notS _) (fun _ => rfl) (fun _ => rfl))))

theorem WB.stealTemp {t : Nat} (ht : t < N) :
    Tr (WN N) (Mach.stealTemp t N : M (Mach V) Unit) (fun _ => WB (N + 1)) (WB (N + 1)) := by
  intro s hs
  obtain ⟨hs, hB⟩ := hs
  have e1 : ((t, false) : Slot) ≠ (N, false) := by simp; omega
  have : PB (fun z => N + 1 ≤ z.1) (N + 1) s.bor ((Mach.stealTemp t N s).2) := by
    refine ⟨fun b hl => ?_, hs.n, rfl, fun z hz b hd => ?_⟩
    · obtain ⟨z, h1, h2⟩ := hs.held b hl
      have hz : z ≠ (N, false) := by rintro rfl; exact hs.free _ (le_refl N) b h2
      by_cases hzt : z = (t, false)
      · subst hzt
        exact ⟨(N, false), Or.inr (hB N (le_refl _)), by simpa [Mach.stealTemp, M.modify, Desig] using h2⟩
      · exact ⟨z, h1, by simpa [Mach.stealTemp, M.modify, hz, hzt] using h2⟩
    · have hz' : N + 1 ≤ z.1 := hz
      have h1 : z ≠ (N, false) := by rintro rfl; simp at hz
      have h2 : z ≠ (t, false) := by rintro rfl; simp at hz; omega
      simp only [Mach.stealTemp, M.modify, h1, h2, if_false] at hd
      exact hs.free z (by show N ≤ z.1; omega) b hd
  exact this.toWB (fun x hx => hB x (by omega))

/-- The operations that are possible: appending to borrowed memory is a deleted function (Borrow.hpp 160); its assignment as a store, which copies the pointer, is not modelled. -/
def Owning (s : Mach V) : Cmd V → Prop
  | .pushBack x _ | .storeAssign x _ => s.bor x = false
  | _ => True

theorem exec_WB {zero : V} {c : Cmd V} {s : Mach V} (h : WB N s) (hc : ∀ x, c.target = some x → x < N) (ho : Owning s c) :
    match exec zero c s with
    | (.ok _, s') => WE N s' ∧ (c.isDecl → WE (newId s c + 1) s')
    | (.thr _, s') => WE N s'
    | (.ub _, _) => True := by
  have D : ∀ {m : M (Mach V) Unit}, c.isDecl = true → newId s c = s.n → Tr (WB N) m (fun _ => WB (N + 1)) (WE (N + 1)) → match m s with
    | (.ok _, s') => WE N s' ∧ (c.isDecl → WE (newId s c + 1) s')
    | (.thr _, s') => WE N s'
    | (.ub _, _) => True := by
    intro m _ h2 hm
    have := hm s h
    rcases e : m s with ⟨o, s'⟩
    rw [e] at this
    cases o with
    | ok a => exact ⟨⟨_, Nat.le_succ _, this⟩, fun _ => ⟨_, by rw [h2, h.1.n], this⟩⟩
    | thr e => obtain ⟨k, hk, g⟩ := this; exact ⟨k, by omega, g⟩
    | ub k => trivial
  have K : ∀ {m : M (Mach V) Unit}, c.isDecl = false → KP (WB N) m → match m s with
    | (.ok _, s') => WE N s' ∧ (c.isDecl → WE (newId s c + 1) s')
    | (.thr _, s') => WE N s'
    | (.ub _, _) => True := by
    intro m h1 hm
    have := hm s h
    rcases e : m s with ⟨o, s'⟩
    rw [e] at this
    cases o with
    | ok a => exact ⟨⟨_, le_refl _, this⟩, fun e => by rw [h1] at e; cases e⟩
    | thr e => exact ⟨_, le_refl _, this⟩
    | ub k => trivial
  have S : ∀ {x : Nat}, x < N → ∀ k, ¬ (fun z : Slot => N ≤ z.1) (x, k) := fun hx k h => by simp at h; omega
  cases c with
  | callerArray l =>
    refine K (m := Mach.callerArray l) rfl ?_
    refine KP.modify (fun s hs => ⟨⟨fun b hl => hs.1.held b ?_, hs.1.n, rfl, hs.1.free⟩, hs.2⟩)
    obtain ⟨h1, h2, h3⟩ := hl
    have hb : b ≠ s.heap.next := by rintro rfl; simp [Heap.foreign, Heap.setBlk] at h3
    refine ⟨?_, ?_, ?_⟩
    · have : b < s.heap.next + 1 := h1
      omega
    · simpa [Heap.foreign, Heap.setBlk, hb] using h2
    · simpa [Heap.foreign, Heap.setBlk, hb] using h3
  | declDefault =>
    unfold exec Mach.declDefault
    exact D rfl rfl (WB.decl (body := fun _ => pure ()) (fun s hs => hs.wb))
  | declSize n =>
    unfold exec Mach.declSize
    exact D rfl rfl (WB.decl (PB.wf (fun B hB => PB.ctorD hB (fun _ => ctorSize_tr))))
  | declScalar v =>
    unfold exec Mach.declScalar
    exact D rfl rfl (WB.decl (PB.wf (fun B hB => Tr.bind (PB.ctorD hB (fun _ => ctorInt_tr)) (fun _ => (PB.set (notS _)).tr))))
  | declMat r c =>
    unfold exec Mach.declMat
    exact D rfl rfl (WB.decl (PB.wf (fun B hB => Tr.bind (PB.ctorD hB (fun _ => ctorSize_tr)) (fun _ => KP.tr (PB.upd (notS _) (fun _ => rfl) (fun _ => rfl))))))
  | declMatVal r c v =>
    unfold exec Mach.declMatVal
    exact D rfl rfl (WB.decl (PB.wf (fun B hB => Tr.bind (PB.ctorD hB (fun _ => ctorSize_tr)) (fun _ => KP.tr (KP.bind (PB.upd (notS _) (fun _ => rfl) (fun _ => rfl))
      (fun _ => PB.slotA (notS _) (fun _ => fillScalar_held) (fun _ => fillScalar_foreign)))))))
  | declCopy y =>
    unfold exec
    exact D rfl rfl WB.declCopy
  | declExpr conv e =>
    unfold exec Mach.declExpr
    refine D rfl rfl (WB.decl (PB.wf (fun B hB => Tr.pre (P := PB (fun z => N + 1 ≤ z.1) (N + 1) B) (KP.tr ?_)
      (fun s h => h.mono (fun z hz => by have : N + 1 ≤ z.1 := hz; show N ≤ z.1; omega)))))
    have tail : KP (PB (fun z => N + 1 ≤ z.1) (N + 1) B) (do
        let s ← M.get
        M.forN (s.st (N, false)).sz (fun i => do
          let v ← M.reads (fun s => e.el s.env i)
          let w ← M.lift (conv v)
          onSlot (N, false) (Store.set i w))
        Mach.setDims N e : M (Mach V) Unit) :=
      KP.getB (fun s _ => KP.bind (KP.forN _ (fun i _ => KP.bind (KP.reads _) (fun v => KP.bind (KP.lift _) (fun w => PB.set (notS _)))))
        (fun _ => PB.setDims (notS _)))
    exact KP.getB (fun s _ => KP.ite (fun _ => KP.bind (PB.slot (Or.inr (hB N (le_refl _))) (notS _) (fun _ => resize_held)) (fun _ => tail))
      (fun _ => KP.bind (PB.upd (notS _) (fun _ => rfl) (fun _ => rfl)) (fun _ => tail)))
  | declTemp l mp =>
    have : Tr (WB N) (Mach.declTemp zero l mp) (fun _ => WB (N + 1 + 1)) (WE (N + 1)) := by
      unfold Mach.declTemp
      refine WB.withTmp (Tr.bind (R := fun _ => WB (N + 1)) ((PB.wf (fun B hB => PB.makeTemp hB)).mono (fun _ h => h) (fun _ _ h => h)
        (fun _ h => ⟨_, le_refl _, h⟩)) (fun _ => ?_))
      exact (WB.decl (WB.stealTemp (Nat.lt_succ_self N))).mono (fun _ h => h) (fun _ _ h => h) (fun _ h => by
        obtain ⟨k, hk, g⟩ := h; exact ⟨k, by omega, g⟩)
    have := this s h
    show match Mach.declTemp zero l mp s with
    | (.ok _, s') => WE N s' ∧ (_ → WE (newId s (.declTemp l mp) + 1) s')
    | (.thr _, s') => WE N s'
    | (.ub _, _) => True
    rcases e : Mach.declTemp zero l mp s with ⟨o, s'⟩
    rw [e] at this
    cases o with
    | ok a => exact ⟨⟨_, by omega, this⟩, fun _ => ⟨_, by show s.n + 1 + 1 ≤ _; rw [h.1.n], this⟩⟩
    | thr e => obtain ⟨k, hk, g⟩ := this; exact ⟨k, by omega, g⟩
    | ub k => trivial
  | declPtr p n =>
    unfold exec Mach.declPtr
    exact D rfl rfl (WB.decl (PB.wf (fun B hB => Tr.bind (PB.ctorD hB (fun _ => ctorSize_tr)) (fun _ => KP.tr (KP.bind
      (KP.forN _ (fun i _ => KP.bind (KP.reads _) (fun v => PB.set (notS _)))) (fun _ => PB.upd (notS _) (fun _ => rfl) (fun _ => rfl)))))))
  | declBorrow p n =>
    unfold exec
    exact D rfl rfl WB.declBorrow
  | assign conv x e =>
    unfold exec
    exact K rfl (PB.wb (fun B => PB.assign (S (hc x rfl))))
  | assignScalar x v =>
    unfold exec
    exact K rfl (PB.wb (fun B => PB.assignScalar (S (hc x rfl))))
  | subAssign conv same x ind e =>
    have hx := hc x rfl
    have : Tr (WB N) (Mach.subAssign zero conv same x ind e) (fun _ => WB (N + 1)) (WE (N + 1)) := by
      unfold Mach.subAssign
      refine WB.withTmp ?_
      exact (PB.wb (fun B => PB.subAssignBody (fun k h => by simp at h; omega) (notS))).tr.mono (fun s hs => hs.wb) (fun _ _ h => h) (fun _ h => ⟨_, le_refl _, h⟩)
    have := this s h
    show match Mach.subAssign zero conv same x ind e s with
    | (.ok _, s') => WE N s' ∧ (false = true → _)
    | (.thr _, s') => WE N s'
    | (.ub _, _) => True
    rcases e : Mach.subAssign zero conv same x ind e s with ⟨o, s'⟩
    rw [e] at this
    cases o with
    | ok a => exact ⟨⟨_, Nat.le_succ _, this⟩, fun e => by cases e⟩
    | thr e => obtain ⟨k, hk, g⟩ := this; exact ⟨k, by omega, g⟩
    | ub k => trivial
  | subAssignScalar x ind v =>
    unfold exec Mach.subAssignScalar
    exact K rfl (PB.wb (fun B => KP.forN _ (fun i _ => PB.subSet (S (hc x rfl)))))
  | setElem x i v =>
    unfold exec Mach.setElem
    exact K rfl (PB.wb (fun B => PB.set (S (hc x rfl) _)))
  | resize x n =>
    unfold exec
    exact K rfl (PB.wb (fun B => PB.resize (S (hc x rfl))))
  | fill x v =>
    unfold exec Mach.fill
    exact K rfl (PB.wb (fun B => PB.slotA (S (hc x rfl) _) (fun _ => fillScalar_held) (fun _ => fillScalar_foreign)))
  | fillVec x y =>
    unfold exec Mach.fillVec
    exact K rfl (PB.wb (fun B => KP.getB (fun s _ => PB.slotA (S (hc x rfl) _) (fun _ => fillVec_held) (fun _ => fillVec_foreign))))
  | pushBack x v =>
    have := PB.slot (S := fun z => N ≤ z.1) (N := N) (B := s.bor) (x := (x, false)) (Or.inr ho) (S (hc x rfl) _) (fun _ => pushBack_held (zero := zero) (v := v)) s h.1
    show match Mach.pushBack zero x v s with
    | (.ok _, s') => WE N s' ∧ (false = true → _)
    | (.thr _, s') => WE N s'
    | (.ub _, _) => True
    unfold Mach.pushBack
    rcases e : onSlot (x, false) (Store.pushBack zero v) s with ⟨o, s'⟩
    rw [e] at this
    cases o with
    | ok a => exact ⟨⟨_, le_refl _, PB.toWB this h.2⟩, fun e => by cases e⟩
    | thr e => exact ⟨_, le_refl _, PB.toWB this h.2⟩
    | ub k => trivial
  | storeAssign x y =>
    have := PB.slot (S := fun z => N ≤ z.1) (N := N) (B := s.bor) (x := (x, false)) (Or.inr ho) (S (hc x rfl) _)
      (fun _ => assign_held (zero := zero) (o := s.st (y, false))) s h.1
    show match Mach.storeAssign zero x y s with
    | (.ok _, s') => WE N s' ∧ (false = true → _)
    | (.thr _, s') => WE N s'
    | (.ub _, _) => True
    unfold Mach.storeAssign
    rw [M.bind_ok (M.get_apply _)]
    rcases e : onSlot (x, false) (Store.assign zero (s.st (y, false))) s with ⟨o, s'⟩
    rw [e] at this
    cases o with
    | ok a => exact ⟨⟨_, le_refl _, PB.toWB this h.2⟩, fun e => by cases e⟩
    | thr e => exact ⟨_, le_refl _, PB.toWB this h.2⟩
    | ub k => trivial
  | destroy x =>
    unfold exec
    exact K rfl (Tr.kp WB.destroy)

theorem WB.start (sched : List Bool) : WB 0 (Mach.start sched : Mach V) :=
  ⟨⟨fun b h => by simp [Lives, Mach.start, Heap.empty] at h, rfl, rfl, fun z _ b h => by cases h.1⟩, fun _ _ => rfl⟩

end Mach
end ETR
