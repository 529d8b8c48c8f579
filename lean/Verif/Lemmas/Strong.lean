import Verif.Props.Frame

/-! What an operation that throws leaves unchanged: the data members of the existing vectors and their memory. -/

namespace ETR
variable {V : Type}

/-- `m` does not throw; it returns in `Q` or has undefined behaviour. -/
def NT {σ α : Type} (P : σ → Prop) (m : M σ α) (Q : α → σ → Prop) : Prop :=
  ∀ s, P s → match m s with
    | (.ok a, s') => Q a s'
    | (.thr _, _) => False
    | (.ub _, _) => True

section generic
variable {σ α β : Type}

theorem NT.bind {P : σ → Prop} {m : M σ α} {f : α → M σ β} {R : α → σ → Prop} {Q : β → σ → Prop}
    (h1 : NT P m R) (h2 : ∀ a, NT (R a) (f a) Q) : NT P (m >>= f) Q := by
  intro s hs
  have h := h1 s hs
  rw [M.bind_apply]
  rcases hm : m s with ⟨o, s'⟩
  rw [hm] at h
  cases o with
  | ok a => exact h2 a s' h
  | thr e => exact h
  | ub k => trivial

theorem NT.mono {P P' : σ → Prop} {m : M σ α} {Q Q' : α → σ → Prop} (h : NT P m Q) (hP : ∀ s, P' s → P s)
    (hQ : ∀ a s, Q a s → Q' a s) : NT P' m Q' := by
  intro s hs
  have := h s (hP s hs)
  rcases hm : m s with ⟨o, s'⟩
  rw [hm] at this
  cases o with
  | ok a => exact hQ _ _ this
  | thr e => exact this
  | ub k => trivial

theorem NT.forN {I : σ → Prop} {f : Nat → M σ Unit} (n : Nat) (h : ∀ i, i < n → NT I (f i) (fun _ => I)) :
    NT I (M.forN n f) (fun _ => I) := by
  induction n with
  | zero => intro s hs; exact hs
  | succ n ih =>
    rw [M.forN_succ]
    exact NT.bind (ih (fun i hi => h i (by omega))) (fun _ => h n (by omega))

theorem NT.get {P : σ → Prop} {f : σ → M σ β} {Q : β → σ → Prop} (h : ∀ s, P s → NT (fun s' => s' = s) (f s) Q) :
    NT P (M.get >>= f) Q := fun s hs => h s hs s rfl

theorem NT.reads {P : σ → Prop} {f : σ → Out α} (h : ∀ s, P s → ∀ e, f s ≠ .thr e) :
    NT P (M.reads f) (fun _ => P) := by
  intro s hs
  rw [M.reads_apply]
  cases hf : f s with
  | ok a => exact hs
  | thr e => exact h s hs e hf
  | ub k => trivial

theorem NT.of_safe {P : σ → Prop} {m : M σ α} {Q : α → σ → Prop} (h : M.Safe P m Q (fun _ => False)) : NT P m Q := by
  intro s hs
  have := h s hs
  rcases hm : m s with ⟨o, s'⟩
  rw [hm] at this
  cases o with
  | ok a => exact this
  | thr e => exact this
  | ub k => trivial

theorem NT.no {P : σ → Prop} {m : M σ α} {Q : α → σ → Prop} (h : NT P m Q) {s s' : σ} (hs : P s) {e : String} :
    m s ≠ (.thr e, s') := by
  intro hm
  have := h s hs
  rw [hm] at this
  exact this

end generic

theorem load_no_thr (h : Heap V) (p : Ptr) (i : Nat) (e : String) : h.load p i ≠ .thr e := by
  unfold Heap.load Heap.cellAt
  split <;> rename_i hm <;> try simp
  revert hm
  split
  · simp
  · split
    · simp
    · split <;> simp

theorem putCell_no_thr {p : Ptr} {i : Nat} {v : Option V} {P : Heap V → Prop} :
    NT P (Heap.putCell p i v) (fun _ _ => True) := by
  intro h _
  unfold Heap.putCell
  split <;> rename_i hm
  · revert hm; split <;> (try split) <;> (try split) <;> simp
  · revert hm; split <;> (try split) <;> (try split) <;> simp
  · trivial

namespace Store

theorem get_no_thr {h : Heap V} {s : Store} {i : Nat} (ha : s.allocated = true) (hi : i < s.sz) (e : String) :
    s.get h i ≠ .thr e := by
  rw [get_eq_load ha hi]; exact load_no_thr _ _ _ _

theorem heap_no_thr {m : M (Heap V) Unit} (hm : ∀ h, ∀ e h', m h ≠ (.thr e, h')) {P : Heap V × Store → Prop} :
    NT P (heapM m) (fun _ _ => True) := by
  rintro ⟨h, s⟩ _
  rw [heapM_apply]
  rcases hx : m h with ⟨o, h'⟩
  cases o with
  | ok a => trivial
  | thr e => exact hm h e h' hx
  | ub k => trivial

theorem store_no_thr {p : Ptr} {i : Nat} {v : V} (h : Heap V) (e : String) (h' : Heap V) :
    Heap.store p i v h ≠ (.thr e, h') :=
  NT.no (P := fun _ => True) putCell_no_thr trivial

theorem fillScalar_no_thr {v : V} {P : Heap V × Store → Prop} : NT P (fillScalar v) (fun _ _ => True) := by
  intro st _
  unfold fillScalar
  rw [M.bind_ok (self_apply _)]
  exact heap_no_thr (P := fun _ => True) (fun h e h' => NT.no (P := fun _ => True) (NT.forN (I := fun _ => True) _
    (fun i _ => putCell_no_thr)) trivial) st trivial

theorem copyRange_no_thr {src dst : Ptr} {n : Nat} (h : Heap V) (e : String) (h' : Heap V) :
    Heap.copyRange src n dst h ≠ (.thr e, h') := by
  refine NT.no (P := fun _ => True) (NT.forN (I := fun _ => True) _ (fun i _ => NT.bind (R := fun _ _ => True)
    (NT.reads (P := fun _ => True) (fun h _ e => ?_)) (fun _ => putCell_no_thr))) trivial
  unfold Heap.cellAt
  split
  · simp
  · split
    · simp
    · split <;> simp

/-- Writing an element changes only the heap. -/
theorem set_no_thr {x : Nat} {v : V} {P : Store → Prop} (h : ∀ s, P s → s.allocated = true ∧ x < s.sz) :
    NT (fun st => P st.2) (Store.set x v) (fun _ st => P st.2) := by
  rintro ⟨hp, s⟩ hs
  obtain ⟨h1, h2⟩ := h s hs
  have hc : checkIdx s x = .ok () := by
    unfold checkIdx; rw [Out.ass_pos h1, Out.ok_bind, Out.ass_pos h2]
  unfold Store.set
  rw [M.bind_ok (self_apply _), M.bind_ok (a := ()) (s' := (hp, s)) (by rw [M.lift_apply]; simp only [hc]), heapM_apply]
  rcases hx : Heap.store s.p x v hp with ⟨o, h'⟩
  cases o with
  | ok a => exact hs
  | thr e => exact store_no_thr _ _ _ hx
  | ub k => trivial

theorem pushBack_no_thr {zero v : V} {h : Heap V} {s : Store} (hs : h.sched = []) (i : DInv h s) (hlim : s.sz < 2 ^ 29) :
    NT (fun st => st = (h, s)) (pushBack zero v) (fun _ _ => True) := by
  unfold pushBack
  rintro _ rfl
  rw [M.bind_ok (self_apply _)]
  by_cases hc : s.sz = s.capacity
  · rw [if_pos hc]
    have hn : (s.sz * 2) % two64 = s.sz * 2 := Nat.mod_eq_of_lt (by unfold two64; omega)
    have h1 := NT.of_safe (realloc_safe (zero := zero) (n := if s.sz = 0 then 1 else s.sz * 2 % two64) hs i
      (by rw [hn]; split <;> omega) (by rw [hn]; split <;> omega))
    refine NT.bind (R := fun _ _ => True) (h1.mono (fun _ h => h) (fun _ _ _ => trivial)) (fun _ => ?_) _ rfl
    refine NT.bind (R := fun _ _ => True) (fun _ _ => trivial) (fun _ => ?_)
    refine NT.bind (R := fun _ _ => True) (fun _ _ => trivial) (fun _ => ?_)
    refine NT.bind (R := fun _ _ => True) (heap_no_thr (fun h e h' => store_no_thr h e h')) (fun _ => ?_)
    refine NT.bind (R := fun _ _ => True) ?_ (fun _ => fun _ _ => trivial)
    intro st _
    rw [M.lift_apply]
    unfold ckI32
    by_cases hr : InI32 (wrapI32 s.sz + 1)
    · simp [hr]
    · simp [hr]
  · rw [if_neg hc]
    by_cases hc' : s.sz < s.capacity
    · rw [if_pos hc']
      exact NT.bind (R := fun _ _ => True) (P := fun _ => True) (heap_no_thr (fun h e h' => store_no_thr h e h'))
        (fun _ => fun _ _ => trivial) _ trivial
    · rw [if_neg hc']; trivial

theorem assign_no_thr {zero : V} {h : Heap V} {s other : Store} (hs : h.sched = []) (i : DInv h s) (i' : DInv h other)
    (hle : s.sz ≤ other.sz) :
    NT (fun st => st = (h, s)) (assign zero other) (fun _ _ => True) := by
  have hz := i'.sz
  have hal : ∀ j, j < other.sz → other.allocated = true := by
    intro j hj
    cases hp : other.p with
    | none => have := i'.wf.null hp; omega
    | some b => exact (i'.wf.ptr b hp).2.2.2.2.2
  have loop : NT (fun st => st.2.sz ≤ other.sz) (do
      let s ← self
      M.forN s.sz (fun i => do
        let v ← M.reads (fun st => other.get st.1 i)
        heapM (Heap.store s.p i v)) : SM V Unit) (fun _ _ => True) := by
    rintro ⟨h1, s1⟩ hle
    rw [M.bind_ok (self_apply _)]
    refine NT.forN (I := fun _ => True) _ (fun j hj => ?_) _ trivial
    refine NT.bind (R := fun _ _ => True) (NT.reads (P := fun _ => True) (fun st _ => ?_)) (fun _ =>
      heap_no_thr (fun h e h' => store_no_thr h e h'))
    have hj' : j < other.sz := lt_of_lt_of_le hj hle
    exact get_no_thr (hal j hj') hj'
  unfold assign
  rintro _ rfl
  rw [M.bind_ok (self_apply _)]
  by_cases hgt : other.sz > s.sz
  · rw [if_pos hgt]
    by_cases ha : s.allocated = true
    · rw [if_pos ha]
      exact NT.bind (NT.of_safe (realloc_safe (zero := zero) (n := s.sz + (other.sz - s.sz)) hs i (by omega) (by omega)))
        (fun _ => loop.mono (by rintro ⟨h1, s1⟩ ⟨c, _, _, _, _, _, _, _, rfl⟩; simp only; omega) (fun _ _ h => h)) _ rfl
    · rw [if_neg ha]
      obtain ⟨h', s', e, _, _, z, _⟩ := resize_spec (zero := zero) (n := other.sz) hs i.wf.own i.al (by omega) (by omega)
      rw [M.bind_ok e]
      exact loop _ (by simp only; omega)
  · rw [if_neg hgt]
    exact loop (h, s) hle

end Store
namespace Mach
open Store
variable {α : Type}

/-- The vectors that exist in `s0` and their memory are unchanged; no other member points to that memory. -/
structure SI (s0 s : Mach V) : Prop where
  d : ∀ y, y < s0.n → s.st (y, false) = s0.st (y, false)
  k : ∀ y, y < s0.n → ∀ b, (s0.st (y, false)).p = some b → ∀ j, CellOK b j (s0.heap.blk b) s.heap
  o : ∀ y, y < s0.n → ∀ b, (s0.st (y, false)).p = some b → ∀ z : Slot, z.2 = true ∨ s0.n ≤ z.1 → (s.st z).p ≠ some b
  n : s0.n ≤ s.n

theorem SI.refl {s : Mach V} (I : Inv s) : SI s s := by
  refine ⟨fun _ _ => rfl, fun y hy b hp j => ?_, fun y hy b hp z hz hzp => ?_, le_refl _⟩
  · refine ⟨?_, rfl, rfl, rfl, rfl⟩
    cases hb : s.bor y with
    | false => exact ((I.d y hb).wf.ptr b hp).1
    | true =>
      obtain ⟨b', e, h1, _⟩ := (I.b y hb).ptr
      rw [hp] at e; cases e; exact h1
  · have hzo : s.owned z := by
      rcases hz with h | h
      · exact Or.inl h
      · exact Or.inr (I.fresh z.1 h).2.2
    have hne : z ≠ (y, false) := by
      rintro rfl
      rcases hz with h | h
      · simp at h
      · simp only at h; omega
    cases hb : s.bor y with
    | false => exact hne (I.inj z (y, false) b hzo (Or.inr hb) hzp hp)
    | true =>
      obtain ⟨b', e, _, _, h3, _⟩ := (I.b y hb).ptr
      rw [hp] at e; cases e
      have := ((I.ownOf hzo).ptr b hzp).2.2.1
      rw [h3] at this; simp at this

theorem SI.same {s0 s : Mach V} (h : SI s0 s) {y : Nat} (hy : y < s0.n) : SameVar s0 s y := by
  have e := h.d y hy
  refine ⟨?_, fun i => ?_, ?_⟩
  · show (s.st (y, false)).sz = (s0.st (y, false)).sz; rw [e]
  · show (s.st (y, false)).get s.heap i = (s0.st (y, false)).get s0.heap i
    rw [e]
    refine get_frame (fun b hp => ?_) i
    have k := h.k y hy b hp
    exact Block.ext_cells (fun j => (k j).cell) (k 0).live (k 0).newed (k 0).len
  · show (s.st (y, false)).mp = (s0.st (y, false)).mp; rw [e]

variable {s0 : Mach V}

/-- The slots that an operation may use before it can throw. -/
def Scratch (s0 : Mach V) (z : Slot) : Prop := z.2 = true ∨ s0.n ≤ z.1

theorem SI.slot {z : Slot} {m : SM V α} (hz : Scratch s0 z) (h : ∀ b j B, KP (RA b j B) m) :
    KP (SI s0) (Mach.onSlot z m) := by
  intro s I
  rw [onSlot_apply]
  have key : ∀ st' o, m (s.heap, s.st z) = (o, st') → (∀ k, o ≠ .ub k) → SI s0 (s.put z st') := by
    intro st' o hm ho
    have hr : ∀ y, y < s0.n → ∀ b, (s0.st (y, false)).p = some b → ∀ j, RA b j (s0.heap.blk b) st' := by
      intro y hy b hp j
      have := h b j (s0.heap.blk b) (s.heap, s.st z) ⟨I.k y hy b hp j, I.o y hy b hp z hz⟩
      rw [hm] at this
      cases o with
      | ok a => exact this
      | thr e => exact this
      | ub k => exact absurd rfl (ho k)
    refine ⟨fun y hy => ?_, fun y hy b hp j => (hr y hy b hp j).1, fun y hy b hp w hw => ?_, I.n⟩
    · rw [put_ne]
      · exact I.d y hy
      · rintro rfl
        rcases hz with h | h
        · simp at h
        · simp only at h; omega
    · by_cases hwz : w = z
      · subst hwz; rw [put_same]; exact (hr y hy b hp 0).2
      · rw [put_ne _ _ hwz]; exact I.o y hy b hp w hw
  rcases hm : m (s.heap, s.st z) with ⟨o, st'⟩
  cases o with
  | ok a => exact key st' _ hm (by simp)
  | thr e => exact key st' _ hm (by simp)
  | ub k => trivial

theorem SI.fillTemp {zero : V} {conv : V → Out V} {t : Nat} {e : Expr V} : KP (SI s0) (Mach.fillTemp zero conv t e) := by
  unfold Mach.fillTemp
  exact KP.getB (fun s _ => KP.bind (SI.slot (Or.inl rfl) (fun _ _ _ => KP.resizeA)) (fun _ => KP.forN _ (fun i _ =>
    KP.bind (KP.reads _) (fun v => KP.bind (KP.lift _) (fun w => SI.slot (Or.inl rfl) (fun _ _ _ => KP.setA))))))

theorem SI.set {x i : Nat} {v : V} (hx : s0.n ≤ x) : KP (SI s0) (Mach.onSlot (x, false) (Store.set i v)) :=
  SI.slot (Or.inr hx) (fun _ _ _ => KP.setA)

theorem SI.updMp {x : Nat} (hx : s0.n ≤ x) {f : Store → MP} :
    KP (SI s0) (Mach.onSlot (x, false) (Store.upd (fun s => { s with mp := f s }))) :=
  SI.slot (Or.inr hx) (fun _ _ _ => KP.updA (fun _ h => h))

theorem SI.setDims {x : Nat} (hx : s0.n ≤ x) {e : Expr V} : KP (SI s0) (Mach.setDims x e) := by
  unfold Mach.setDims
  exact KP.getB (fun s _ => KP.ite (fun _ => KP.bind (KP.lift _) (fun r => KP.bind (KP.lift _)
    (fun c => SI.updMp hx))) (fun _ => KP.pure ()))

theorem SI.destroy {x : Nat} (hx : s0.n ≤ x) : KP (SI s0) (Mach.destroy x : M (Mach V) Unit) := by
  unfold Mach.destroy
  refine KP.bind (SI.slot (Or.inl rfl) (fun _ _ _ => KP.dtorA)) (fun _ => KP.getB (fun s _ => ?_))
  have hr : KP (SI s0) (M.modify (fun s => { s with
      st := fun z => if z.1 = x then {} else s.st z
      bor := fun z => if z = x then false else s.bor z }) : M (Mach V) Unit) := by
    refine KP.modify (fun s I => ⟨fun y hy => ?_, I.k, fun y hy b hp z hz => ?_, I.n⟩)
    · simp only []; rw [if_neg (by omega)]; exact I.d y hy
    · simp only []
      split
      · simp
      · exact I.o y hy b hp z hz
  exact KP.ite (fun _ => KP.bind (SI.slot (Or.inr hx) (fun _ _ _ => KP.dtorA)) (fun _ => hr)) (fun _ => hr)

theorem SI.bump {s : Mach V} (I : SI s0 s) : SI s0 s.bump := ⟨I.d, I.k, I.o, Nat.le_succ_of_le I.n⟩

theorem SI.decl {body : Nat → M (Mach V) Unit} {s : Mach V} (hn : s0.n ≤ s.n) (h : Kept (SI s0) (body s.n s.bump)) :
    Kept (SI s0) (Mach.decl body s) := by
  rcases hm : body s.n s.bump with ⟨o, s'⟩
  rw [hm] at h
  cases o with
  | ub k => rw [decl_ub hm]; trivial
  | ok u => rw [decl_ok hm]; exact h
  | thr e => rw [decl_thr hm]; exact kept_thr (SI.destroy hn s' h)

theorem SI.withTmp {body : Nat → M (Mach V) Unit} {s : Mach V} (hn : s0.n ≤ s.n)
    (h : Kept (SI s0) (body s.n s.bump)) : Kept (SI s0) (Mach.withTmp body s) := by
  rcases hm : body s.n s.bump with ⟨o, s'⟩
  rw [hm] at h
  cases o with
  | ub k => rw [withTmp_ub hm]; trivial
  | ok u => rw [withTmp_ok hm]; exact SI.destroy hn s' h
  | thr e => rw [withTmp_thr hm]; exact kept_thr (SI.destroy hn s' h)

/-- `(.thr _, s')` only with `SI s0 s'`. -/
def StrongR (s0 : Mach V) : Out α × Mach V → Prop
  | (.thr _, s') => SI s0 s'
  | _ => True

theorem StrongR.kept {r : Out α × Mach V} (h : Kept (SI s0) r) : StrongR s0 r := by
  rcases r with ⟨o, s'⟩
  cases o with
  | ok a => trivial
  | thr e => exact h
  | ub k => trivial

theorem StrongR.nt {P : Mach V → Prop} {m : M (Mach V) α} {Q : α → Mach V → Prop} (h : NT P m Q) {s : Mach V} (hs : P s) :
    StrongR s0 (m s) := by
  have := h s hs
  rcases hm : m s with ⟨o, s'⟩
  rw [hm] at this
  cases o with
  | ok a => trivial
  | thr e => exact absurd this id
  | ub k => trivial

/-- An operation on a member that does not throw, or throws without an effect. -/
theorem StrongR.slot {s : Mach V} (I : Inv s) {z : Slot} {m : SM V α}
    (h : ∀ e st', m (s.heap, s.st z) = (.thr e, st') → st' = (s.heap, s.st z)) : StrongR s (onSlot z m s) := by
  rw [onSlot_apply]
  rcases hm : m (s.heap, s.st z) with ⟨o, st'⟩
  cases o with
  | ok a => trivial
  | thr e =>
    show SI s (s.put z st')
    rw [h e st' hm, put_self]; exact SI.refl I
  | ub k => trivial

theorem set_nt {z : Slot} {i : Nat} {v : V} {P : (Slot → Store) → Prop}
    (h : ∀ f, P f → (f z).allocated = true ∧ i < (f z).sz) :
    NT (fun s : Mach V => P s.st) (onSlot z (Store.set i v)) (fun _ s => P s.st) := by
  intro s hs
  have := Store.set_no_thr (V := V) (x := i) (v := v) (P := fun st => st = s.st z)
    (fun st e => by subst e; exact h s.st hs) (s.heap, s.st z) rfl
  rw [onSlot_apply]
  rcases hm : Store.set i v (s.heap, s.st z) with ⟨o, st'⟩
  rw [hm] at this
  cases o with
  | ok a =>
    have e : (s.put z st').st = s.st := by
      funext w
      by_cases hw : w = z
      · subst hw; rw [put_same]; exact this
      · rw [put_ne _ _ hw]
    show P (s.put z st').st
    rw [e]; exact hs
  | thr e => exact this
  | ub k => trivial

/-- Reading an element of a member that is allocated and long enough. -/
theorem read_nt {z : Slot} {i : Nat} {P : (Slot → Store) → Prop}
    (h : ∀ f, P f → (f z).allocated = true ∧ i < (f z).sz) :
    NT (fun s : Mach V => P s.st) (M.reads (fun s => (s.st z).get s.heap i)) (fun _ s => P s.st) :=
  NT.reads (P := fun s : Mach V => P s.st) (fun s hs e => Store.get_no_thr (h s.st hs).1 (h s.st hs).2 e)

theorem alloc_of_lt {s : Mach V} (I : Inv s) {x i : Nat} (h : i < (s.st (x, false)).sz) :
    (s.st (x, false)).allocated = true := by
  cases hb : s.bor x with
  | true => exact (I.b x hb).al
  | false =>
    cases hp : (s.st (x, false)).p with
    | none => have := (I.d x hb).wf.null hp; omega
    | some b => exact ((I.d x hb).wf.ptr b hp).2.2.2.2.2

/-- Two members are allocated and have the lengths `N` and `K`. -/
def AL (z w : Slot) (N K : Nat) (f : Slot → Store) : Prop :=
  ((f z).allocated = true ∧ (f z).sz = N) ∧ (f w).allocated = true ∧ (f w).sz = K

/-- An expression does not become longer if one of its vectors is set to its length. -/
theorem size_upd {env env' : Env V} {x n : Nat} (h1 : env'.size x = n) (h2 : ∀ y, y ≠ x → env'.size y = env.size y)
    (e : Expr V) (hn : e.size env ≤ n) : e.size env' ≤ n := by
  induction e with
  | leaf y =>
    by_cases h : y = x
    · subst h; exact le_of_eq h1
    · show env'.size y ≤ n; rw [h2 y h]; exact hn
  | rvec l mp => exact hn
  | scal v => exact hn
  | un f e ih => exact ih hn
  | sub e ind mp ih => exact hn
  | bin f l r ihl ihr =>
    simp only [Expr.size] at hn ⊢
    split at hn
    · rw [if_pos (by assumption)]; exact hn
    · rw [if_neg (by assumption)]
      split at hn
      · rw [if_pos (by assumption)]; exact ihl hn
      · rw [if_neg (by assumption)]
        split at hn
        · rw [if_pos (by assumption)]; exact ihr hn
        · rw [if_neg (by assumption)]
          have hl : l.size env ≤ n := by split at hn <;> omega
          have hr : r.size env ≤ n := by split at hn <;> omega
          have := ihl hl; have := ihr hr
          split <;> assumption

theorem strong_assign {zero : V} {conv : V → Out V} {x : Nat} {e : Expr V} {s : Mach V} (I : Inv s)
    (hal : s.Allowed (.assign conv x e)) : StrongR s (assign zero conv x e s) := by
  obtain ⟨hx, hc, hf, hn⟩ := hal
  have hsafe := safe_fillTemp (zero := zero) (t := x) hx hc hf (J.of I) hn s rfl
  have hkeep := SI.fillTemp (zero := zero) (conv := conv) (t := x) (e := e) s (SI.refl I)
  unfold Mach.assign
  rw [M.bind_ok (M.get_apply _)]
  by_cases hb : s.bor x = true
  · rw [if_pos hb]
    unfold assignBorrow
    rw [M.bind_ok (M.get_apply _)]
    by_cases h1 : e.size s.env ≤ (s.st (x, false)).capacity
    · rw [M.bind_ok (M.ass_pos h1 _), M.bind_apply]
      rcases hm : fillTemp zero conv x e s with ⟨o, s1⟩
      rw [hm] at hsafe hkeep
      cases o with
      | ub k => trivial
      | thr m => exact hkeep
      | ok u =>
        obtain ⟨J1, F1, E1⟩ := hsafe
        simp only []
        rw [M.bind_ok (M.get_apply _)]
        by_cases h2 : (s1.st (x, false)).sz ≤ e.size s1.env
        · rw [M.bind_ok (M.ass_pos h2 _)]
          have hs1 : e.size s1.env = e.size s.env := Expr.size_congr (fun y => by
            show (s1.st (y, false)).sz = (s.st (y, false)).sz
            rw [E1 (y, false) (by simp)]) e
          have al : (s.st (x, false)).allocated = true := (I.b x hb).al
          set N := e.size s.env with hN
          rw [hs1, M.bind_ok (onSlot_ok (upd_apply _ _)), M.bind_ok (M.get_apply _)]
          set s2 := s1.put (x, false) (s1.heap, { s1.st (x, false) with sz := N }) with hs2
          have hle : e.size s2.env ≤ N := size_upd (env := s.env) (x := x)
            (by show (s2.st (x, false)).sz = N; rw [hs2, put_same])
            (fun y hy => by
              show (s2.st (y, false)).sz = (s.st (y, false)).sz
              rw [hs2, put_ne _ _ (by simpa using hy), E1 (y, false) (by simp)]) e (le_of_eq hN.symm)
          refine StrongR.nt (P := fun s' => AL (x, false) (x, true) N N s'.st) (Q := fun _ _ => True) ?_ ?_
          · refine NT.bind (NT.forN _ (fun i hi => NT.bind (read_nt (P := AL (x, false) (x, true) N N)
              (fun f h => ⟨h.2.1, by rw [h.2.2]; omega⟩)) (fun v => set_nt (P := AL (x, false) (x, true) N N)
              (fun f h => ⟨h.1.1, by rw [h.1.2]; omega⟩)))) (fun _ => ?_)
            intro s' _
            rw [setDims_ok]
            trivial
          · refine ⟨⟨?_, ?_⟩, ?_, ?_⟩
            · rw [hs2, put_same, E1 (x, false) (by simp)]; exact al
            · rw [hs2, put_same]
            · rw [hs2, put_ne _ _ (by simp)]; exact F1.al
            · rw [hs2, put_ne _ _ (by simp)]; exact F1.sz
        · rw [M.bind_thr (M.ass_neg h2 _)]
          exact hkeep
    · rw [M.bind_thr (M.ass_neg h1 _)]
      exact SI.refl I
  · rw [if_neg hb]
    unfold assignBuffer
    rw [M.bind_apply]
    rcases hm : fillTemp zero conv x e s with ⟨o, s1⟩
    rw [hm] at hkeep
    cases o with
    | ub k => trivial
    | thr m => exact hkeep
    | ok u =>
      simp only [moveTemp]
      rw [M.bind_ok (M.modify_apply _ _), setDims_ok]
      trivial

theorem strong_assignScalar {zero : V} {x : Nat} {v : V} {s : Mach V} (I : Inv s) :
    StrongR s (assignScalar zero x v s) := by
  unfold Mach.assignScalar
  rw [M.bind_ok (M.get_apply _)]
  have key : ∀ s1 : Mach V, (s1.st (x, false)).allocated = true → 0 < (s1.st (x, false)).sz →
      StrongR s (onSlot (x, false) (Store.set 0 v) s1) := fun s1 h1 h2 =>
    StrongR.nt (set_nt (P := fun f => (f (x, false)).allocated = true ∧ 0 < (f (x, false)).sz) (fun f h => h)) ⟨h1, h2⟩
  by_cases hb : s.bor x = true
  · rw [if_pos hb, M.bind_ok (onSlot_ok (upd_apply _ _))]
    exact key _ (by rw [put_same]; exact (I.b x hb).al) (by rw [put_same]; exact Nat.one_pos)
  · rw [if_neg hb]
    have D := I.d x (by simpa using hb)
    obtain ⟨h', s', e, _, _, z, a, _⟩ := resize_spec (zero := zero) (n := 1) I.sched D.wf.own D.al (le_refl _) (by norm_num)
    rw [M.bind_ok (onSlot_ok e)]
    exact key _ (by rw [put_same]; exact a) (by rw [put_same]; show 0 < s'.sz; omega)

theorem subSet_nt {x pos : Nat} {ind : List Nat} {v : V} {P : (Slot → Store) → Prop} {N : Nat} (hp : pos < ind.length)
    (hi : ∀ j ∈ ind, j < N) (h : ∀ f, P f → (f (x, false)).allocated = true ∧ (f (x, false)).sz = N) :
    NT (fun s : Mach V => P s.st) (subSet x ind pos v) (fun _ s => P s.st) := by
  unfold subSet
  refine NT.get (fun s hs => ?_)
  intro s' e
  subst e
  obtain ⟨h1, h2⟩ := h s'.st hs
  have hN : 0 < N := lt_of_le_of_lt (Nat.zero_le _) (hi _ (List.getElem_mem hp))
  have hk : pos % N < ind.length := lt_of_le_of_lt (Nat.mod_le _ _) hp
  have e1 : modz pos (s'.st (x, false)).sz = .ok (pos % N) := by
    rw [h2]; unfold modz; rw [if_neg (by omega)]
  have e2 : getL ind (pos % N) = .ok ind[pos % N] := by
    unfold getL; rw [List.getElem?_eq_getElem hk]
  rw [M.bind_ok (a := pos % N) (s' := s') (by rw [M.lift_apply, e1]),
    M.bind_ok (a := ind[pos % N]) (s' := s') (by rw [M.lift_apply, e2])]
  exact set_nt (P := P) (fun f hf => ⟨(h f hf).1, by rw [(h f hf).2]; exact hi _ (List.getElem_mem hk)⟩) s' hs

theorem strong_subAssignScalar {x : Nat} {ind : List Nat} {v : V} {s : Mach V} (I : Inv s)
    (hi : ∀ j ∈ ind, j < s.env.size x) : StrongR s (subAssignScalar x ind v s) := by
  unfold Mach.subAssignScalar
  cases ind with
  | nil => trivial
  | cons j l =>
    have hj : j < (s.st (x, false)).sz := hi j (by simp)
    refine StrongR.nt (P := fun s' => (fun f : Slot → Store => (f (x, false)).allocated = true ∧
      (f (x, false)).sz = s.env.size x) s'.st) (NT.forN _ (fun i h => subSet_nt (P := fun f => (f (x, false)).allocated = true ∧
      (f (x, false)).sz = s.env.size x) h hi (fun f h => h))) ⟨alloc_of_lt I hj, rfl⟩

theorem strong_subAssign {zero : V} {conv : V → Out V} {same : Bool} {x : Nat} {ind : List Nat} {e : Expr V}
    {s : Mach V} (I : Inv s) (hal : s.Allowed (.subAssign conv same x ind e))
    (hi : ∀ j ∈ ind, j < s.env.size x) (hs : same = true → ind.length ≤ s.env.size x) :
    StrongR s (subAssign zero conv same x ind e s) := by
  obtain ⟨hx, hc, hf, hn⟩ := hal
  have hsafe := safe_subAssignBody (zero := zero) (same := same) (x := x) (t := s.n) (ind := ind) (conv := conv) (e := e)
    (k := s.n + 1) (bo := s.bor) (by omega) (by omega) hc hf hn s.bump (J.bump I)
  have hbody : StrongR s (subAssignBody zero conv same x ind e s.n s.bump) := by
    unfold subAssignBody
    rw [M.bind_ok (M.get_apply _)]
    by_cases h1 : e.size s.bump.env = ind.length
    · rw [M.bind_ok (M.ass_pos h1 _), M.bind_apply]
      have hft := safe_fillTemp (zero := zero) (t := s.n) (conv := conv) (e := e) (by omega) hc hf (J.bump I)
        (by rw [h1]; exact hn) s.bump rfl
      have hkeep := SI.fillTemp (zero := zero) (conv := conv) (t := s.n) (e := e) s.bump (SI.bump (SI.refl I))
      rcases hm : fillTemp zero conv s.n e s.bump with ⟨o, s1⟩
      rw [hm] at hft hkeep
      cases o with
      | ub k => trivial
      | thr m => exact hkeep
      | ok u =>
        obtain ⟨J1, F1, E1⟩ := hft
        simp only []
        rw [M.bind_ok (M.get_apply _)]
        have ex : s1.st (x, false) = s.st (x, false) := E1 (x, false) (by simp)
        rw [if_neg (by
          rintro ⟨h2, h3⟩
          rw [F1.sz, h1, ex] at h3
          have := hs h2
          have : ind.length ≤ (s.st (x, false)).sz := this
          omega)]
        have hne : 0 < ind.length → (s.st (x, false)).allocated = true := fun h =>
          alloc_of_lt I (i := ind[0]) (hi _ (List.getElem_mem h))
        cases hl : ind with
        | nil => exact trivial
        | cons j l =>
          rw [← hl]
          have hpos : 0 < ind.length := by rw [hl]; simp
          refine StrongR.nt (P := fun s' => AL (x, false) (s.n, true) (s.env.size x) ind.length s'.st)
            (NT.forN _ (fun i h => NT.bind (read_nt (P := AL (x, false) (s.n, true) (s.env.size x) ind.length)
              (fun f h' => ⟨h'.2.1, by rw [h'.2.2]; exact h⟩)) (fun v =>
              subSet_nt (P := AL (x, false) (s.n, true) (s.env.size x) ind.length) (Nat.mod_lt _ hpos) hi (fun f h => h.1)))) ?_
          refine ⟨⟨?_, ?_⟩, F1.al, F1.sz.trans h1⟩
          · rw [ex]; exact hne hpos
          · rw [ex]; rfl
    · rw [M.bind_thr (M.ass_neg h1 _)]
      exact SI.bump (SI.refl I)
  unfold Mach.subAssign
  rcases hm : subAssignBody zero conv same x ind e s.n s.bump with ⟨o, s'⟩
  rw [hm] at hbody hsafe
  cases o with
  | ub k => rw [withTmp_ub hm]; trivial
  | thr m => rw [withTmp_thr hm]; exact StrongR.kept (kept_thr (SI.destroy (le_refl _) s' hbody))
  | ok u =>
    rw [withTmp_ok hm]
    obtain ⟨s2, h2, _⟩ := safe_destroy hsafe.inv (x := s.n) (by rw [hsafe.n]; omega)
    rw [h2]; trivial

/-- The calls that cannot fail after they have begun to change a vector. -/
def Atomic (s : Mach V) : Cmd V → Prop
  | .storeAssign x y => s.env.size x ≤ s.env.size y
  | .subAssign _ same x ind _ => (∀ j ∈ ind, j < s.env.size x) ∧ (same = true → ind.length ≤ s.env.size x)
  | .subAssignScalar x ind _ => ∀ j ∈ ind, j < s.env.size x
  | _ => True

theorem strong_declCopy {y : Nat} {s : Mach V} (I : Inv s) (hal : s.Allowed (.declCopy y)) :
    StrongR s (declCopy y s) := by
  obtain ⟨f1, f2, f3⟩ := I.fresh s.n (le_refl _)
  have key : ∀ e s', (fun x => do
      let s ← M.get
      if s.bor y then
        M.modify (fun s => { s with
          st := fun z => if z = (x, false) then s.st (y, false) else s.st z
          bor := fun z => if z = x then true else s.bor z })
      else
        onSlot (x, false) (Store.copyCtor (s.st (y, false)))
      onSlot (x, true) (Store.copyCtor (s.st (y, true))) : Nat → M (Mach V) Unit) s.n s.bump ≠ (.thr e, s') := by
    intro e s' h
    simp only [] at h
    rw [M.bind_ok (M.get_apply _)] at h
    have last : ∀ s1 : Mach V, s1.heap.sched = [] → s1.st (s.n, true) = {} → TInv s1.heap (s.st (y, true)) →
        onSlot (s.n, true) (Store.copyCtor (s.bump.st (y, true))) s1 ≠ (.thr e, s') := by
      intro s1 a1 a2 a3 h
      rw [onSlot_apply, a2] at h
      have := copyCtor_own a1 a3.own a3.cap (s1.heap, {}) rfl
      rcases hm : Store.copyCtor (s.bump.st (y, true)) (s1.heap, ({} : Store)) with ⟨o, st⟩
      rw [hm] at h
      have hm' : Store.copyCtor (s.st (y, true)) (s1.heap, ({} : Store)) = (o, st) := hm
      rw [hm'] at this
      cases o with
      | ok a => simp at h
      | thr m => exact this
      | ub k => simp at h
    by_cases hb : s.bump.bor y = true
    · rw [if_pos hb, M.bind_ok (M.modify_apply _ _)] at h
      refine last _ ?_ ?_ ?_ h
      · exact I.sched
      · show (if (s.n, true) = (s.n, false) then s.st (y, false) else s.st (s.n, true)) = {}
        rw [if_neg (by simp)]; exact f2
      · exact I.t y
    · rw [if_neg hb] at h
      have hb' : s.bor y = false := Bool.eq_false_iff.mpr hb
      have hc := copyCtor_safe I.sched (I.d y hb') (hal.2 hb') (s.heap, {}) rfl
      rw [M.bind_apply, onSlot_apply, show s.bump.st (s.n, false) = {} from f1] at h
      rcases hm : Store.copyCtor (s.bump.st (y, false)) (s.bump.heap, ({} : Store)) with ⟨o, st⟩
      have hm' : Store.copyCtor (s.st (y, false)) (s.heap, ({} : Store)) = (o, st) := hm
      rw [hm] at h
      rw [hm'] at hc
      cases o with
      | ok a =>
        refine last _ (hc.2.sched I.sched) ?_ ((I.t y).frame hc.2.next_le (fun b hb => ?_)) h
        · rw [put_ne _ _ (by simp)]; exact f2
        · exact hc.2.frame b ((I.t y).own.ptr b hb).1 (by simp)
      | thr m => exact hc
      | ub k => simp at h
  unfold Mach.declCopy
  rcases hm : (fun x => do
      let s ← M.get
      if s.bor y then
        M.modify (fun s => { s with
          st := fun z => if z = (x, false) then s.st (y, false) else s.st z
          bor := fun z => if z = x then true else s.bor z })
      else
        onSlot (x, false) (Store.copyCtor (s.st (y, false)))
      onSlot (x, true) (Store.copyCtor (s.st (y, true))) : Nat → M (Mach V) Unit) s.n s.bump with ⟨o, s'⟩
  cases o with
  | ok a => rw [decl_ok hm]; trivial
  | ub k => rw [decl_ub hm]; trivial
  | thr m => exact absurd hm (key m s')

theorem exec_strong {zero : V} {c : Cmd V} {s : Mach V} (I : Inv s) (hal : s.Allowed c) (hat : Atomic s c) :
    StrongR s (exec zero c s) := by
  have hn : s.n ≤ s.n := le_refl _
  have D : ∀ {body : Nat → M (Mach V) Unit}, KP (SI s) (body s.n) → StrongR s (Mach.decl body s) := fun h =>
    StrongR.kept (SI.decl hn (h s.bump (SI.bump (SI.refl I))))
  have N : ∀ {m : SM V Unit}, (∀ b j B, KP (RA b j B) m) → KP (SI s) (Mach.onSlot (s.n, false) m) := fun h =>
    SI.slot (Or.inr hn) h
  cases c with
  | callerArray l => trivial
  | declDefault =>
    unfold exec Mach.declDefault
    exact D (KP.pure ())
  | declSize n =>
    unfold exec Mach.declSize
    exact D (N (fun _ _ _ => KP.ctorSizeA))
  | declScalar v =>
    unfold exec Mach.declScalar
    exact D (KP.bind (N (fun _ _ _ => KP.ctorIntA)) (fun _ => SI.set hn))
  | declMat r c =>
    unfold exec Mach.declMat
    exact D (KP.bind (N (fun _ _ _ => KP.ctorSizeA)) (fun _ => SI.updMp hn))
  | declMatVal r c v =>
    unfold exec Mach.declMatVal
    exact D (KP.bind (N (fun _ _ _ => KP.ctorSizeA)) (fun _ => KP.bind (SI.updMp hn) (fun _ => N (fun _ _ _ => KP.fillA))))
  | declCopy y => exact strong_declCopy I hal
  | declExpr conv e =>
    unfold exec Mach.declExpr
    refine D (KP.getB (fun s1 _ => ?_))
    have hl : KP (SI s) (do
        let s' ← M.get
        M.forN (s'.st (s.n, false)).sz (fun i => do
          let v ← M.reads (fun s => e.el s.env i)
          let w ← M.lift (conv v)
          Mach.onSlot (s.n, false) (Store.set i w))
        Mach.setDims s.n e : M (Mach V) Unit) :=
      KP.getB (fun s' _ => KP.bind (KP.forN _ (fun i _ => KP.bind (KP.reads _)
        (fun v => KP.bind (KP.lift _) (fun w => SI.set hn)))) (fun _ => SI.setDims hn))
    exact KP.ite (fun _ => KP.bind (N (fun _ _ _ => KP.resizeA)) (fun _ => hl))
      (fun _ => KP.bind (N (fun _ _ _ => KP.updA (fun _ h => h))) (fun _ => hl))
  | declTemp l mp =>
    unfold exec Mach.declTemp
    refine StrongR.kept (SI.withTmp hn ?_)
    have hmk : KP (SI s) (makeTemp zero l mp s.n) :=
      KP.bind (N (fun _ _ _ => KP.ctorSizeA)) (fun _ => KP.bind (KP.forN _ (fun i _ =>
        KP.bind (KP.lift _) (fun v => SI.set hn))) (fun _ => SI.updMp hn))
    have hnn : KP (fun s1 : Mach V => s1.n = s.n + 1) (makeTemp zero l mp s.n) := by
      have ho : ∀ {α : Type} (m : SM V α) , KP (fun s1 : Mach V => s1.n = s.n + 1)
          (Mach.onSlot (s.n, false) m) := by
        intro α m s1 hs1
        rw [onSlot_apply]
        rcases m (s1.heap, s1.st (s.n, false)) with ⟨o, st'⟩
        cases o <;> first | exact hs1 | trivial
      exact KP.bind (ho _) (fun _ => KP.bind (KP.forN _ (fun i _ =>
        KP.bind (KP.lift _) (fun v => ho _))) (fun _ => ho _))
    have k1 := hmk s.bump (SI.bump (SI.refl I))
    have k2 := hnn s.bump rfl
    show Kept (SI s) ((makeTemp zero l mp s.n >>= fun _ => Mach.decl (fun y => stealTemp s.n y)) s.bump)
    rw [M.bind_apply]
    rcases hm : makeTemp zero l mp s.n s.bump with ⟨o, s1⟩
    rw [hm] at k1 k2
    cases o with
    | ub k => trivial
    | thr e => exact k1
    | ok u =>
      have k2 : s1.n = s.n + 1 := k2
      have k1 : SI s s1 := k1
      refine SI.decl (by omega) ⟨fun y hy => ?_, k1.k, fun y hy b hp z hz => ?_, by show s.n ≤ s1.n + 1; omega⟩
      · show (if (y, false) = (s1.n, false) then _ else if (y, false) = (s.n, false) then _ else s1.st (y, false)) = _
        rw [if_neg (by simp; omega), if_neg (by simp; omega)]
        exact k1.d y hy
      · show (if z = (s1.n, false) then _ else if z = (s.n, false) then _ else s1.st z).p ≠ some b
        split
        · exact k1.o y hy b hp (s.n, false) (Or.inr (le_refl _))
        · split
          · exact k1.o y hy b hp (s1.n, false) (Or.inr (by show s.n ≤ s1.n; omega))
          · exact k1.o y hy b hp z hz
  | declPtr p n =>
    unfold exec Mach.declPtr
    exact D (KP.bind (N (fun _ _ _ => KP.ctorSizeA)) (fun _ => KP.bind
      (KP.forN _ (fun i _ => KP.bind (KP.reads _) (fun v => SI.set hn))) (fun _ => SI.updMp hn)))
  | declBorrow p n => trivial
  | assign conv x e => exact strong_assign I hal
  | assignScalar x v => exact strong_assignScalar I
  | subAssign conv same x ind e => exact strong_subAssign I hal hat.1 hat.2
  | subAssignScalar x ind v => exact strong_subAssignScalar I hat
  | setElem x i v =>
    refine StrongR.slot I (fun e st' h => ?_)
    by_cases hi : i < (s.st (x, false)).sz
    · exact absurd h (NT.no (Store.set_no_thr (P := fun st => st = s.st (x, false)) (fun st e => by
        subst e; exact ⟨alloc_of_lt I hi, hi⟩)) rfl)
    · obtain ⟨m, hm⟩ := set_thr (V := V) (h := s.heap) (s := s.st (x, false)) (i := i) (v := v) (by omega)
      rw [hm] at h; exact (Prod.mk.inj h).2.symm
  | resize x n =>
    show StrongR s (Mach.resize zero x n s)
    unfold Mach.resize
    rw [M.bind_ok (M.get_apply _)]
    by_cases hb : s.bor x = true
    · rw [if_pos hb]
      refine StrongR.slot I (fun e st' h => ?_)
      unfold borrowResize at h
      by_cases h1 : n ≥ 1
      · rw [M.bind_ok (M.ass_pos h1 _), M.bind_ok (self_apply _)] at h
        by_cases h2 : n ≤ (s.st (x, false)).capacity
        · rw [if_pos h2, upd_apply] at h; simp at h
        · rw [if_neg h2, M.lift_apply] at h; exact (Prod.mk.inj h).2.symm
      · rw [M.bind_thr (M.ass_neg h1 _)] at h; exact (Prod.mk.inj h).2.symm
    · rw [if_neg hb]
      refine StrongR.slot I (fun e st' h => ?_)
      have D := I.d x (by simpa using hb)
      rcases Nat.eq_zero_or_pos n with h0 | h1
      · subst h0; rw [resize_zero] at h; exact (Prod.mk.inj h).2.symm
      · obtain ⟨h', s', e', _⟩ := resize_spec (zero := zero) (n := n) I.sched D.wf.own D.al h1 (by have := hal.2; omega)
        rw [e'] at h; simp at h
  | fill x v =>
    refine StrongR.slot I (fun e st' h => ?_)
    exact absurd h (NT.no (P := fun _ => True) Store.fillScalar_no_thr trivial)
  | fillVec x y =>
    show StrongR s (Mach.fillVec x y s)
    unfold Mach.fillVec
    rw [M.bind_ok (M.get_apply _)]
    refine StrongR.slot I (fun e st' h => ?_)
    by_cases hz : (s.st (y, false)).sz = (s.st (x, false)).sz
    · unfold Store.fillVec Store.fillLoop at h
      rw [M.bind_ok (self_apply _), M.bind_ok (M.ass_pos hz _)] at h
      refine absurd h (NT.no (P := fun _ => True) (NT.forN (I := fun _ => True) _ (fun j hj => ?_)) trivial)
      refine NT.bind (R := fun _ _ => True) (NT.reads (P := fun _ => True) (fun st _ => ?_)) (fun _ =>
        Store.heap_no_thr (fun h e h' => Store.store_no_thr h e h'))
      have hj' : j < (s.st (y, false)).sz := by simp only [] at hj; omega
      refine Store.get_no_thr ?_ hj'
      cases hy : s.bor y with
      | false =>
        have i := I.d y hy
        cases hp : (s.st (y, false)).p with
        | none => have := i.wf.null hp; omega
        | some b => exact (i.wf.ptr b hp).2.2.2.2.2
      | true => exact (I.b y hy).al
    · rw [fillVec_thr hz] at h; exact (Prod.mk.inj h).2.symm
  | pushBack x v => exact StrongR.slot I (fun e st' h => absurd h (NT.no (Store.pushBack_no_thr I.sched (I.d x hal.2.1) hal.2.2) rfl))
  | storeAssign x y =>
    show StrongR s (Mach.storeAssign zero x y s)
    unfold Mach.storeAssign
    rw [M.bind_ok (M.get_apply _)]
    exact StrongR.slot I (fun e st' h => absurd h (NT.no (Store.assign_no_thr I.sched (I.d x hal.2.1) (I.d y hal.2.2.1) hat) rfl))
  | destroy x =>
    obtain ⟨s', h, _⟩ := safe_destroy I (x := x) hal
    show StrongR s (Mach.destroy x s)
    rw [h]; trivial

end Mach
end ETR
