import Verif.Model.Machine
import Verif.Lemmas.StoreSafe

/-! The invariant of the vector machine and its preservation by changes of one slot. -/

namespace ETR
namespace Mach
variable {V : Type}
open Store

/-- Invariant of a `temp` member. -/
structure TInv (h : Heap V) (s : Store) : Prop where
  own : Own h s
  cap : s.capacity < 2 ^ 31

/-- Invariant of the data member of a `Borrow` vector: it designates caller memory. -/
structure BInv (h : Heap V) (s : Store) : Prop where
  ptr : ∃ b, s.p = some b ∧ b < h.next ∧ (h.blk b).live = true ∧ (h.blk b).newed = false ∧
    s.capacity ≤ (h.blk b).len
  sz : s.sz ≤ s.capacity
  cap : 1 ≤ s.capacity
  al : s.allocated = true

/-- The slot owns its memory (every slot but `d` of a `Borrow` vector). -/
def owned (s : Mach V) (y : Slot) : Prop := y.2 = true ∨ s.bor y.1 = false

/-- Invariant of the machine. -/
structure Inv (s : Mach V) : Prop where
  sched : s.heap.sched = []
  d : ∀ x, s.bor x = false → DInv s.heap (s.st (x, false))
  t : ∀ x, TInv s.heap (s.st (x, true))
  b : ∀ x, s.bor x = true → BInv s.heap (s.st (x, false))
  inj : ∀ y z b, s.owned y → s.owned z → (s.st y).p = some b → (s.st z).p = some b → y = z
  own : ∀ b, b < s.heap.next → (s.heap.blk b).live = true → (s.heap.blk b).newed = true →
    ∃ y, s.owned y ∧ (s.st y).p = some b
  fresh : ∀ x, s.n ≤ x → s.st (x, false) = {} ∧ s.st (x, true) = {} ∧ s.bor x = false

theorem TInv.default (h : Heap V) : TInv h {} := ⟨Own.default h, by simp⟩

theorem Inv.start : Inv (start : Mach V) where
  sched := rfl
  d _ _ := DInv.default _
  t _ := TInv.default _
  b _ h := by simp [Mach.start] at h
  inj _ _ _ _ _ h := by simp [Mach.start] at h
  own _ h := by simp [Mach.start, Heap.empty] at h
  fresh _ _ := ⟨rfl, rfl, rfl⟩

theorem Inv.ownOf {s : Mach V} (I : Inv s) {y : Slot} (hy : s.owned y) : Own s.heap (s.st y) := by
  obtain ⟨x, b⟩ := y
  cases b with
  | true => exact (I.t x).own
  | false =>
    rcases hy with h | h
    · simp at h
    · exact (I.d x h).wf.own

/-- Change of one slot together with the heap. -/
def put (s : Mach V) (y : Slot) (r : Heap V × Store) : Mach V :=
  { s with heap := r.1, st := fun z => if z = y then r.2 else s.st z }

theorem onSlot_apply {α : Type} (y : Slot) (m : SM V α) (s : Mach V) :
    onSlot y m s = ((m (s.heap, s.st y)).1, s.put y (m (s.heap, s.st y)).2) := rfl

@[simp] theorem put_n (s : Mach V) (y : Slot) (r : Heap V × Store) : (s.put y r).n = s.n := rfl
@[simp] theorem put_bor (s : Mach V) (y : Slot) (r : Heap V × Store) : (s.put y r).bor = s.bor := rfl
@[simp] theorem put_heap (s : Mach V) (y : Slot) (r : Heap V × Store) : (s.put y r).heap = r.1 := rfl
@[simp] theorem put_same (s : Mach V) (y : Slot) (r : Heap V × Store) : (s.put y r).st y = r.2 := by
  simp [put]
theorem put_ne (s : Mach V) {y z : Slot} (r : Heap V × Store) (h : z ≠ y) :
    (s.put y r).st z = s.st z := by simp [put, h]
theorem put_owned (s : Mach V) (y z : Slot) (r : Heap V × Store) :
    (s.put y r).owned z ↔ s.owned z := Iff.rfl

theorem TInv.frame {h h' : Heap V} {s : Store} (w : TInv h s) (hn : h.next ≤ h'.next)
    (hp : ∀ b, s.p = some b → h'.blk b = h.blk b) : TInv h' s := by
  refine ⟨⟨fun b hb => ?_, w.own.null⟩, w.cap⟩
  have := w.own.ptr b hb
  rw [hp b hb]
  exact ⟨lt_of_lt_of_le this.1 hn, this.2⟩

theorem DInv.frame' {h h' : Heap V} {s : Store} (w : DInv h s) (hn : h.next ≤ h'.next)
    (hp : ∀ b, s.p = some b → h'.blk b = h.blk b) : DInv h' s :=
  ⟨w.wf.frame hn hp, w.al, w.sz, w.cap⟩

theorem BInv.frame {h h' : Heap V} {s : Store} (w : BInv h s) (hn : h.next ≤ h'.next)
    (hp : ∀ b, s.p = some b → (h'.blk b).live = (h.blk b).live ∧
      (h'.blk b).newed = (h.blk b).newed ∧ (h'.blk b).len = (h.blk b).len) : BInv h' s := by
  obtain ⟨b, h1, h2, h3, h4, h5⟩ := w.ptr
  obtain ⟨e1, e2, e3⟩ := hp b h1
  exact ⟨⟨b, h1, by omega, by rw [e1]; exact h3, by rw [e2]; exact h4, by omega⟩, w.sz, w.cap, w.al⟩

/-- A step of an owned slot keeps the invariant. -/
theorem Inv.step {s : Mach V} (I : Inv s) {y : Slot} (hy : s.owned y) (hlt : y.1 < s.n)
    {r : Heap V × Store} (st : Step s.heap (s.st y) r.1 r.2)
    (hd : y.2 = false → DInv r.1 r.2) (ht : y.2 = true → TInv r.1 r.2) : Inv (s.put y r) := by
  have oy := I.ownOf hy
  -- blocks of the other owners are untouched
  have fr : ∀ z, s.owned z → z ≠ y → ∀ b, (s.st z).p = some b → r.1.blk b = s.heap.blk b := by
    intro z hz hne b hb
    refine st.frame b ((I.ownOf hz).ptr b hb).1 (fun hyb => hne (I.inj z y b hz hy hb hyb))
  have frb : ∀ x, s.bor x = true → ∀ b, (s.st (x, false)).p = some b →
      r.1.blk b = s.heap.blk b := by
    intro x hx b hb
    obtain ⟨b', h1, h2, _, h4, _⟩ := (I.b x hx).ptr
    rw [hb] at h1; simp only [Option.some.injEq] at h1; subst h1
    refine st.frame b h2 (fun hyb => ?_)
    have := (oy.ptr b hyb).2.2.1
    rw [h4] at this; simp at this
  constructor
  · exact st.sched I.sched
  · intro x hx
    by_cases hxy : (x, false) = y
    · subst hxy; rw [put_same]; exact hd rfl
    · rw [put_ne _ _ hxy]
      exact DInv.frame' (I.d x hx) st.next_le (fr _ (Or.inr hx) hxy)
  · intro x
    by_cases hxy : (x, true) = y
    · subst hxy; rw [put_same]; exact ht rfl
    · rw [put_ne _ _ hxy]
      exact (I.t x).frame st.next_le (fr _ (Or.inl rfl) hxy)
  · intro x hx
    have hxy : (x, false) ≠ y := by
      rintro rfl
      rcases hy with h | h
      · simp at h
      · simp only [put_bor] at hx; rw [h] at hx; simp at hx
    rw [put_ne _ _ hxy]
    exact (I.b x hx).frame st.next_le (fun b hb => by simp only [put_heap, frb x hx b hb, and_self])
  · intro z w b hz hw hzb hwb
    rw [put_owned] at hz hw
    by_cases hzy : z = y
    · subst hzy
      by_cases hwz : w = z
      · exact hwz.symm
      · rw [put_same] at hzb
        rw [put_ne _ _ hwz] at hwb
        rcases st.ptr b hzb with h3 | h3
        · exact I.inj z w b hz hw h3 hwb
        · have := ((I.ownOf hw).ptr b hwb).1; omega
    · rw [put_ne _ _ hzy] at hzb
      by_cases hwy : w = y
      · subst hwy
        rw [put_same] at hwb
        rcases st.ptr b hwb with h3 | h3
        · exact I.inj z w b hz hw hzb h3
        · have := ((I.ownOf hz).ptr b hzb).1; omega
      · rw [put_ne _ _ hwy] at hwb
        exact I.inj z w b hz hw hzb hwb
  · intro b hb hl hn
    simp only [put_heap] at hb hl hn
    by_cases hbn : b < s.heap.next
    · by_cases hyb : (s.st y).p = some b
      · rcases st.drop b hyb with h3 | h3
        · exact ⟨y, hy, by rw [put_same]; exact h3⟩
        · rw [h3] at hl; simp at hl
      · rw [st.frame b hbn hyb] at hl hn
        obtain ⟨z, hz, hzb⟩ := I.own b hbn hl hn
        have hzy : z ≠ y := by rintro rfl; exact hyb hzb
        exact ⟨z, hz, by rw [put_ne _ _ hzy]; exact hzb⟩
    · rcases st.fresh b (by omega) hb with h3 | h3
      · exact ⟨y, hy, by rw [put_same]; exact h3⟩
      · rw [h3] at hl; simp at hl
  · intro x hx
    simp only [put_n] at hx
    obtain ⟨h1, h2, h3⟩ := I.fresh x hx
    have n1 : (x, false) ≠ y := by rintro rfl; simp at hlt; omega
    have n2 : (x, true) ≠ y := by rintro rfl; simp at hlt; omega
    rw [put_ne _ _ n1, put_ne _ _ n2]
    exact ⟨h1, h2, h3⟩

/-- A change of the contents of caller memory through a `Borrow` slot keeps the invariant. -/
theorem Inv.stepB {s : Mach V} (I : Inv s) {x : Nat} (hx : s.bor x = true)
    {r : Heap V × Store} (hn : r.1.next = s.heap.next) (hs : r.1.sched = s.heap.sched)
    (hp : ∀ b, (s.st (x, false)).p ≠ some b → r.1.blk b = s.heap.blk b)
    (hk : ∀ b, (r.1.blk b).live = (s.heap.blk b).live ∧
      (r.1.blk b).newed = (s.heap.blk b).newed ∧ (r.1.blk b).len = (s.heap.blk b).len)
    (hb : BInv r.1 r.2) : Inv (s.put (x, false) r) := by
  obtain ⟨b0, hb0, _, _, hnw, _⟩ := (I.b x hx).ptr
  have fr : ∀ z, s.owned z → ∀ b, (s.st z).p = some b → r.1.blk b = s.heap.blk b := by
    intro z hz b hzb
    refine hp b (fun h => ?_)
    rw [hb0] at h; simp only [Option.some.injEq] at h; subst h
    have := ((I.ownOf hz).ptr _ hzb).2.2.1
    rw [hnw] at this; simp at this
  have hno : ∀ z, s.owned z → z ≠ (x, false) := by
    rintro z hz rfl
    rcases hz with h | h
    · simp at h
    · rw [h] at hx; simp at hx
  constructor
  · simp only [put_heap]; rw [hs]; exact I.sched
  · intro y hy
    have := hno (y, false) (Or.inr hy)
    rw [put_ne _ _ this]
    exact DInv.frame' (I.d y hy) (le_of_eq hn.symm) (fr _ (Or.inr hy))
  · intro y
    rw [put_ne _ _ (hno (y, true) (Or.inl rfl))]
    exact (I.t y).frame (le_of_eq hn.symm) (fr _ (Or.inl rfl))
  · intro y hy
    by_cases hyx : y = x
    · subst hyx; rw [put_same]; exact hb
    · rw [put_ne _ _ (by simp [hyx])]
      exact (I.b y hy).frame (le_of_eq hn.symm) (fun b _ => hk b)
  · intro z w b hz hw hzb hwb
    rw [put_owned] at hz hw
    rw [put_ne _ _ (hno z hz)] at hzb
    rw [put_ne _ _ (hno w hw)] at hwb
    exact I.inj z w b hz hw hzb hwb
  · intro b hb1 hl hn1
    simp only [put_heap] at hb1 hl hn1
    obtain ⟨k1, k2, _⟩ := hk b
    rw [k1] at hl; rw [k2] at hn1
    obtain ⟨z, hz, hzb⟩ := I.own b (by omega) hl hn1
    exact ⟨z, hz, by rw [put_ne _ _ (hno z hz)]; exact hzb⟩
  · intro y hy
    simp only [put_n] at hy
    obtain ⟨h1, h2, h3⟩ := I.fresh y hy
    have hyx : y ≠ x := by rintro rfl; rw [h3] at hx; simp at hx
    rw [put_ne _ _ (by simp [hyx]), put_ne _ _ (by simp)]
    exact ⟨h1, h2, h3⟩

/-- A new identifier. -/
def bump (s : Mach V) : Mach V := { s with n := s.n + 1 }

theorem Inv.bump {s : Mach V} (I : Inv s) : Inv s.bump :=
  ⟨I.sched, I.d, I.t, I.b, I.inj, I.own, fun x hx => I.fresh x (by simp only [Mach.bump] at hx; omega)⟩

/-- Reset of an object all of whose owned memory has been released. -/
theorem Inv.reset {s : Mach V} (I : Inv s) {x : Nat} (h1 : (s.st (x, true)).p = none)
    (h2 : s.bor x = false → (s.st (x, false)).p = none) :
    Inv { s with
      st := fun y => if y.1 = x then {} else s.st y
      bor := fun y => if y = x then false else s.bor y } := by
  have hp : ∀ y b, s.owned y → (s.st y).p = some b → y.1 ≠ x := by
    rintro ⟨y, c⟩ b hy hb rfl
    cases c with
    | true => rw [h1] at hb; simp at hb
    | false =>
      rcases hy with h | h
      · simp at h
      · rw [h2 h] at hb; simp at hb
  have ho : ∀ y : Slot, y.1 ≠ x → (owned ({ s with
      st := fun y => if y.1 = x then {} else s.st y
      bor := fun y => if y = x then false else s.bor y } : Mach V) y ↔ s.owned y) := by
    intro y hy
    simp [owned, hy]
  constructor
  · exact I.sched
  · intro y hy
    simp only [] at hy ⊢
    by_cases hyx : y = x
    · rw [if_pos hyx]; exact DInv.default _
    · rw [if_neg hyx] at hy ⊢; exact I.d y hy
  · intro y
    simp only []
    by_cases hyx : y = x
    · rw [if_pos hyx]; exact TInv.default _
    · rw [if_neg hyx]; exact I.t y
  · intro y hy
    simp only [] at hy ⊢
    by_cases hyx : y = x
    · rw [if_pos hyx] at hy; simp at hy
    · rw [if_neg hyx] at hy ⊢; exact I.b y hy
  · intro y z b hy hz hyb hzb
    simp only [] at hyb hzb
    by_cases hyx : y.1 = x
    · rw [if_pos hyx] at hyb; simp at hyb
    · by_cases hzx : z.1 = x
      · rw [if_pos hzx] at hzb; simp at hzb
      · rw [if_neg hyx] at hyb; rw [if_neg hzx] at hzb
        exact I.inj y z b ((ho y hyx).mp hy) ((ho z hzx).mp hz) hyb hzb
  · intro b hb hl hn
    obtain ⟨y, hy, hyb⟩ := I.own b hb hl hn
    have hyx := hp y b hy hyb
    exact ⟨y, (ho y hyx).mpr hy, by simp only []; rw [if_neg hyx]; exact hyb⟩
  · intro y hy
    obtain ⟨e1, e2, e3⟩ := I.fresh y hy
    simp only []
    by_cases hyx : y = x
    · simp [hyx]
    · simp [hyx, e1, e2, e3]

/-- Exchange of the memory of two owned slots (only `p`, `sz`, `capacity`, `allocated` matter). -/
theorem Inv.swap {s : Mach V} (I : Inv s) {x : Nat} (hx : s.bor x = false) (hlt : x < s.n)
    {d' t' : Store} (hd : DInv s.heap d') (ht : TInv s.heap t')
    (hpd : d'.p = (s.st (x, true)).p) (hpt : t'.p = (s.st (x, false)).p) :
    Inv { s with st := fun y => if y = (x, false) then d' else if y = (x, true) then t' else s.st y }
    := by
  set s' : Mach V := { s with
      st := fun y => if y = (x, false) then d' else if y = (x, true) then t' else s.st y } with hs'
  let sw : Slot → Slot := fun y => if y = (x, false) then (x, true) else
    if y = (x, true) then (x, false) else y
  have swsw : ∀ y, sw (sw y) = y := by
    intro y; simp only [sw]
    by_cases h1 : y = (x, false)
    · simp [h1]
    · by_cases h2 : y = (x, true)
      · simp [h2]
      · simp [h1, h2]
  have swp : ∀ y, (s'.st y).p = (s.st (sw y)).p := by
    intro y; simp only [sw, hs']
    by_cases h1 : y = (x, false)
    · simp [h1, hpd]
    · by_cases h2 : y = (x, true)
      · simp [h2, hpt]
      · simp [h1, h2]
  have swo : ∀ y, s.owned y → s.owned (sw y) := by
    intro y hy; simp only [sw]
    split
    · exact Or.inl rfl
    · split
      · exact Or.inr hx
      · exact hy
  constructor
  · exact I.sched
  · intro y hy
    by_cases hyx : y = x
    · subst hyx; simpa [hs'] using hd
    · simpa [hs', hyx] using I.d y hy
  · intro y
    by_cases hyx : y = x
    · subst hyx; simpa [hs'] using ht
    · simpa [hs', hyx] using I.t y
  · intro y hy
    have hyx : y ≠ x := by rintro rfl; simp only [hs'] at hy; rw [hx] at hy; simp at hy
    simpa [hs', hyx] using I.b y hy
  · intro y z b hy hz hyb hzb
    rw [swp] at hyb hzb
    have := I.inj _ _ b (swo y hy) (swo z hz) hyb hzb
    rw [← swsw y, this, swsw]
  · intro b hb hl hn
    obtain ⟨y, hy, hyb⟩ := I.own b hb hl hn
    exact ⟨sw y, swo y hy, by rw [swp, swsw]; exact hyb⟩
  · intro y hy
    have hyx : y ≠ x := by rintro rfl; simp only [hs'] at hy; omega
    simpa [hs', hyx] using I.fresh y hy

end Mach
end ETR
