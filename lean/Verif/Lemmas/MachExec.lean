import Verif.Lemmas.MachSafe

/-! Every operation keeps the invariant of the machine and makes no memory error. -/

namespace ETR
namespace Mach
variable {V : Type}
open Store

theorem J.of {s : Mach V} (I : Inv s) : J s.n s.bor s := ⟨I, rfl, rfl⟩

theorem J.bump {s : Mach V} (I : Inv s) : J (s.n + 1) s.bor s.bump := ⟨I.bump, rfl, rfl⟩

/-- Post-condition of a constructor body. -/
theorem J.lt {k : Nat} {bo : Nat → Bool} {s : Mach V} (h : J (k + 1) bo s) : Inv s ∧ k < s.n :=
  ⟨h.inv, by rw [h.n]; omega⟩

theorem Inv.callerArray {s : Mach V} (I : Inv s) (l : List V) :
    Inv { s with heap := (s.heap.foreign l).1 } := by
  have hb : ∀ b, b < s.heap.next → (s.heap.foreign l).1.blk b = s.heap.blk b := by
    intro b hb
    have : b ≠ s.heap.next := by omega
    simp [Heap.foreign, Heap.setBlk, this]
  have hn : s.heap.next ≤ (s.heap.foreign l).1.next := by simp [Heap.foreign]
  constructor
  · exact I.sched
  · intro x hx
    exact DInv.frame' (I.d x hx) hn (fun b h => hb b ((I.d x hx).wf.ptr b h).1)
  · intro x
    exact (I.t x).frame hn (fun b h => hb b ((I.t x).own.ptr b h).1)
  · intro x hx
    refine (I.b x hx).frame hn (fun b h => ?_)
    obtain ⟨b', h1, h2, _⟩ := (I.b x hx).ptr
    rw [h] at h1; simp only [Option.some.injEq] at h1; subst h1
    simp only [hb b h2, and_self]
  · exact I.inj
  · intro b h1 h2 h3
    have hlt : b < s.heap.next := by
      by_contra hcon
      have : b = s.heap.next := by simp [Heap.foreign] at h1; omega
      subst this
      simp [Heap.foreign, Heap.setBlk] at h3
    simp only [hb b hlt] at h2 h3
    exact I.own b hlt h2 h3
  · exact I.fresh

theorem safe_ctorSize {zero : V} {s0 : Mach V} (I : Inv s0) {n : Nat} (hn : n ≤ 2 ^ 30) :
    M.Safe (fun s => s = s0.bump) (onSlot (s0.n, false) (Store.ctorSize zero n))
      (fun _ s => J (s0.n + 1) s0.bor s ∧ (s.st (s0.n, false)).sz = n)
      (J (s0.n + 1) s0.bor) := by
  obtain ⟨f1, f2, f3⟩ := I.fresh s0.n (le_refl _)
  have hs : s0.bump.st (s0.n, false) = {} := f1
  refine M.Safe.conseq (safe_d (J.bump I) f3 (by omega)
    (Q := fun _ st => Keeps s0.heap {} st ∧ st.2.sz = n) (E := Keeps s0.heap {}) ?_ ?_ ?_)
    (fun _ h => h) ?_ (fun _ h => h.1)
  · rw [hs]
    refine M.Safe.conseq (ctorSize_safe I.sched hn) (fun _ h => h) (fun _ _ h => h) ?_
    rintro ⟨h, s⟩ ⟨h1, h2, h3, h4, h5⟩
    simp only [] at h1 h2 h3 h4 h5
    subst h1
    exact ⟨⟨⟨by simp [h2], fun _ => ⟨h3, h4⟩⟩, by simp [h5], by simp [h3], by simp [h4]⟩,
      Step.of_ptr (by simp [h2])⟩
  · rw [hs]; exact fun _ _ h => h.1
  · rw [hs]; exact fun _ h => h
  · rintro _ s ⟨h1, st, ⟨_, h3⟩, rfl⟩
    exact ⟨h1, by rw [put_same]; exact h3⟩

theorem safe_declScalar {zero v : V} {s0 : Mach V} (I : Inv s0) :
    M.Safe (fun s => s = s0) (declScalar zero v) (fun _ s => Inv s ∧ s0.n < s.n)
      (fun s => Inv s ∧ s0.n < s.n) := by
  refine safe_decl ?_
  obtain ⟨f1, f2, f3⟩ := I.fresh s0.n (le_refl _)
  have hs : s0.bump.st (s0.n, false) = {} := f1
  refine M.Safe.bind (R := fun _ => J (s0.n + 1) s0.bor) ?_ (fun _ => ?_)
  · refine M.Safe.conseq (safe_d (J.bump I) f3 (by omega)
      (Q := fun _ => Keeps s0.heap {}) (E := Keeps s0.heap {}) ?_ ?_ ?_)
      (fun _ h => h) (fun _ _ h => h.1) (fun _ h => h.1.lt)
    · rw [hs]
      exact M.Safe.conseq (ctorInt_safe I.sched) (fun _ h => h) (fun _ _ h => h.1)
        (fun _ h => absurd h id)
    · rw [hs]; exact fun _ _ h => h
    · rw [hs]; exact fun _ h => h
  · exact M.Safe.conseq (safe_set (by omega)) (fun _ h => h) (fun _ _ h => h.lt) (fun _ h => h.lt)

theorem safe_declMat {zero : V} {s0 : Mach V} (I : Inv s0) {r c : Nat} (hn : r * c ≤ 2 ^ 30) :
    M.Safe (fun s => s = s0) (declMat zero r c) (fun _ s => Inv s ∧ s0.n < s.n)
      (fun s => Inv s ∧ s0.n < s.n) := by
  refine safe_decl ?_
  have e : (r * c) % two64 = r * c := Nat.mod_eq_of_lt (by unfold two64; omega)
  rw [e]
  refine M.Safe.bind (M.Safe.conseq (safe_ctorSize I hn) (fun _ h => h) (fun _ _ h => h)
    (fun _ h => h.lt)) (fun _ => ?_)
  exact M.Safe.conseq (safe_mp (by omega)) (fun _ h => h.1) (fun _ _ h => h.lt) (fun _ h => h.lt)

theorem safe_declMatVal {zero v : V} {s0 : Mach V} (I : Inv s0) {r c : Nat} (hn : r * c ≤ 2 ^ 30) :
    M.Safe (fun s => s = s0) (declMatVal zero r c v) (fun _ s => Inv s ∧ s0.n < s.n)
      (fun s => Inv s ∧ s0.n < s.n) := by
  refine safe_decl ?_
  have e : (r * c) % two64 = r * c := Nat.mod_eq_of_lt (by unfold two64; omega)
  rw [e]
  refine M.Safe.bind (M.Safe.conseq (safe_ctorSize I hn) (fun _ h => h) (fun _ _ h => h)
    (fun _ h => h.lt)) (fun _ => ?_)
  refine M.Safe.bind (M.Safe.conseq (safe_mp (by omega)) (fun _ h => h.1) (fun _ _ h => h)
    (fun _ h => h.lt)) (fun _ => ?_)
  exact M.Safe.conseq (safe_fill (by omega)) (fun _ h => h) (fun _ _ h => h.lt) (fun _ h => h.lt)

theorem safe_declExpr {zero : V} {conv : V → Out V} {e : Expr V} {s0 : Mach V} (I : Inv s0)
    (hc : ∀ v, (conv v).NoMem) (hf : e.FunSafe) (hn : e.size s0.env ≤ 2 ^ 30) :
    M.Safe (fun s => s = s0) (declExpr zero conv e) (fun _ s => Inv s ∧ s0.n < s.n)
      (fun s => Inv s ∧ s0.n < s.n) := by
  refine safe_decl ?_
  obtain ⟨f1, f2, f3⟩ := I.fresh s0.n (le_refl _)
  have hs : s0.bump.st (s0.n, false) = {} := f1
  have hJ := J.bump I
  refine safe_get ?_
  rintro _ rfl
  have he : s0.bump.env = s0.env := rfl
  have rest : M.Safe (J (s0.n + 1) s0.bor) (do
      let s ← M.get
      M.forN (s.st (s0.n, false)).sz (fun i => do
        let v ← M.reads (fun s => e.el s.env i)
        let w ← M.lift (conv v)
        onSlot (s0.n, false) (Store.set i w))
      setDims s0.n e : M (Mach V) Unit) (fun _ s => Inv s ∧ s0.n < s.n)
      (fun s => Inv s ∧ s0.n < s.n) := by
    refine safe_get (fun s1 I1 => ?_)
    refine M.Safe.bind (R := fun _ => J (s0.n + 1) s0.bor) ?_ (fun _ => M.Safe.conseq
      (safe_setDims (by omega)) (fun _ h => h) (fun _ _ h => h.lt) (fun _ h => h.lt))
    refine M.Safe.conseq (M.Safe.forN (I := fun _ => J (s0.n + 1) s0.bor)
      (E := J (s0.n + 1) s0.bor) _ ?_) (by rintro _ rfl; exact I1) (fun _ _ h => h) (fun _ h => h.lt)
    intro i _
    refine M.Safe.bind (M.Safe.reads (fun s h => h.inv.el_noMem hf i) (fun _ h => h)) (fun v => ?_)
    refine M.Safe.bind (M.Safe.conseq (M.Safe.lift (P := J (s0.n + 1) s0.bor) (hc v)
      (fun _ h => h)) (fun _ h => h.1) (fun _ _ h => h) (fun _ h => h)) (fun w => ?_)
    exact M.Safe.conseq (safe_set (by omega)) (fun _ h => h.1) (fun _ _ h => h) (fun _ h => h)
  by_cases hlt : (s0.bump.st (s0.n, false)).sz < e.size s0.bump.env
  · rw [if_pos hlt]
    refine M.Safe.bind (R := fun _ => J (s0.n + 1) s0.bor) ?_ (fun _ => rest)
    exact M.Safe.conseq (safe_d hJ f3 (by omega) (resize_safe hJ.inv.sched (hJ.inv.d _ f3) hn)
      (fun _ _ h => h.1) (fun _ h => h)) (fun _ h => h) (fun _ _ h => h.1) (fun _ h => h.1.lt)
  · rw [if_neg hlt]
    refine M.Safe.bind (R := fun _ => J (s0.n + 1) s0.bor) ?_ (fun _ => rest)
    have hz : e.size s0.bump.env = 0 := by
      rw [hs] at hlt; simp at hlt; exact hlt
    refine M.Safe.conseq (safe_d hJ f3 (by omega)
      (Q := fun _ => Keeps s0.bump.heap (s0.bump.st (s0.n, false)))
      (E := Keeps s0.bump.heap (s0.bump.st (s0.n, false))) ?_
      (fun _ _ h => h) (fun _ h => h)) (fun _ h => h) (fun _ _ h => h.1) (fun _ h => h.1.lt)
    rintro _ rfl
    rw [upd_apply, hz, hs]
    exact ⟨⟨⟨by simp, by simp⟩, by simp, by simp, by simp⟩, Step.of_ptr rfl⟩

theorem safe_declCopy {y : Nat} {s0 : Mach V} (I : Inv s0)
    (hcap : s0.bor y = false → (s0.st (y, false)).sz ≤ (s0.st (y, false)).capacity) :
    M.Safe (fun s => s = s0) (declCopy y) (fun _ s => Inv s ∧ s0.n < s.n)
      (fun s => Inv s ∧ s0.n < s.n) := by
  refine safe_decl ?_
  obtain ⟨f1, f2, f3⟩ := I.fresh s0.n (le_refl _)
  have hs : s0.bump.st (s0.n, false) = {} := f1
  have hst : s0.bump.st (s0.n, true) = {} := f2
  have hJ := J.bump I
  refine safe_get ?_
  rintro _ rfl
  -- copy of temp
  have tempCopy : ∀ (bo : Nat → Bool) (s1 : Mach V), J (s0.n + 1) bo s1 →
      s1.st (s0.n, true) = {} → s1.st (y, true) = s0.st (y, true) →
      M.Safe (fun s => s = s1) (onSlot (s0.n, true) (Store.copyCtor (s0.bump.st (y, true))))
        (fun _ s => Inv s ∧ s0.n < s.n) (fun s => Inv s ∧ s0.n < s.n) := by
    intro bo s1 J1 e1 e2
    have ht := J1.inv.t y
    rw [e2] at ht
    refine M.Safe.conseq (safe_t J1 (by omega)
      (Q := fun _ st => TInv st.1 st.2 ∧ Step s1.heap (s1.st (s0.n, true)) st.1 st.2)
      (E := fun _ => False) ?_ (fun _ _ h => h) (fun _ h => absurd h id)) (fun _ h => h)
      (fun _ _ h => h.1.lt) (fun _ h => h.1.lt)
    rw [e1]
    refine M.Safe.conseq (copyCtor_own J1.inv.sched ht.own ht.cap) (fun _ h => h) ?_ (fun _ h => h)
    rintro _ st ⟨h1, h2, h3, h4, h5⟩
    refine ⟨⟨h1, ?_⟩, h2⟩
    rw [h4]; exact ht.cap
  by_cases hb : s0.bump.bor y = true
  · rw [if_pos hb]
    have i := I.b y hb
    refine M.Safe.bind (R := fun _ s => J (s0.n + 1) (fun z => if z = s0.n then true else s0.bor z) s ∧
      s.st (s0.n, true) = {} ∧ s.st (y, true) = s0.st (y, true)) ?_ (fun _ => M.Safe.fix ?_)
    · rintro _ rfl
      rw [M.modify_apply]
      refine ⟨⟨?_, rfl, rfl⟩, ?_, ?_⟩
      · have hno : ∀ z : Slot, s0.owned z → (s0.st z).p ≠ none → z ≠ (s0.n, false) := by
          rintro z _ hz rfl; exact hz (by rw [f1])
        have hp : ∀ (z : Slot) b, (if z = (s0.n, false) then s0.st (y, false) else s0.st z).p = some b →
            (z.2 = true ∨ (if z.1 = s0.n then true else s0.bor z.1) = false) →
            s0.owned z ∧ (s0.st z).p = some b := by
          rintro ⟨z, c⟩ b hz ho
          cases c with
          | true => exact ⟨Or.inl rfl, by simpa using hz⟩
          | false =>
            by_cases hzn : z = s0.n
            · subst hzn; simp at ho
            · simp only [hzn, if_false, Prod.mk.injEq, and_true] at hz ho
              rcases ho with h | h
              · simp at h
              · exact ⟨Or.inr h, hz⟩
        constructor
        · exact I.sched
        · intro z hz
          by_cases hzn : z = s0.n
          · subst hzn; simp at hz
          · simp only [Mach.bump, hzn, if_false, Prod.mk.injEq, and_true] at hz ⊢
            exact I.d z hz
        · intro z; simpa [Mach.bump] using I.t z
        · intro z hz
          by_cases hzn : z = s0.n
          · subst hzn; simpa [Mach.bump] using i
          · simp only [Mach.bump, hzn, if_false, Prod.mk.injEq, and_true] at hz ⊢
            exact I.b z hz
        · intro z w b hz hw hzb hwb
          obtain ⟨a1, a2⟩ := hp z b hzb hz
          obtain ⟨b1, b2⟩ := hp w b hwb hw
          exact I.inj z w b a1 b1 a2 b2
        · intro b h1 h2 h3
          obtain ⟨z, hz, hzb⟩ := I.own b h1 h2 h3
          have hzn : z ≠ (s0.n, false) := by rintro rfl; rw [f1] at hzb; simp at hzb
          refine ⟨z, ?_, by simp only [hzn, if_false]; exact hzb⟩
          rcases hz with h | h
          · exact Or.inl h
          · by_cases hc : z.2 = true
            · exact Or.inl hc
            · right
              have : z.1 ≠ s0.n := by
                rintro e; apply hzn; obtain ⟨z1, z2⟩ := z; simp at e hc; simp [e, hc]
              simp only [Mach.bump, this, if_false]; exact h
        · intro z hz
          have hz' : s0.n + 1 ≤ z := hz
          have : z ≠ s0.n := by omega
          simp only [Mach.bump, this, if_false, Prod.mk.injEq, false_and]
          exact I.fresh z (by omega)
      · simpa [Mach.bump] using f2
      · simp [Mach.bump]
    · rintro s1 ⟨J1, e1, e2⟩
      exact tempCopy _ s1 J1 e1 e2
  · rw [if_neg hb]
    have hb' : s0.bor y = false := by simpa [Mach.bump] using hb
    have i := I.d y hb'
    refine M.Safe.bind (R := fun _ s => J (s0.n + 1) s0.bor s ∧
      s.st (s0.n, true) = {} ∧ s.st (y, true) = s0.st (y, true)) ?_ (fun _ => M.Safe.fix ?_)
    · refine M.Safe.conseq (safe_d hJ f3 (by omega)
        (Q := fun _ => Keeps s0.heap {}) (E := Keeps s0.heap {}) ?_ ?_ ?_)
        (fun _ h => h) ?_ (fun _ h => h.1.lt)
      · rw [hs]
        exact M.Safe.conseq (copyCtor_safe I.sched i (hcap hb')) (fun _ h => h) (fun _ _ h => h)
          (fun _ h => absurd h id)
      · rw [hs]; exact fun _ _ h => h
      · rw [hs]; exact fun _ h => h
      · rintro _ s ⟨h1, st, h2, rfl⟩
        exact ⟨h1, by rw [put_ne _ _ (by simp)]; exact f2, by rw [put_ne _ _ (by simp)]; rfl⟩
    · rintro s1 ⟨J1, e1, e2⟩
      exact tempCopy _ s1 J1 e1 e2

theorem safe_declBorrow {p : Ptr} {n : Nat} {s0 : Mach V} (I : Inv s0) (hn : 1 ≤ n)
    (hp : s0.Valid p n) (hf : ∀ b, p = some b → (s0.heap.blk b).newed = false) :
    M.Safe (fun s => s = s0) (declBorrow p n) (fun _ s => Inv s ∧ s0.n < s.n)
      (fun s => Inv s ∧ s0.n < s.n) := by
  refine safe_decl ?_
  obtain ⟨f1, f2, f3⟩ := I.fresh s0.n (le_refl _)
  obtain ⟨b, rfl, hb, hl, hlen⟩ := hp
  rintro _ rfl
  rw [M.modify_apply]
  refine ⟨?_, by simp [Mach.bump]⟩
  have hp : ∀ (z : Slot) c, (if z = (s0.n, false) then ({ p := some b, sz := n, capacity := n, allocated := true } : Store) else s0.st z).p = some c →
      (z.2 = true ∨ (if z.1 = s0.n then true else s0.bor z.1) = false) →
      s0.owned z ∧ (s0.st z).p = some c := by
    rintro ⟨z, c⟩ b hz ho
    cases c with
    | true => exact ⟨Or.inl rfl, by simpa using hz⟩
    | false =>
      by_cases hzn : z = s0.n
      · subst hzn; simp at ho
      · simp only [hzn, if_false, Prod.mk.injEq, and_true] at hz ho
        rcases ho with h | h
        · simp at h
        · exact ⟨Or.inr h, hz⟩
  constructor
  · exact I.sched
  · intro z hz
    by_cases hzn : z = s0.n
    · subst hzn; simp at hz
    · simp only [Mach.bump, hzn, if_false, Prod.mk.injEq, and_true] at hz ⊢
      exact I.d z hz
  · intro z; simpa [Mach.bump] using I.t z
  · intro z hz
    by_cases hzn : z = s0.n
    · subst hzn
      simp only [Mach.bump, if_true]
      exact ⟨⟨b, rfl, hb, hl, hf b rfl, hlen⟩, le_refl _, hn, rfl⟩
    · simp only [Mach.bump, hzn, if_false, Prod.mk.injEq, and_true] at hz ⊢
      exact I.b z hz
  · intro z w b hz hw hzb hwb
    obtain ⟨a1, a2⟩ := hp z b hzb hz
    obtain ⟨b1, b2⟩ := hp w b hwb hw
    exact I.inj z w b a1 b1 a2 b2
  · intro b h1 h2 h3
    obtain ⟨z, hz, hzb⟩ := I.own b h1 h2 h3
    have hzn : z ≠ (s0.n, false) := by rintro rfl; rw [f1] at hzb; simp at hzb
    refine ⟨z, ?_, by simp only [hzn, if_false]; exact hzb⟩
    rcases hz with h | h
    · exact Or.inl h
    · by_cases hc : z.2 = true
      · exact Or.inl hc
      · right
        have : z.1 ≠ s0.n := by
          rintro e; apply hzn; obtain ⟨z1, z2⟩ := z; simp at e hc; simp [e, hc]
        simp only [Mach.bump, this, if_false]; exact h
  · intro z hz
    have hz' : s0.n + 1 ≤ z := hz
    have : z ≠ s0.n := by omega
    simp only [Mach.bump, this, if_false, Prod.mk.injEq, false_and]
    exact I.fresh z (by omega)

theorem safe_declPtr {zero : V} {p : Ptr} {n : Nat} {s0 : Mach V} (I : Inv s0) (hn : n ≤ 2 ^ 30)
    (hp : s0.Valid p n) :
    M.Safe (fun s => s = s0) (declPtr zero p n) (fun _ s => Inv s ∧ s0.n < s.n)
      (fun s => Inv s ∧ s0.n < s.n) := by
  refine safe_decl ?_
  obtain ⟨f1, f2, f3⟩ := I.fresh s0.n (le_refl _)
  have hs : s0.bump.st (s0.n, false) = {} := f1
  obtain ⟨b, rfl, hb, hl, hlen⟩ := hp
  let K : Mach V → Prop := fun s => J (s0.n + 1) s0.bor s ∧ s.heap.blk b = s0.heap.blk b ∧
    b < s.heap.next ∧ (s.st (s0.n, false)).p ≠ some b
  refine M.Safe.bind (R := fun _ => K) ?_ (fun _ => ?_)
  · refine M.Safe.conseq (safe_d (J.bump I) f3 (by omega)
      (Q := fun _ st => Keeps s0.heap {} st) (E := Keeps s0.heap {}) ?_ ?_ ?_)
      (fun _ h => h) ?_ (fun _ h => h.1.lt)
    · rw [hs]
      refine M.Safe.conseq (ctorSize_safe I.sched hn) (fun _ h => h) (fun _ _ h => h.1) ?_
      rintro ⟨h, s⟩ ⟨h1, h2, h3, h4, h5⟩
      simp only [] at h1 h2 h3 h4 h5
      subst h1
      exact ⟨⟨⟨by simp [h2], fun _ => ⟨h3, h4⟩⟩, by simp [h5], by simp [h3], by simp [h4]⟩,
        Step.of_ptr (by simp [h2])⟩
    · rw [hs]; exact fun _ _ h => h
    · rw [hs]; exact fun _ h => h
    · rintro _ s ⟨h1, st, ⟨_, h3⟩, rfl⟩
      refine ⟨h1, h3.frame b hb (by simp), by have := h3.next_le; simp only [put_heap]; omega, ?_⟩
      rw [put_same]
      intro hpb
      rcases h3.ptr b hpb with h4 | h4
      · simp at h4
      · omega
  refine M.Safe.bind (R := fun _ => K) ?_ (fun _ => ?_)
  · refine M.Safe.forN (I := fun _ => K) _ ?_
    intro i hi
    refine M.Safe.bind (M.Safe.reads ?_ (fun _ h => h.1.lt)) (fun v => ?_)
    · rintro s ⟨_, h2, h3, _⟩ k hk
      exact load_no_memory (by rw [h2]; exact hl) (by rw [h2]; omega) k hk
    refine M.Safe.fix ?_
    rintro s1 ⟨⟨J1, h2, h3, h4⟩, _⟩
    have i1 := J1.inv.d s0.n (by rw [J1.bor]; exact f3)
    refine M.Safe.conseq (safe_d J1 f3 (by omega) (set_safe i1) (fun _ _ h => h.1)
      (fun st h => by subst h; exact ⟨i1, Step.refl _ _⟩)) (fun _ h => h) ?_ (fun _ h => h.1.lt)
    rintro _ s ⟨a1, st, ⟨⟨_, a2⟩, a3⟩, rfl⟩
    refine ⟨a1, ?_, ?_, ?_⟩
    · simp only [put_heap]; rw [a2.frame b h3 h4, h2]
    · have := a2.next_le; simp only [put_heap]; omega
    · rw [put_same, a3]; exact h4
  · exact M.Safe.conseq (safe_mp (by omega)) (fun _ h => h.1) (fun _ _ h => h.lt) (fun _ h => h.lt)

theorem safe_makeTemp {zero : V} {l : List V} {mp : MP} {s0 : Mach V} (I : Inv s0)
    (hn : l.length ≤ 2 ^ 30) :
    M.Safe (fun s => s = s0.bump) (makeTemp zero l mp s0.n)
      (fun _ s => J (s0.n + 1) s0.bor s ∧ s.st (s0.n, true) = {}) (J (s0.n + 1) s0.bor) := by
  obtain ⟨f1, f2, f3⟩ := I.fresh s0.n (le_refl _)
  have hs : s0.bump.st (s0.n, false) = {} := f1
  unfold makeTemp
  let K : Mach V → Prop := fun s => J (s0.n + 1) s0.bor s ∧ s.st (s0.n, true) = {}
  refine M.Safe.bind (R := fun _ => K) ?_ (fun _ => ?_)
  · refine M.Safe.conseq (safe_d (J.bump I) f3 (by omega)
      (Q := fun _ st => Keeps s0.heap {} st) (E := Keeps s0.heap {}) ?_ ?_ ?_)
      (fun _ h => h) ?_ (fun _ h => h.1)
    · rw [hs]
      refine M.Safe.conseq (ctorSize_safe I.sched hn) (fun _ h => h) (fun _ _ h => h.1) ?_
      rintro ⟨h, s⟩ ⟨h1, h2, h3, h4, h5⟩
      simp only [] at h1 h2 h3 h4 h5
      subst h1
      exact ⟨⟨⟨by simp [h2], fun _ => ⟨h3, h4⟩⟩, by simp [h5], by simp [h3], by simp [h4]⟩,
        Step.of_ptr (by simp [h2])⟩
    · rw [hs]; exact fun _ _ h => h
    · rw [hs]; exact fun _ h => h
    · rintro _ s ⟨h1, st, ⟨_, h3⟩, rfl⟩
      exact ⟨h1, by rw [put_ne _ _ (by simp)]; exact f2⟩
  refine M.Safe.bind (R := fun _ => K) ?_ (fun _ => ?_)
  · refine M.Safe.forN (I := fun _ => K) _ ?_
    intro i hi
    refine M.Safe.bind (M.Safe.lift (getL_noMem _ _) (fun _ h => h.1)) (fun v => M.Safe.fix ?_)
    rintro s1 ⟨⟨J1, h2⟩, _⟩
    have i1 := J1.inv.d s0.n (by rw [J1.bor]; exact f3)
    refine M.Safe.conseq (safe_d J1 f3 (by omega) (set_safe i1) (fun _ _ h => h.1)
      (fun st h => by subst h; exact ⟨i1, Step.refl _ _⟩)) (fun _ h => h) ?_ (fun _ h => h.1)
    rintro _ s ⟨a1, st, _, rfl⟩
    exact ⟨a1, by rw [put_ne _ _ (by simp)]; exact h2⟩
  · refine M.Safe.fix ?_
    rintro s1 ⟨J1, h2⟩
    have := safe_mp (bo := s0.bor) (mp := mp) (V := V) (show s0.n < s0.n + 1 by omega) s1 J1
    rw [onSlot_apply] at this
    rintro s2 hs2
    rw [hs2, onSlot_apply]
    exact ⟨this, by rw [put_ne _ _ (by simp)]; exact h2⟩

/-- The memory of a temporary moves to a new object. -/
theorem Inv.steal {s : Mach V} (I : Inv s) {t x : Nat} (hn : s.n = t + 1) (hx : x = t + 1)
    (ht : s.bor t = false) (htt : s.st (t, true) = {}) {d' : Store} (hd : DInv s.heap d')
    (hp : d'.p = (s.st (t, false)).p) :
    Inv ({ heap := s.heap, n := t + 2
           st := fun y => if y.1 = t then {} else if y = (x, false) then d' else s.st y
           bor := fun y => if y = t then false else s.bor y } : Mach V) := by
  subst hx
  obtain ⟨f1, f2, f3⟩ := I.fresh (t + 1) (by omega)
  have hno : t + 1 ≠ t := by omega
  -- where a pointer of the new state was before
  have hpt : ∀ (y : Slot) b, ((if y.1 = t then ({} : Store) else if y = (t + 1, false) then d'
      else s.st y)).p = some b → (y = (t + 1, false) ∧ (s.st (t, false)).p = some b) ∨
      (y.1 ≠ t ∧ y ≠ (t + 1, false) ∧ (s.st y).p = some b) := by
    intro y b hb
    by_cases h1 : y.1 = t
    · rw [if_pos h1] at hb; simp at hb
    · rw [if_neg h1] at hb
      by_cases h2 : y = (t + 1, false)
      · rw [if_pos h2] at hb; left; exact ⟨h2, by rw [← hp]; exact hb⟩
      · rw [if_neg h2] at hb; right; exact ⟨h1, h2, hb⟩
  have ho : ∀ y : Slot, y.1 ≠ t → ((y.2 = true ∨ (if y.1 = t then false else s.bor y.1) = false) →
      s.owned y) := by
    intro y hy h; simpa [owned, hy] using h
  constructor
  · exact I.sched
  · intro y hy
    simp only [] at hy ⊢
    by_cases h1 : y = t
    · rw [if_pos h1]; exact DInv.default _
    · rw [if_neg h1] at hy ⊢
      by_cases h2 : y = t + 1
      · subst h2; simpa using hd
      · simpa [h2] using I.d y hy
  · intro y
    simp only []
    by_cases h1 : y = t
    · rw [if_pos h1]; exact TInv.default _
    · rw [if_neg h1]; simpa using I.t y
  · intro y hy
    simp only [] at hy ⊢
    by_cases h1 : y = t
    · rw [if_pos h1] at hy; simp at hy
    · rw [if_neg h1] at hy ⊢
      have h2 : y ≠ t + 1 := by rintro rfl; rw [f3] at hy; simp at hy
      simpa [h2] using I.b y hy
  · intro y z b hy hz hyb hzb
    rcases hpt y b hyb with ⟨a1, a2⟩ | ⟨a1, a2, a3⟩
    · rcases hpt z b hzb with ⟨b1, b2⟩ | ⟨b1, b2, b3⟩
      · rw [a1, b1]
      · have := I.inj (t, false) z b (Or.inr ht) (ho z b1 hz) a2 b3
        rw [← this] at b1; simp at b1
    · rcases hpt z b hzb with ⟨b1, b2⟩ | ⟨b1, b2, b3⟩
      · have := I.inj (t, false) y b (Or.inr ht) (ho y a1 hy) b2 a3
        rw [← this] at a1; simp at a1
      · exact I.inj y z b (ho y a1 hy) (ho z b1 hz) a3 b3
  · intro b h1 h2 h3
    obtain ⟨y, hy, hyb⟩ := I.own b h1 h2 h3
    by_cases hyt : y = (t, false)
    · subst hyt
      refine ⟨(t + 1, false), Or.inr ?_, ?_⟩
      · simp [f3]
      · simp [hp, hyb]
    · have hy1 : y.1 ≠ t := by
        rintro rfl
        obtain ⟨y1, y2⟩ := y
        cases y2 with
        | true => rw [htt] at hyb; simp at hyb
        | false => exact hyt rfl
      have hy2 : y ≠ (t + 1, false) := by rintro rfl; rw [f1] at hyb; simp at hyb
      refine ⟨y, ?_, by simp only [hy1, hy2, if_false]; exact hyb⟩
      simpa [owned, hy1] using hy
  · intro y hy
    have hy' : t + 2 ≤ y := hy
    have h1 : y ≠ t := by omega
    have h2 : y ≠ t + 1 := by omega
    have := I.fresh y (by omega)
    simpa [h1, h2] using this

theorem safe_declTemp {zero : V} {l : List V} {mp : MP} {s0 : Mach V} (I : Inv s0)
    (hn : l.length ≤ 2 ^ 30) :
    M.Safe (fun s => s = s0) (declTemp zero l mp) (fun _ => Inv) Inv := by
  intro s00 hs00
  rw [hs00]
  have hm := safe_makeTemp (zero := zero) (mp := mp) I hn _ rfl
  obtain ⟨f1, f2, f3⟩ := I.fresh s0.n (le_refl _)
  unfold declTemp
  rcases hb : makeTemp zero l mp s0.n s0.bump with ⟨o, s1⟩
  rw [hb] at hm
  cases o with
  | ub k => rw [withTmp_ub (M.bind_ub hb)]; exact hm
  | thr e =>
    obtain ⟨s2, e2, I2, _⟩ := safe_destroy hm.inv (x := s0.n) (by rw [hm.n]; omega)
    rw [withTmp_thr (M.bind_thr hb), M.bind_ok e2]
    exact I2
  | ok a =>
    obtain ⟨J1, h2⟩ := hm
    have i1 := J1.inv.d s0.n (by rw [J1.bor]; exact f3)
    obtain ⟨g1, g2, g3⟩ := J1.inv.fresh (s0.n + 1) (by rw [J1.n])
    have hxt : (s0.n + 1, false) ≠ (s0.n, false) := by simp
    have est : (decl (fun x => stealTemp s0.n x)) s1 = (.ok (), (stealTemp s0.n s1.n s1.bump).2) :=
      decl_ok rfl
    have en : s1.n = s0.n + 1 := J1.n
    rw [withTmp_ok (by rw [M.bind_ok hb]; exact est)]
    set s2 := (stealTemp s0.n s1.n s1.bump).2 with hs2
    have q1 : (s2.st (s0.n, true)).p = none := by
      simp [hs2, stealTemp, Mach.bump, h2]
    have q2 : (s2.st (s0.n, false)).p = none := by
      simp [hs2, stealTemp, Mach.bump, en, g1]
    have q3 : s2.bor = s0.bor := by simp [hs2, stealTemp, Mach.bump, J1.bor]
    have d1 : onSlot (s0.n, true) Store.dtor s2 = (.ok (), s2.put (s0.n, true) (s2.heap, s2.st (s0.n, true))) := by
      rw [onSlot_apply, dtor_none q1]
    set s3 := s2.put (s0.n, true) (s2.heap, s2.st (s0.n, true)) with hs3
    have q4 : (s3.st (s0.n, false)).p = none := by rw [hs3, put_ne _ _ (by simp)]; exact q2
    have d2 : onSlot (s0.n, false) Store.dtor s3 = (.ok (), s3.put (s0.n, false) (s3.heap, s3.st (s0.n, false))) := by
      rw [onSlot_apply, dtor_none q4]
    have hde : destroy s0.n s2 = (.ok (), { s3.put (s0.n, false) (s3.heap, s3.st (s0.n, false)) with
        st := fun y => if y.1 = s0.n then {} else
          (s3.put (s0.n, false) (s3.heap, s3.st (s0.n, false))).st y
        bor := fun y => if y = s0.n then false else s2.bor y }) := by
      unfold destroy
      rw [M.bind_ok d1, M.bind_ok (M.get_apply _)]
      rw [if_pos (by rw [hs3, put_bor, q3, f3]; simp), M.bind_ok d2]
      rfl
    rw [hde]
    set d' : Store := s2.st (s0.n + 1, false) with hd'
    have ed : d' = { (({} : Store)) with
        allocated := (s1.st (s0.n, false)).allocated, sz := (s1.st (s0.n, false)).sz,
        p := (s1.st (s0.n, false)).p,
        mp := if (s1.st (s0.n, false)).mp.im then ⟨true, (s1.st (s0.n, false)).mp.nr,
          (s1.st (s0.n, false)).mp.nc⟩ else {} } := by
      simp [hd', hs2, stealTemp, Mach.bump, en, g1]
    have key := J1.inv.steal (t := s0.n) (x := s0.n + 1) J1.n rfl (by rw [J1.bor]; exact f3) h2
      (d' := d') (by
        rw [ed]
        refine ⟨⟨?_, ?_⟩, i1.al, i1.sz, by simp⟩
        · intro b hb
          obtain ⟨a1, a2, a3, a4, a5, a6⟩ := i1.wf.ptr b hb
          exact ⟨a1, a2, a3, a4, by simp, a6⟩
        · intro hb
          exact ⟨(i1.wf.null hb).1, rfl⟩) (by rw [ed])
    convert key using 1
    show Mach.mk _ _ _ _ = Mach.mk _ _ _ _
    rw [Mach.mk.injEq]
    refine ⟨rfl, ?_, ?_, ?_⟩
    · funext y
      by_cases h1 : y.1 = s0.n
      · simp [h1]
      · simp only [h1, if_false]
        rw [put_ne _ _ (by rintro rfl; exact h1 rfl), hs3, put_ne _ _ (by rintro rfl; exact h1 rfl)]
        by_cases h3 : y = (s0.n + 1, false)
        · rw [if_pos h3, h3]
        · rw [if_neg h3]
          have h4 : y ≠ (s0.n, false) := by rintro rfl; exact h1 rfl
          simp [hs2, stealTemp, Mach.bump, en, h3, h4]
    · simp [hs3, hs2, stealTemp, Mach.bump, en]
    · rw [q3, J1.bor]

/-- One operation. -/
theorem exec_safe {zero : V} {c : Cmd V} {s0 : Mach V} (I : Inv s0) (ha : s0.Allowed c) :
    M.Safe (fun s => s = s0) (exec zero c) (fun _ => Inv) Inv := by
  have fromJ : ∀ {m : M (Mach V) Unit}, M.Safe (J s0.n s0.bor) m (fun _ => J s0.n s0.bor)
      (J s0.n s0.bor) → M.Safe (fun s => s = s0) m (fun _ => Inv) Inv := fun h =>
    M.Safe.conseq h (by rintro _ rfl; exact J.of I) (fun _ _ h => h.inv) (fun _ h => h.inv)
  have fromD : ∀ {m : M (Mach V) Unit}, M.Safe (fun s => s = s0) m (fun _ s => Inv s ∧ s0.n < s.n)
      (fun s => Inv s ∧ s0.n < s.n) → M.Safe (fun s => s = s0) m (fun _ => Inv) Inv := fun h =>
    M.Safe.conseq h (fun _ h => h) (fun _ _ h => h.1) (fun _ h => h.1)
  cases c with
  | callerArray l =>
    rintro _ rfl
    exact I.callerArray l
  | declDefault =>
    unfold exec declDefault
    refine fromD (safe_decl ?_)
    rintro _ rfl
    exact (J.bump I).lt
  | declSize n =>
    unfold exec declSize
    exact fromD (safe_decl (M.Safe.conseq (safe_ctorSize I ha) (fun _ h => h)
      (fun _ _ h => h.1.lt) (fun _ h => h.lt)))
  | declScalar v => exact fromD (safe_declScalar I)
  | declMat r c => exact fromD (safe_declMat I ha)
  | declMatVal r c v => exact fromD (safe_declMatVal I ha)
  | declCopy y => exact fromD (safe_declCopy I ha.2)
  | declExpr conv e => exact fromD (safe_declExpr I ha.1 ha.2.1 ha.2.2)
  | declTemp l mp => exact safe_declTemp I ha
  | declPtr p n => exact fromD (safe_declPtr I ha.1 ha.2)
  | declBorrow p n => exact fromD (safe_declBorrow I ha.1 ha.2.1 ha.2.2)
  | assign conv x e =>
    exact M.Safe.conseq (safe_assign ha.1 ha.2.1 ha.2.2.1)
      (by rintro _ rfl; exact ⟨J.of I, ha.2.2.2⟩) (fun _ _ h => h.inv) (fun _ h => h.inv)
  | assignScalar x v => exact fromJ (safe_assignScalar ha)
  | subAssign conv same x ind e =>
    unfold exec subAssign
    refine safe_withTmp ?_
    exact M.Safe.conseq (safe_subAssignBody (k := s0.n + 1) (bo := s0.bor)
      (by have := ha.1; omega) (by omega) ha.2.1 ha.2.2.1 ha.2.2.2)
      (by rintro _ rfl; exact J.bump I) (fun _ _ h => h.lt) (fun _ h => h.lt)
  | subAssignScalar x ind v => exact fromJ (safe_subAssignScalar ha)
  | setElem x i v => exact fromJ (safe_set ha)
  | resize x n => exact fromJ (safe_resize ha.1 ha.2)
  | fill x v => exact fromJ (safe_fill ha)
  | fillVec x y =>
    exact M.Safe.conseq (safe_fillVec ha) (by rintro _ rfl; exact J.of I)
      (fun _ _ h => h.inv) (fun _ h => h.inv)
  | pushBack x v =>
    exact M.Safe.conseq (safe_pushBack ha.1 ha.2.1) (by rintro _ rfl; exact ⟨J.of I, ha.2.2⟩)
      (fun _ _ h => h.inv) (fun _ h => h.inv)
  | storeAssign x y => exact fromJ (safe_storeAssign ha.1 ha.2.1 ha.2.2.1 ha.2.2.2)
  | destroy x =>
    intro s00 hs00
    rw [hs00]
    obtain ⟨s', e, I', _⟩ := safe_destroy I ha
    have e' : exec zero (.destroy x) s0 = (.ok (), s') := e
    rw [e']
    exact I'

/-- Every history. -/
theorem runAll_safe {zero : V} (cs : List (Cmd V)) : ∀ (s : Mach V), Inv s → AllowedAll zero cs s →
    match runAll zero cs s with
    | (none, s') => Inv s'
    | (some k, _) => k.memory = false := by
  induction cs with
  | nil => intro s I _; exact I
  | cons c cs ih =>
    intro s I ha
    obtain ⟨h1, h2⟩ := ha
    have hs := exec_safe (zero := zero) I h1 s rfl
    unfold runAll
    rcases he : exec zero c s with ⟨o, s'⟩
    rw [he] at hs h2
    cases o with
    | ok a => exact ih s' hs h2
    | thr e => exact ih s' hs h2
    | ub k => exact hs

end Mach
end ETR
