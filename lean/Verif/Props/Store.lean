import Verif.Lemmas.StoreSpec

/-! Properties of the vector store: C01, C05, and the parts of C04, C08, C09, C10, C71 that concern a
single store. -/

namespace ETR
open Store

variable {V : Type}

/-! ## C01 push_back appends -/

/-- Push the values of a list one after the other. -/
def pushAll (zero : V) : List V → SM V Unit
  | [] => pure ()
  | v :: t => do pushBack zero v; pushAll zero t

private theorem pushAll_spec (zero : V) (l : List V) : ∀ (h : Heap V) (s : Store) (l0 : List V),
    h.sched = [] → WF h s → Shows h s l0 → s.sz ≤ s.capacity →
    (s.capacity = 0 ∨ ∃ k, k ≤ 30 ∧ s.capacity = 2 ^ k) → l0.length + l.length ≤ 2 ^ 30 →
    ∃ h' s', pushAll zero l (h, s) = (.ok (), (h', s')) ∧ Shows h' s' (l0 ++ l) := by
  induction l with
  | nil => intro h s l0 _ _ sh _ _ _; exact ⟨h, s, rfl, by simpa using sh⟩
  | cons v t ih =>
    intro h s l0 hs w sh hc hk hl
    have hz := sh.1
    simp only [List.length_cons] at hl
    have hlim : s.sz = s.capacity → s.sz ≤ 2 ^ 29 := by
      intro he
      rcases hk with h0 | ⟨k, hk, e⟩
      · omega
      · have : k ≤ 29 := by
          by_contra hcon
          have : k = 30 := by omega
          subst this; omega
        calc s.sz = 2 ^ k := by omega
          _ ≤ 2 ^ 29 := Nat.pow_le_pow_right (by omega) this
    obtain ⟨h1, s1, e1, w1, sh1, st1, hc1, _, hcap1⟩ := pushBack_spec (zero := zero) (v := v) hs w sh
      hc (fun he => by have := hlim he; omega)
    have hk1 : s1.capacity = 0 ∨ ∃ k, k ≤ 30 ∧ s1.capacity = 2 ^ k := by
      rw [hcap1]
      split
      · rename_i he
        split
        · exact Or.inr ⟨0, by omega, rfl⟩
        · rcases hk with h0 | ⟨k, hk, e⟩
          · omega
          · refine Or.inr ⟨k + 1, ?_, by rw [he, e, pow_succ]; ring⟩
            have h29 := hlim he
            rw [he, e] at h29
            have := (Nat.pow_le_pow_iff_right (a := 2) (by omega)).mp h29
            omega
      · exact hk
    obtain ⟨h2, s2, e2, sh2⟩ := ih h1 s1 (l0 ++ [v]) (st1.sched hs) w1 sh1 hc1 hk1 (by
      simp only [List.length_append, List.length_singleton]; omega)
    refine ⟨h2, s2, ?_, by simpa using sh2⟩
    rw [pushAll, M.bind_ok e1, e2]

/-- C01.  Pushing any list of at most `2^30` values to an empty store succeeds and the store then
shows exactly that list. -/
theorem C01_push_back_appends (zero : V) (l : List V) (hl : l.length ≤ 2 ^ 30) (h : Heap V)
    (hs : h.sched = []) :
    ∃ h' s', pushAll zero l (h, ({} : Store)) = (.ok (), (h', s')) ∧ Shows h' s' l := by
  have := pushAll_spec zero l h {} [] hs (WF.default h) (shows_nil rfl) (le_refl _) (Or.inl rfl)
    (by simpa using hl)
  simpa using this

/-- The hypotheses of C01 hold for a concrete list, and reading the pushed elements back gives it. -/
example : ∃ h' s', pushAll 0 [3, 1, 4, 1, 5] ((Heap.empty : Heap Int), ({} : Store))
    = (.ok (), (h', s')) ∧ Shows h' s' [3, 1, 4, 1, 5] :=
  C01_push_back_appends 0 [3, 1, 4, 1, 5] (by decide) _ rfl

/-- C01, sharpness of the limit: a full store of `2^30` elements cannot take another one; the
32-bit capacity computation overflows (undefined behaviour). -/
theorem C01_limit_is_sharp (zero v : V) (h : Heap V) (s : Store) (hz : s.sz = 2 ^ 30)
    (hc : s.capacity = 2 ^ 30) : (pushBack zero v (h, s)).1 = .ub .badConv := by
  have e : capOfI32 2147483648 = .ub .badConv := by decide +kernel
  have en : (if s.sz = 0 then 1 else (s.sz * 2) % two64) = 2147483648 := by
    rw [hz]; decide
  unfold pushBack
  rw [M.bind_ok (self_apply _)]
  simp only [hz, hc, if_true]
  rw [show (if 2 ^ 30 = 0 then 1 else 2 ^ 30 * 2 % two64) = 2147483648 by decide]
  unfold realloc
  simp [M.bind_apply, e]

/-! ## C05 allocated memory covers the size -/

/-- C05.  For every `size_t` `n ≥ 1`, if the conversion of `n * 1.15` to an integer is defined then
the result is at least `n`. -/
theorem C05_capacity_covers_size (n c : Nat) (_ : 1 ≤ n) (h2 : n < 2 ^ 64)
    (e : capOf n = .ok c) : n ≤ c := capOf_ge h2 e

/-- The conversion is defined for every `n` up to `2^63`. -/
theorem C05_capacity_defined (n : Nat) (h : n ≤ 2 ^ 63) : ∃ c, capOf n = .ok c :=
  let ⟨c, e, _⟩ := capOf_spec h; ⟨c, e⟩

/-- The `int` variants (`Vec(int)` constructor, `realloc`). -/
theorem C05_capacity_covers_size_int (n : Nat) (h : 116 * n < 100 * 2 ^ 31) :
    (∃ c, capOfInt n = .ok c ∧ n ≤ c) ∧ ∃ c, capOfI32 n = .ok c ∧ n ≤ c := by
  obtain ⟨c, e1, e2, h1, _⟩ := capOfI32_spec h
  exact ⟨⟨c, by rw [capOfInt_natCast, e2], h1⟩, ⟨c, e1, h1⟩⟩

example : capOf 6 = .ok 6 ∧ capOf 7 = .ok 8 ∧ capOf 100 = .ok 114 := by decide +kernel

/-! ## C08 store assignment -/

/-- C08 is false: assigning a shorter store throws, after part of the target has been overwritten. -/
theorem C08_false_shorter_source :
    let m : SM Int Unit := do ctorSize 0 2; set 0 7; set 1 8
    let r := m ((Heap.empty : Heap Int), ({} : Store))
    let t := ctorSize 0 1 (r.2.1, ({} : Store))
    let a := assign 0 t.2.2 (t.2.1, r.2.2)
    (a.1.isThr = true) ∧ a.2.2.get a.2.1 0 = .ok 0 ∧ a.2.2.get a.2.1 1 = .ok 8 := by
  decide +kernel

/-- C08, the part that holds: if the source is at least as long as the target (and of at most
`1.8·10^9` elements), the target then shows the elements of the source and the source is
unchanged. -/
theorem C08_assign_partial (zero : V) {h : Heap V} {s other : Store} {l l0 : List V}
    (hs : h.sched = []) (w : WF h s) (sh0 : Shows h s l0) (w' : WF h other) (sh : Shows h other l)
    (hal : s.allocated = true → s.p ≠ none)
    (hsep : ∀ b, other.p = some b → s.p ≠ some b) (hlen : l0.length ≤ l.length)
    (hlim : 116 * l.length < 100 * 2 ^ 31) :
    ∃ h' s', assign zero other (h, s) = (.ok (), (h', s')) ∧ Shows h' s' l ∧ Shows h' other l := by
  obtain ⟨h', s', e, _, h1, _, h2, _⟩ := assign_spec (zero := zero) hs w sh0 w' sh hal hsep
    (by rw [sh0.1, sh.1]; exact hlen) (by rw [sh.1]; exact hlim)
  exact ⟨h', s', e, h1, h2⟩

/-- Two stores of two and three elements meet the hypotheses. -/
example : ∃ (h : Heap Int) (s other : Store) (l l0 : List Int), h.sched = [] ∧ WF h s ∧
    Shows h s l0 ∧ WF h other ∧ Shows h other l ∧ (s.allocated = true → s.p ≠ none) ∧
    (∀ b, other.p = some b → s.p ≠ some b) ∧ l0.length = 2 ∧ l.length = 3 := by
  obtain ⟨h1, s1, e1, w1, st1, z1, a1, m1, _, k1, g1⟩ := resize_spec (zero := (0 : Int)) (n := 2)
    (h := Heap.empty) (s := {}) rfl (Own.default _) (by simp) (by omega) (by omega)
  obtain ⟨h2, s2, e2, w2, st2, z2, a2, m2, _, k2, g2⟩ := resize_spec (zero := (0 : Int)) (n := 3)
    (h := h1) (s := {}) (st1.sched rfl) (Own.default _) (by simp) (by omega) (by omega)
  have fr : ∀ b, s1.p = some b → h2.blk b = h1.blk b := fun b hb =>
    st2.frame b (w1.ptr b hb).1 (by simp)
  refine ⟨h2, s1, s2, _, _, st2.sched (st1.sched rfl), w1.frame st2.next_le fr,
    shows_frame fr (g1 (by simp)).2, w2, (g2 (by simp)).2, ?_, ?_, by simp, by simp⟩
  · intro _ hp; have := w1.null hp; omega
  · intro b hb hb'
    rcases st2.ptr b hb with h3 | h3
    · simp at h3
    · have := (w1.ptr b hb').1; omega

/-! ## C10 failed allocations -/

/-- C10 is false: a `resize` that grows a store releases the old block before the new one is
allocated; if that allocation fails, the destructor releases the old block again. -/
theorem C10_false_resize :
    let m : SM Int Unit := do ctorSize 0 4
    let r := m ((Heap.empty [false, true] : Heap Int), ({} : Store))
    let g := resize 0 10 r.2
    r.1.isOk = true ∧ g.1 = .thr "std::bad_alloc" ∧ (dtor g.2).1 = .ub .badFree ∧
      g.2.2.get g.2.1 0 = .ub .useAfterFree := by
  decide +kernel

/-- Also `push_back` leaves a broken object behind: the capacity is raised before the allocation, so
that a later `resize` within this capacity exposes memory outside the block. -/
theorem C10_false_push_back :
    let m : SM Int Unit := do ctorSize 0 6
    let r := m ((Heap.empty [false, true] : Heap Int), ({} : Store))
    let g := pushBack 0 1 r.2
    let k := resize 0 9 g.2
    r.1.isOk = true ∧ g.1 = .thr "std::bad_alloc" ∧ k.1.isOk = true ∧
      k.2.2.get k.2.1 7 = .ub .oob := by
  decide +kernel

example : (pushBack 0 1 ((Heap.empty : Heap Int), ⟨none, 2 ^ 30, 2 ^ 30, true, {}⟩)).1 = .ub .badConv := C01_limit_is_sharp 0 1 _ _ rfl rfl

example : ∃ c, capOf 7 = .ok c ∧ 7 ≤ c := by
  obtain ⟨c, e⟩ := C05_capacity_defined 7 (by norm_num)
  exact ⟨c, e, C05_capacity_covers_size 7 c (by norm_num) (by norm_num) e⟩

end ETR
