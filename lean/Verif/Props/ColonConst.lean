import Verif.Props.ColonDouble
import Verif.Props.DerivAlloc

/-! # C85: what `colon<Idx>` of any two doubles does to a constant -/

namespace ETR
open Spec

/-- The loop ends before the constant is full: the rest stays as it is. -/
theorem seqLoopC_short {go : F64 → Bool} {step : F64 → Out F64} {f : Nat → F64} {k N : Nat} (hN : N ≤ k)
    (hgo : ∀ i, i < N → go (f i) = true) (hstep : ∀ i, step (f i) = .ok (f (i + 1))) (hend : go (f N) = false) :
    ∀ (j fuel : Nat) (b : Buf F64), b.Room k → j ≤ N → N < j + fuel →
      ∃ b', seqLoopC id go step fuel (f j) j b = (.ok (), b') ∧ b'.Room k ∧ b'.mp = b.mp ∧
        ∀ i, b'.cells[i]? = if j ≤ i ∧ i < N then some (some (f i)) else b.cells[i]? := by
  intro j fuel
  induction fuel generalizing j with
  | zero => intro b _ _ h; omega
  | succ m ih =>
    intro b R hj hf
    by_cases hjN : j = N
    · subst hjN
      refine ⟨b, ?_, R, rfl, fun i => by rw [if_neg (by omega)]⟩
      rw [seqLoopC]
      simp only [hend]
      rfl
    · obtain ⟨b2, e2, R2, m2, c2⟩ := ih (j + 1) { b with cells := b.cells.set j (some (f j)) } R.set (by omega) (by omega)
      refine ⟨b2, ?_, R2, m2, fun i => ?_⟩
      · rw [seqLoopC]
        simp only [hgo j (by omega), if_true]
        rw [M.bind_ok (Buf.set_ok (id (f j)) R (by omega)), M.bind_ok (m := M.lift (step (f j))) (a := f (j + 1)) (by rw [hstep j]; rfl)]
        exact e2
      · rw [c2 i]
        have hcap := R.cap
        simp only [List.getElem?_set]
        by_cases h1 : j = i
        · subst h1
          rw [if_neg (by omega), if_pos rfl, if_pos (by omega), if_pos (by omega)]
        · rw [if_neg h1]
          by_cases h2 : j + 1 ≤ i ∧ i < N
          · rw [if_pos h2, if_pos (by omega)]
          · rw [if_neg h2, if_neg (by omega)]

/-- The loop runs over the end of the constant. -/
theorem seqLoopC_over {go : F64 → Bool} {step : F64 → Out F64} {f : Nat → F64} {k : Nat} (hgo : ∀ i, i ≤ k → go (f i) = true)
    (hstep : ∀ i, step (f i) = .ok (f (i + 1))) :
    ∀ (j fuel : Nat) (b : Buf F64), b.Room k → j ≤ k → k < j + fuel → ∃ m b', seqLoopC id go step fuel (f j) j b = (.thr m, b') := by
  intro j fuel
  induction fuel generalizing j with
  | zero => intro b _ _ h; omega
  | succ m ih =>
    intro b R hj hf
    rw [seqLoopC]
    simp only [hgo j hj, if_true]
    by_cases hjk : j = k
    · have hc : ∃ m, b.check j = .thr m := by
        unfold Buf.check
        rw [Out.ass_pos R.al, Out.ok_bind]
        exact ⟨_, Out.ass_neg (by rw [R.sz]; omega)⟩
      obtain ⟨e, he⟩ := hc
      exact ⟨e, b, M.bind_thr (by unfold Buf.set; rw [he])⟩
    · obtain ⟨e, b2, e2⟩ := ih (j + 1) { b with cells := b.cells.set j (some (f j)) } R.set (by omega) (by omega)
      refine ⟨e, b2, ?_⟩
      rw [M.bind_ok (Buf.set_ok (id (f j)) R (by omega)), M.bind_ok (m := M.lift (step (f j))) (a := f (j + 1)) (by rw [hstep j]; rfl)]
      exact e2

theorem colonConD_eq (a b : F64) : colonConD a b = (do
    let length ← sayC (convertSizeD (gap (F64.lt a b) a b))
    resizeCon (.n length)
    bufC (seqLoopC id (within (F64.lt a b) b)
      (fun x => .ok (if F64.lt a b then F64.add x (.fin 1) else F64.sub x (.fin 1))) (length + 1) a 0)) := by
  unfold colonConD gap within
  cases F64.lt a b <;> rfl

/-- C85 for `colon<Idx>` of every pair of doubles for which the length `n` fits into `int`, whatever the constant was used for before.  The
steps are rounded one by one.  If they pass the end exactly after `n` steps the constant is the sequence; if they pass it after
fewer, `N`, the constant has these `N` numbers, followed by what it had before at these positions (zeros, if it had no memory for
them); if they do not pass it after `n` steps, the call throws. -/
theorem C85_colon_double_characterised (a b : F64) {z : ℚ} (hz : gap (F64.lt a b) a b = .fin z) (h1 : 1 ≤ z) (h2 : z < 2147483648)
    (buf : Buf F64) (ws : List String) :
    (∀ N, N ≤ ⌊z⌋.toNat → (∀ k, k < N → within (F64.lt a b) b (walk (F64.lt a b) a k) = true) →
      within (F64.lt a b) b (walk (F64.lt a b) a N) = false →
      ∃ ws' buf', colonConD a b (ws, buf) = (.ok (), (ws', buf')) ∧ buf'.mp = buf.mp ∧ buf'.sz = ⌊z⌋.toNat ∧
        (∀ i, i < N → buf'.get i = .ok (walk (F64.lt a b) a i)) ∧
        (∀ l, buf.Is l → ⌊z⌋.toNat ≤ l.length → ∀ i, N ≤ i → i < ⌊z⌋.toNat → buf'.get i = .ok (l.getD i (.fin 0))) ∧
        ((buf.allocated = true → buf.cells.length < ⌊z⌋.toNat) → ∀ i, N ≤ i → i < ⌊z⌋.toNat → buf'.get i = .ok (.fin 0))) ∧
    ((∀ k, k ≤ ⌊z⌋.toNat → within (F64.lt a b) b (walk (F64.lt a b) a k) = true) →
      ∃ m st, colonConD a b (ws, buf) = (.thr m, st)) := by
  rw [colonConD_eq]
  generalize F64.lt a b = up at *
  obtain ⟨fw, _, ec⟩ := convertSizeD_eq (q := z) (by linarith) h2 ws
  rw [if_pos h1] at ec
  rw [hz]
  have hn1 : 1 ≤ ⌊z⌋ := by rw [Int.le_floor]; exact_mod_cast h1
  have hn2 : ⌊z⌋ < 2147483648 := by rw [Int.floor_lt]; exact_mod_cast h2
  generalize hn : ⌊z⌋.toNat = n at *
  have hnpos : 1 ≤ n := by omega
  obtain ⟨ws1, b1, eb, m1, r1, c1, z1⟩ := resizeCon_spec (a := .n n) (k := n) trivial
    (by simp [asSize, hnpos]) (by omega) buf (ws ++ fw)
  have hstep : ∀ i, (Out.ok (if up then F64.add (walk up a i) (.fin 1) else F64.sub (walk up a i) (.fin 1)) : Out F64) =
      .ok (walk up a (i + 1)) := fun i => rfl
  refine ⟨fun N hN hgo hend => ?_, fun hgo => ?_⟩
  · obtain ⟨b2, el, R2, m2, c2⟩ := seqLoopC_short (go := within up b)
      (step := fun x => .ok (if up then F64.add x (.fin 1) else F64.sub x (.fin 1))) (f := walk up a) hN hgo hstep hend 0 (n + 1) b1 r1
      (by omega) (by omega)
    have hget : ∀ i v, i < n → b2.cells[i]? = some (some v) → b2.get i = .ok v := fun i v hi hc => Buf.get_cell R2 hi hc
    refine ⟨ws1, b2, ?_, m2.trans m1, R2.sz, fun i hi => hget i _ (by omega) (by rw [c2, if_pos (by omega)]), fun l hl hnl i hi hin => ?_, fun hc i hi hin => ?_⟩
    · rw [M.bind_ok (sayC_ok ec), M.bind_ok eb]
      exact bufC_ok el
    · refine hget i _ hin ?_
      have R := hl.room (by omega)
      rw [c2, if_neg (by omega), c1 ⟨R.al, hnl.trans R.cap⟩, hl.cell (by omega)]
      simp [List.getD, show i < l.length by omega]
    · refine hget i _ hin ?_
      have Z := z1 (fun h => by have := hc h.1; omega)
      rw [c2, if_neg (by omega), Z.cell (by simpa using hin)]
      simp
  · obtain ⟨m, b2, el⟩ := seqLoopC_over (go := within up b)
      (step := fun x => .ok (if up then F64.add x (.fin 1) else F64.sub x (.fin 1))) (f := walk up a) hgo hstep 0 (n + 1) b1 r1
      (by omega) (by omega)
    refine ⟨m, (ws1, b2), ?_⟩
    rw [M.bind_ok (sayC_ok ec), M.bind_ok eb]
    exact bufC_ok el

/-- C85 is false for `colon<Idx>` of doubles: a constant that has been used before shows an old element behind the sequence.  The last
element of `colon<0>(-2.82, 0.18)` after `colon<0>(1, 7)` is 4. -/
theorem C85_colon_double_false :
    (colonConD (F64.rnd (-282 / 100)) (F64.rnd (18 / 100)) ([], usedCon7)).1 = .ok () ∧
    (colonConD (F64.rnd (-282 / 100)) (F64.rnd (18 / 100)) ([], usedCon7)).2.2.sz = 4 ∧
    (colonConD (F64.rnd (-282 / 100)) (F64.rnd (18 / 100)) ([], usedCon7)).2.2.get 3 = .ok (.fin 4) := by decide +kernel

example : ∃ ws' buf', colonConD (F64.rnd (-282 / 100)) (F64.rnd (18 / 100)) ([], usedCon7) = (.ok (), (ws', buf')) ∧ buf'.sz = 4 ∧
    buf'.get 3 = .ok (.fin 4) := by
  obtain ⟨b, e, h, _⟩ := C85_colon_partial (a := 1) (b := 7) (by decide) (by decide) ⟨by decide, by decide, by decide⟩ {} []
  have hb : usedCon7 = b := congrArg (fun z => z.2.2) e
  obtain ⟨ws', buf', e', _, hs, _, hl, _⟩ := (C85_colon_double_characterised (F64.rnd (-282 / 100)) (F64.rnd (18 / 100)) (z := 4)
    (by decide +kernel) (by norm_num) (by norm_num) usedCon7 []).1 3 (by decide +kernel) (by decide +kernel) (by decide +kernel)
  exact ⟨ws', buf', e', hs, (hl _ (hb ▸ h) (by decide +kernel) 3 (by decide) (by decide +kernel)).trans (by decide +kernel)⟩

end ETR
