import Verif.Props.AllocSeq
import Verif.Props.Alloc

/-! # C49: what `colon` of any two doubles does -/

namespace ETR
namespace Spec

/-- The numbers `a`, `a + 1`, `(a + 1) + 1`, ... or `a`, `a - 1`, ... in double precision, where each step is rounded. -/
def walk (up : Bool) (a : F64) : Nat → F64
  | 0 => a
  | k + 1 => if up then F64.add (walk up a k) (.fin 1) else F64.sub (walk up a k) (.fin 1)

/-- The end `b` has not been passed. -/
def within (up : Bool) (b x : F64) : Bool := if up then F64.le x b else F64.le b x

/-- `|b - a| + 1` in double precision. -/
def gap (up : Bool) (a b : F64) : F64 := F64.add (if up then F64.sub b a else F64.sub a b) (.fin 1)

end Spec
open Spec

/-- The loop ends before the vector is full. -/
theorem seqLoop_short {T : Type} {go : T → Bool} {step : T → Out T} {f : Nat → T} {N : Nat}
    (hgo : ∀ i, i < N → go (f i) = true) (hstep : ∀ i, step (f i) = .ok (f (i + 1))) (hend : go (f N) = false) {h : Heap T} {mp : MP} :
    ∀ (j fuel : Nat) {r : Heap T × Store} {l : List T}, Ret h r l mp → j ≤ N → N ≤ l.length → N < j + fuel →
      ∃ r', seqLoop go step fuel (f j) j r = (.ok (), r') ∧ Ret h r' (l.take j ++ (List.range (N - j)).map (fun i => f (j + i)) ++ l.drop N) mp := by
  intro j fuel
  induction fuel generalizing j with
  | zero => intro r l _ _ _ h4; omega
  | succ m ih =>
    intro r l R hj hN hf
    by_cases hjN : j = N
    · subst hjN
      refine ⟨r, ?_, by simpa using R⟩
      rw [seqLoop]
      simp only [hend]
      rfl
    · obtain ⟨r1, e1, R1⟩ := R.set (i := j) (f j) (by omega)
      obtain ⟨r2, e2, R2⟩ := ih (j + 1) R1 (by omega) (by simpa using hN) (by omega)
      refine ⟨r2, ?_, ?_⟩
      · rw [seqLoop]
        simp only [hgo j (by omega), if_true]
        rw [M.bind_ok e1, M.bind_ok (m := M.lift (step (f j))) (a := f (j + 1)) (by rw [hstep j]; rfl), e2]
      · convert R2 using 1
        have e3 : (l.set j (f j)).take (j + 1) = l.take j ++ [f j] := by
          rw [List.take_add_one, List.take_set_of_le (by omega)]
          simp [show j < l.length by omega]
        have e4 : (l.set j (f j)).drop N = l.drop N := List.drop_set_of_lt (by omega)
        rw [e3, e4]
        obtain ⟨d, hd⟩ : ∃ d, N - j = d + 1 := ⟨N - j - 1, by omega⟩
        rw [hd, show N - (j + 1) = d by omega, List.range_succ_eq_map]
        simp [List.map_map, Function.comp_def, Nat.add_assoc, Nat.add_comm 1]

/-- The loop runs over the end of the vector. -/
theorem seqLoop_over {T : Type} {go : T → Bool} {step : T → Out T} {f : Nat → T} (hstep : ∀ i, step (f i) = .ok (f (i + 1))) {h : Heap T}
    {mp : MP} : ∀ (j fuel : Nat) {r : Heap T × Store} {l : List T}, Ret h r l mp → j ≤ l.length → l.length < j + fuel →
      (∀ i, i ≤ l.length → go (f i) = true) → ∃ m r', seqLoop go step fuel (f j) j r = (.thr m, r') := by
  intro j fuel
  induction fuel generalizing j with
  | zero => intro r l _ _ h4; omega
  | succ m ih =>
    intro r l R hj hf hgo
    rw [seqLoop]
    simp only [hgo j hj, if_true]
    by_cases hjl : j = l.length
    · obtain ⟨e, he⟩ := R.set_thr (i := j) (f j) (by omega)
      exact ⟨e, r, M.bind_thr he⟩
    · obtain ⟨r1, e1, R1⟩ := R.set (i := j) (f j) (by omega)
      obtain ⟨e, r2, e2⟩ := ih (j + 1) R1 (by simp; omega) (by simpa using (by omega : l.length < j + 1 + m)) (by simpa using hgo)
      refine ⟨e, r2, ?_⟩
      rw [M.bind_ok e1, M.bind_ok (m := M.lift (step (f j))) (a := f (j + 1)) (by rw [hstep j]; rfl), e2]

theorem colonD_eq (a b : F64) : colonD a b = (do
    let length ← sayM (convertSizeD (gap (F64.lt a b) a b))
    retM (Store.ctorSize (.fin 0) length)
    retM (seqLoop (within (F64.lt a b) b)
      (fun x => .ok (if F64.lt a b then F64.add x (.fin 1) else F64.sub x (.fin 1))) (length + 1) a 0)) := by
  unfold colonD gap within
  cases F64.lt a b <;> rfl

/-- C49, exactly, for every pair of doubles (NaN and infinities included).  Let `n` be the integer part of `|b - a| + 1`, computed in double
precision.  If it is not in the range of `int` the call is undefined.  Otherwise the steps are rounded one by one: if the end is passed
after `N` of them, `N ≤ n`, the result has these `N` numbers and zeros up to the length `n`; if it is not passed after `n` steps, the call
throws. -/
theorem C49_characterised (a b : F64) {h : Heap F64} (hs : h.sched = []) (ws : List String) :
    ((∀ z, gap (F64.lt a b) a b = .fin z → ¬ (-2147483649 < z ∧ z < 2147483648)) →
      ∃ st, colonD a b (ws, (h, {})) = (.ub .badConv, st)) ∧
    ∀ z, gap (F64.lt a b) a b = .fin z → 1 ≤ z → z < 2147483648 →
      (∀ N, N ≤ ⌊z⌋.toNat → (∀ k, k < N → within (F64.lt a b) b (walk (F64.lt a b) a k) = true) →
        within (F64.lt a b) b (walk (F64.lt a b) a N) = false → ∃ ws', Returns (colonD a b) h ws ws'
          ((List.range N).map (walk (F64.lt a b) a) ++ List.replicate (⌊z⌋.toNat - N) (.fin 0)) {}) ∧
      ((∀ k, k ≤ ⌊z⌋.toNat → within (F64.lt a b) b (walk (F64.lt a b) a k) = true) → Rejects (colonD a b) h ws) := by
  rw [colonD_eq]
  generalize F64.lt a b = up
  refine ⟨fun hz => ?_, fun z hz h1 h2 => ?_⟩
  · have e : convertSizeD (gap up a b) ws = (.ub .badConv, ws) := by
      unfold convertSizeD
      rw [isDoubleInt_ub hz]
      rfl
    exact ⟨_, M.bind_ub (sayM_ub e)⟩
  · obtain ⟨fw, _, ec⟩ := convertSizeD_eq (q := z) (by linarith) h2 ws
    rw [if_pos h1] at ec
    rw [hz]
    have hn1 : 1 ≤ ⌊z⌋ := by rw [Int.le_floor]; exact_mod_cast h1
    have hn2 : ⌊z⌋ < 2147483648 := by rw [Int.floor_lt]; exact_mod_cast h2
    generalize hn : ⌊z⌋.toNat = n at *
    obtain ⟨r, er, R⟩ := ctorSize_spec (zero := F64.fin 0) hs (show 1 ≤ n by omega) (by omega)
    have hstep : ∀ i, (Out.ok (if up then F64.add (walk up a i) (.fin 1) else F64.sub (walk up a i) (.fin 1)) : Out F64) =
        .ok (walk up a (i + 1)) := fun i => rfl
    refine ⟨fun N hN hgo hend => ?_, fun hgo => ?_⟩
    · obtain ⟨r', el, R'⟩ := seqLoop_short (go := within up b)
        (step := fun x => .ok (if up then F64.add x (.fin 1) else F64.sub x (.fin 1))) (f := walk up a) hgo hstep hend 0 (n + 1) R
        (by omega) (by simpa using hN) (by omega)
      refine ⟨ws ++ fw, (Ret.returns (r := r') (by simpa using R') ?_)⟩
      rw [M.bind_ok (sayM_ok ec), M.bind_ok (retM_ok er)]
      exact retM_ok el
    · obtain ⟨m, r', el⟩ := seqLoop_over (go := within up b)
        (step := fun x => .ok (if up then F64.add x (.fin 1) else F64.sub x (.fin 1))) (f := walk up a) hstep 0 (n + 1) R
        (by omega) (by simp) (by simpa using hgo)
      refine ⟨m, (ws ++ fw, r'), ?_⟩
      rw [M.bind_ok (sayM_ok ec), M.bind_ok (retM_ok er)]
      exact retM_ok el

/-- C49 holds for a pair of numbers, with the steps as they are rounded, exactly when these pass the end after `n` steps and not before. -/
theorem C49_iff {a b : F64} {z : ℚ} (hz : gap (F64.lt a b) a b = .fin z) (h1 : 1 ≤ z) (h2 : z < 2147483648) {h : Heap F64}
    (hs : h.sched = []) (ws : List String) :
    ((∃ ws', Returns (colonD a b) h ws ws' ((List.range ⌊z⌋.toNat).map (walk (F64.lt a b) a)) {}) ∧
      ∀ k, k < ⌊z⌋.toNat → within (F64.lt a b) b (walk (F64.lt a b) a k) = true) ↔
    ((∀ k, k < ⌊z⌋.toNat → within (F64.lt a b) b (walk (F64.lt a b) a k) = true) ∧
      within (F64.lt a b) b (walk (F64.lt a b) a ⌊z⌋.toNat) = false) := by
  obtain ⟨c1, c2⟩ := (C49_characterised a b hs ws).2 z hz h1 h2
  constructor
  · rintro ⟨⟨ws', R⟩, hw⟩
    refine ⟨hw, ?_⟩
    by_contra hc
    have hc' : within (F64.lt a b) b (walk (F64.lt a b) a ⌊z⌋.toNat) = true := by simpa using hc
    obtain ⟨m, st, e⟩ := c2 (fun k hk => by
      rcases Nat.lt_or_ge k ⌊z⌋.toNat with hk' | hk'
      · exact hw k hk'
      · rw [show k = ⌊z⌋.toNat by omega]; exact hc')
    obtain ⟨h', s', e', _⟩ := R
    rw [e] at e'
    cases e'
  · rintro ⟨hw, he⟩
    obtain ⟨ws', R⟩ := c1 _ le_rfl hw he
    exact ⟨⟨ws', by simpa using R⟩, hw⟩

-- `colon(-2.82, 0.18)`: three numbers are written, a fourth element stays 0
example : ∃ ws', Returns (colonD (F64.rnd (-282 / 100)) (F64.rnd (18 / 100))) Heap.empty [] ws'
    ((List.range 3).map (walk true (F64.rnd (-282 / 100))) ++ [.fin 0]) {} := by
  have hl : F64.lt (F64.rnd (-282 / 100)) (F64.rnd (18 / 100)) = true := by decide +kernel
  have := ((C49_characterised (F64.rnd (-282 / 100)) (F64.rnd (18 / 100)) (h := Heap.empty) rfl []).2 4
    (by decide +kernel) (by norm_num) (by norm_num)).1 3 (by decide +kernel) (by decide +kernel) (by decide +kernel)
  rw [hl] at this
  exact this
-- `colon(1.566, 2.566)`: the length is 1, and the end is not passed after one step
example : Rejects (colonD (F64.rnd (1566 / 1000)) (F64.rnd (2566 / 1000))) Heap.empty [] := by
  obtain ⟨z, hz, h1, h2, h3⟩ : ∃ z, gap (F64.lt (F64.rnd (1566 / 1000)) (F64.rnd (2566 / 1000))) (F64.rnd (1566 / 1000)) (F64.rnd (2566 / 1000)) = .fin z ∧
      1 ≤ z ∧ z < 2147483648 ∧ ⌊z⌋.toNat = 1 :=
    ⟨9007199254740991 / 4503599627370496, by decide +kernel, by norm_num, by norm_num, by decide +kernel⟩
  refine ((C49_characterised _ _ rfl []).2 z hz h1 h2).2 ?_
  rw [h3]
  decide +kernel
-- `colon(0, 2^40)` and `colon(0, NaN)` are undefined
example : ∃ st, colonD (.fin 0) (.fin 1099511627776) ([], (Heap.empty, {})) = (.ub .badConv, st) :=
  (C49_characterised _ _ rfl []).1 (fun z hz => by
    have : z = 1099511627777 := F64.fin.inj (hz.symm.trans (by decide +kernel))
    subst this; norm_num)
example : ∃ st, colonD (.fin 0) .nan ([], (Heap.empty, {})) = (.ub .badConv, st) :=
  (C49_characterised _ _ rfl []).1 (fun z hz => by
    have : gap (F64.lt (.fin 0) .nan) (.fin 0) .nan = .nan := by decide +kernel
    rw [this] at hz; cases hz)
example : ∃ ws', Returns (colonD (.fin 5) (.fin 2)) Heap.empty [] ws' ((List.range 4).map (walk false (.fin 5))) {} := by
  have := ((C49_iff (a := .fin 5) (b := .fin 2) (z := 4) (by decide +kernel) (by norm_num) (by norm_num) (h := Heap.empty) rfl []).mpr
    ⟨by decide +kernel, by decide +kernel⟩).1
  exact this

end ETR
