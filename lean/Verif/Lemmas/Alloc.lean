import Verif.Spec.Alloc
import Verif.Lemmas.StoreSpec
import Verif.Lemmas.MatSubset

namespace ETR
open Store
variable {V : Type}

theorem sayM_ok {α : Type} {m : L α} {a : α} {ws ws' : List String} {r : Heap V × Store}
    (h : m ws = (.ok a, ws')) : sayM m (ws, r) = (.ok a, (ws', r)) := by
  unfold sayM; rw [M.zoom_apply]; simp [h]

theorem sayM_thr {α : Type} {m : L α} {e : String} {ws ws' : List String} {r : Heap V × Store}
    (h : m ws = (.thr e, ws')) : sayM m (ws, r) = (.thr e, (ws', r)) := by
  unfold sayM; rw [M.zoom_apply]; simp [h]

theorem sayM_ub {α : Type} {m : L α} {e : UB} {ws ws' : List String} {r : Heap V × Store}
    (h : m ws = (.ub e, ws')) : sayM m (ws, r) = (.ub e, (ws', r)) := by
  unfold sayM; rw [M.zoom_apply]; simp [h]

theorem retM_ok {α : Type} {m : SM V α} {o : Out α} {ws : List String} {r r' : Heap V × Store}
    (h : m r = (o, r')) : retM m (ws, r) = (o, (ws, r')) := by
  unfold retM; rw [M.zoom_apply]; simp [h]

/-- What is known about `ret` while it is being built, with `h` the heap at the call. -/
structure Ret (h : Heap V) (r : Heap V × Store) (l : List V) (mp : MP) : Prop where
  wf : WF r.1 r.2
  sh : Shows r.1 r.2 l
  mp : r.2.mp = mp
  frame : ∀ b, b < h.next → r.1.blk b = h.blk b
  ge : ∀ b, r.2.p = some b → h.next ≤ b
  next : h.next ≤ r.1.next

theorem Ret.returns {m : AM V Unit} {h : Heap V} {ws ws' : List String} {r : Heap V × Store} {l : List V}
    {mp : MP} (R : Ret h r l mp) (e : m (ws, (h, {})) = (.ok (), (ws', r))) : Returns m h ws ws' l mp :=
  ⟨r.1, r.2, e, R.sh, R.mp, R.frame⟩

theorem ctorSize_spec {zero : V} {h : Heap V} {n : Nat} (hs : h.sched = []) (h1 : 1 ≤ n) (h2 : n < 2 ^ 59) :
    ∃ r, ctorSize zero n (h, {}) = (.ok (), r) ∧ Ret h r (List.replicate n zero) {} := by
  obtain ⟨c, ec, hc1, hc2⟩ := capOf_spec (n := n) (by omega)
  refine ⟨_, ctorSize_ok hs h1 (by omega) ec, ?_⟩
  have w : WF (h.addBlk (zeroBlk zero c c)) { ({} : Store) with
    p := some h.next, sz := n, capacity := c, allocated := true } := WF.fresh rfl hc1 (le_refl _) rfl
  refine ⟨w, ?_, rfl, fun b hb => Heap.addBlk_lt _ _ hb, fun b hb => ?_, by simp⟩
  · refine shows_of_cells (b := h.next) w rfl (by simp) ?_
    intro i hi
    simp only [List.length_replicate] at hi
    simp [zeroBlk, show i < c by omega]
  · simp only [Option.some.injEq] at hb; omega

/-- `ret[i] = v`. -/
theorem Ret.set {h : Heap V} {r : Heap V × Store} {l : List V} {mp : MP} (R : Ret h r l mp) {i : Nat} (v : V)
    (hi : i < l.length) : ∃ r', Store.set i v r = (.ok (), r') ∧ Ret h r' (l.set i v) mp := by
  obtain ⟨h', e, w, s, st⟩ := set_spec (v := v) R.wf R.sh hi
  refine ⟨_, e, w, s, R.mp, fun b hb => ?_, R.ge, R.next.trans st.next_le⟩
  have := R.next
  rw [st.frame b (by omega) (fun hp => by have := R.ge b hp; omega)]
  exact R.frame b hb

theorem Ret.set_thr {h : Heap V} {r : Heap V × Store} {l : List V} {mp : MP} (R : Ret h r l mp) {i : Nat} (v : V)
    (hi : l.length ≤ i) : ∃ m, Store.set i v r = (.thr m, r) := by
  obtain ⟨h0, s0⟩ := r
  exact Store.set_thr (by rw [R.sh.1]; exact hi)

theorem splice_get {l x : List V} {k m : Nat} (hk : k ≤ l.length) (hm : m = k + x.length) (i : Nat) :
    (l.take k ++ x ++ l.drop m)[i]? = if i < k then l[i]? else if i < m then x[i - k]? else l[i]? := by
  split
  · rw [List.getElem?_append_left (by simp; omega), List.getElem?_append_left (by simp; omega),
      List.getElem?_take, if_pos (by assumption)]
  · split
    · rw [List.getElem?_append_left (by simp; omega), List.getElem?_append_right (by simp; omega)]
      congr 1; simp; omega
    · rw [List.getElem?_append_right (by simp; omega), List.getElem?_drop]
      congr 1; simp; omega

/-- A loop that writes `f 0, f 1, …` to `ret[k], ret[k + 1], …`. -/
theorem Ret.loop {h : Heap V} {mp : MP} (n : Nat) {k : Nat} {x : List V} (hx : x.length = n)
    {body : Nat → SM V Unit} (hb : ∀ i (hi : i < x.length) r, body i r = Store.set (k + i) x[i] r) :
    ∀ {r : Heap V × Store} {l : List V}, Ret h r l mp → k + n ≤ l.length →
      ∃ r', M.forN n body r = (.ok (), r') ∧ Ret h r' (l.take k ++ x ++ l.drop (k + n)) mp := by
  induction n generalizing x with
  | zero =>
    intro r l R _
    have : x = [] := List.length_eq_zero_iff.mp hx
    subst this
    exact ⟨r, rfl, by simpa using R⟩
  | succ n ih =>
    intro r l R hl
    have hx' : (x.take n).length = n := by simp; omega
    obtain ⟨r1, e1, R1⟩ := ih hx' (fun i hi r => by
      rw [hb i (by rw [hx'] at hi; omega)]
      simp) R (by omega)
    have hlen : (l.take k ++ x.take n ++ l.drop (k + n)).length = l.length := by simp; omega
    obtain ⟨r2, e2, R2⟩ := R1.set (i := k + n) (x[n]'(by omega)) (by rw [hlen]; omega)
    refine ⟨r2, ?_, ?_⟩
    · rw [M.forN_succ, M.bind_ok e1, hb n (by omega), e2]
    · convert R2 using 1
      apply List.ext_getElem?
      intro i
      rw [List.getElem?_set, hlen, splice_get (by omega) (by omega), splice_get (by omega) (by omega)]
      rcases Nat.lt_trichotomy i (k + n) with h1 | h1 | h1
      · rw [if_neg (show ¬ k + n = i by omega), if_pos (show i < k + (n + 1) by omega), if_pos h1,
          List.getElem?_take]
        by_cases h2 : i < k
        · rw [if_pos h2, if_pos h2]
        · rw [if_neg h2, if_neg h2, if_pos (by omega)]
      · subst h1
        rw [if_pos rfl, if_neg (show ¬ k + n < k by omega), if_pos (show k + n < k + (n + 1) by omega),
          if_pos (show k + n < l.length by omega), List.getElem?_eq_getElem (by omega)]
        congr 2; omega
      · rw [if_neg (show ¬ k + n = i by omega), if_neg (by omega), if_neg (by omega), if_neg (by omega),
          if_neg (by omega)]

/-- `ret.fill(v)`. -/
theorem Ret.fill {h : Heap V} {r : Heap V × Store} {l : List V} {mp : MP} (R : Ret h r l mp) (v : V) :
    ∃ r', Store.fillScalar v r = (.ok (), r') ∧ Ret h r' (List.replicate l.length v) mp := by
  obtain ⟨h0, s0⟩ := r
  obtain ⟨h', e, w, s, st⟩ := fillScalar_spec (v := v) R.wf
  refine ⟨_, e, w, by rw [← R.sh.1]; exact s, R.mp, fun b hb => ?_, R.ge, R.next.trans st.next_le⟩
  have := R.next
  rw [st.frame b (by omega) (fun hp => by have := R.ge b hp; omega)]
  exact R.frame b hb

/-! ## Sizes -/

open Spec

theorem isDoubleInt_ub {x : F64} (h : ∀ q, x = .fin q → ¬ (-2147483649 < q ∧ q < 2147483648)) :
    isDoubleInt x = .ub .badConv := by
  cases x with
  | nan => rfl
  | inf b => rfl
  | fin q =>
    have hq := h q rfl
    unfold isDoubleInt F64.toI32
    simp only []
    rw [if_neg]
    · rfl
    · unfold InI32
      by_cases h0 : 0 ≤ q
      · rw [truncQ_of_nonneg h0]
        have : (2147483648 : ℚ) ≤ q := by
          by_contra h'
          exact hq ⟨by linarith, by linarith⟩
        have : 2147483648 ≤ ⌊q⌋ := by rw [Int.le_floor]; exact_mod_cast this
        omega
      · rw [truncQ_of_neg (by linarith)]
        have : q ≤ -2147483649 := by
          by_contra h'
          exact hq ⟨by linarith, by linarith⟩
        have : 2147483649 ≤ ⌊-q⌋ := by rw [Int.le_floor]; push_cast; linarith
        omega

/-- The warnings that a size conversion may print. -/
def FracW (fw : List String) : Prop := fw = [] ∨ fw = [fracMsg]

theorem warn_eq (b : Bool) (m : String) (ws : List String) :
    warn b m ws = (.ok (), ws ++ if b then [] else [m]) := by
  cases b
  · rfl
  · simp [warn]

theorem floor_toNat {q : ℚ} (h : 1 ≤ q) : ((⌊q⌋.toNat : Nat) : Int) = ⌊q⌋ :=
  Int.toNat_of_nonneg (Int.floor_nonneg.mpr (by linarith))

theorem convertSizeD_eq {q : ℚ} (h1 : -2147483649 < q) (h2 : q < 2147483648) (ws : List String) :
    ∃ fw, FracW fw ∧ convertSizeD (.fin q) ws
      = (if 1 ≤ q then .ok ⌊q⌋.toNat else .thr "invalid times argument", ws ++ fw) := by
  obtain ⟨b, hb⟩ := isDoubleInt_ok h1 h2
  refine ⟨if b then [] else [fracMsg], by cases b <;> simp [FracW], ?_⟩
  unfold convertSizeD
  rw [hb, M.bind_ok (m := M.lift (.ok b)) (a := b) rfl, M.bind_ok (warn_eq b fracMsg ws)]
  by_cases h : 1 ≤ q
  · have hf : ⌊q⌋ < 2147483648 := by rw [Int.floor_lt]; exact_mod_cast h2
    have := floor_toNat h
    rw [if_pos h, M.bind_ok (M.ass_pos (by simp [F64.le, h]) _),
      toSizeT_of_floor (k := ⌊q⌋.toNat) (by omega) (by omega)]
    rfl
  · rw [if_neg h, M.bind_thr (M.ass_neg (by simp [F64.le, h]) _)]

/-- Numbers whose conversion to a size is defined. -/
def Num.Fits : Num → Prop
  | .s (.d x) => ∃ q, x = .fin q ∧ -2147483649 < q ∧ q < 2147483648
  | .s (.i k) => InI32 k
  | _ => True

theorem convertSize_ok {a : Num} {k : Nat} (hf : a.Fits) (h : asSize a = some k) (ws : List String) :
    ∃ fw, FracW fw ∧ convertSize a ws = (.ok k, ws ++ fw) := by
  cases a with
  | n m =>
    refine ⟨[], .inl rfl, ?_⟩
    simp only [asSize] at h
    split at h
    · rename_i h1
      cases h
      simp only [convertSize, convertSizeN]
      rw [M.bind_ok (M.ass_pos h1 _)]
      simp
    · cases h
  | s v =>
    cases v with
    | b v =>
      refine ⟨[], .inl rfl, ?_⟩
      simp only [asSize] at h
      split at h
      · rename_i h1
        cases h
        simp only [convertSize]
        rw [M.bind_ok (M.ass_pos h1 _)]
        simp
      · cases h
    | i m =>
      refine ⟨[], .inl rfl, ?_⟩
      simp only [asSize] at h
      split at h
      · rename_i h1
        cases h
        simp only [convertSize]
        have hf : InI32 m := hf
        unfold InI32 at hf
        rw [M.bind_ok (M.ass_pos h1 _), wrap64_of_nonneg (by omega) (by omega)]
        simp
      · cases h
    | d x =>
      obtain ⟨q, rfl, h1, h2⟩ := hf
      simp only [asSize] at h
      split at h
      · rename_i h3
        cases h
        obtain ⟨fw, hw, e⟩ := convertSizeD_eq h1 h2 ws
        rw [if_pos h3] at e
        exact ⟨fw, hw, e⟩
      · cases h

theorem convertSize_thr {a : Num} (hf : a.Fits) (h : asSize a = none) (ws : List String) :
    ∃ e ws', convertSize a ws = (.thr e, ws') := by
  cases a with
  | n m =>
    simp only [asSize] at h
    split at h
    · cases h
    · rename_i h1
      simp only [convertSize, convertSizeN]
      rw [M.bind_thr (M.ass_neg h1 _)]
      exact ⟨_, _, rfl⟩
  | s v =>
    cases v with
    | b v =>
      simp only [asSize] at h
      split at h
      · cases h
      · rename_i h1
        simp only [convertSize]
        rw [M.bind_thr (M.ass_neg h1 _)]
        exact ⟨_, _, rfl⟩
    | i m =>
      simp only [asSize] at h
      split at h
      · cases h
      · rename_i h1
        simp only [convertSize]
        rw [M.bind_thr (M.ass_neg h1 _)]
        exact ⟨_, _, rfl⟩
    | d x =>
      obtain ⟨q, rfl, h1, h2⟩ := hf
      simp only [asSize] at h
      split at h
      · cases h
      · rename_i h3
        obtain ⟨fw, _, e⟩ := convertSizeD_eq h1 h2 ws
        rw [if_neg h3] at e
        exact ⟨_, _, e⟩

/-! ## The loops -/

theorem repLoop_ok {env : Env V} {e : Expr V} {x : List V} (hd : Denotes env e x) {h : Heap V} {mp : MP} :
    ∀ (k i counter : Nat) {r : Heap V × Store} {l : List V}, Ret h r l mp → i + k ≤ l.length →
      (0 < k → counter < x.length) →
      ∃ r' l', repLoop env e k i counter r = (.ok (), r') ∧ Ret h r' l' mp ∧ l'.length = l.length ∧
        (∀ j, j < i → l'[j]? = l[j]?) ∧ (∀ j, j < k → l'[i + j]? = x[(counter + j) % x.length]?) := by
  intro k
  induction k with
  | zero => intro i counter r l R _ _; exact ⟨r, l, rfl, R, rfl, fun _ _ => rfl, fun j hj => by omega⟩
  | succ k ih =>
    intro i counter r l R hl hc
    have hc := hc (by omega)
    obtain ⟨r1, e1, R1⟩ := R.set (i := i) x[counter] (by omega)
    have hc' : (if counter + 1 ≥ e.size env then 0 else counter + 1) = (counter + 1) % x.length := by
      rw [hd.1]
      split
      · have : counter + 1 = x.length := by omega
        rw [this, Nat.mod_self]
      · rw [Nat.mod_eq_of_lt (by omega)]
    obtain ⟨r2, l2, e2, R2, n2, p2, q2⟩ := ih (i + 1) ((counter + 1) % x.length) R1 (by simp; omega)
      (fun _ => Nat.mod_lt _ (by omega))
    refine ⟨r2, l2, ?_, R2, by simpa using n2, ?_, ?_⟩
    · simp only [repLoop]
      rw [M.bind_ok (m := M.lift (e.el env counter)) (a := x[counter]) (by rw [hd.2 _ hc]; rfl), M.bind_ok e1, hc', e2]
    · intro j hj
      rw [p2 j (by omega), List.getElem?_set, if_neg (by omega)]
    · intro j hj
      cases j with
      | zero =>
        rw [Nat.add_zero, p2 i (by omega), List.getElem?_set, if_pos rfl, if_pos (by omega), Nat.add_zero,
          Nat.mod_eq_of_lt hc, List.getElem?_eq_getElem hc]
      | succ j =>
        have := q2 j (by omega)
        rw [show i + (j + 1) = i + 1 + j by omega, this, Nat.mod_add_mod]
        congr 2; omega

theorem seqLoop_ok {T : Type} {go : T → Bool} {step : T → Out T} {f : Nat → T} {k : Nat}
    (hgo : ∀ i, i < k → go (f i) = true) (hstep : ∀ i, i < k → step (f i) = .ok (f (i + 1)))
    (hend : go (f k) = false) {h : Heap T} {mp : MP} {r : Heap T × Store} {l : List T} (R : Ret h r l mp)
    (hl : l.length = k) :
    ∃ r', seqLoop go step (k + 1) (f 0) 0 r = (.ok (), r') ∧ Ret h r' ((List.range k).map f) mp := by
  suffices H : ∀ (m j : Nat) {r : Heap T × Store} {l : List T}, Ret h r l mp → l.length = k → j + m = k →
      ∃ r', seqLoop go step (m + 1) (f j) j r = (.ok (), r') ∧
        Ret h r' (l.take j ++ (List.range m).map (fun i => f (j + i))) mp by
    obtain ⟨r', e, R'⟩ := H k 0 R hl (by omega)
    exact ⟨r', e, by simpa using R'⟩
  intro m
  induction m with
  | zero =>
    intro j r l R hl hj
    refine ⟨r, ?_, ?_⟩
    · have : j = k := by omega
      subst this
      simp only [seqLoop, hend]
      rfl
    · have : l.take j = l := List.take_of_length_le (by omega)
      simpa [this] using R
  | succ m ih =>
    intro j r l R hl hj
    obtain ⟨r1, e1, R1⟩ := R.set (i := j) (f j) (by omega)
    obtain ⟨r2, e2, R2⟩ := ih (j + 1) R1 (by simpa using hl) (by omega)
    refine ⟨r2, ?_, ?_⟩
    · rw [seqLoop]
      simp only [hgo j (by omega), if_true]
      rw [M.bind_ok e1, M.bind_ok (m := M.lift (step (f j))) (a := f (j + 1)) (by rw [hstep j (by omega)]; rfl), e2]
    · convert R2 using 1
      apply List.ext_getElem
      · simp; omega
      · intro i h1 h2
        by_cases hi : i < j
        · rw [List.getElem_append_left (by simp; omega), List.getElem_append_left (by simp; omega)]
          simp only [List.getElem_take]
          rw [List.getElem_set, if_neg (by omega)]
        · rw [List.getElem_append_right (by simp; omega)]
          simp only [List.length_append, List.length_take, List.length_map, List.length_range] at h1
          by_cases hi' : i = j
          · subst hi'
            rw [List.getElem_append_left (by simp; omega)]
            simp only [List.getElem_take, List.getElem_map, List.getElem_range, List.length_take]
            rw [List.getElem_set, if_pos rfl]
            congr 1; omega
          · rw [List.getElem_append_right (by simp; omega)]
            simp only [List.getElem_map, List.getElem_range, List.length_take, List.length_set]
            congr 1; omega

end ETR
