import Verif.Model.Distri
import Verif.Props.Helper

/-! Distribution functions: C68. -/

namespace ETR
open Spec Store

/-- The vector shows the elements `l`. -/
def View.Has (a : View F64) (l : List F64) : Prop := a.size = l.length ∧ ∀ i (hi : i < l.length), a.el i = .ok l[i]

theorem View.Has.cyc {a : View F64} {l : List F64} (h : a.Has l) (hl : l ≠ []) (i : Nat) :
    a.cyc i = .ok (l[i % l.length]'(Nat.mod_lt _ (List.length_pos_iff.mpr hl))) := by
  unfold View.cyc
  rw [h.1, modz_pos (List.length_pos_iff.mpr hl), Out.ok_bind, h.2]

theorem View.Has.zero {a : View F64} {v : F64} {t : List F64} (h : a.Has (v :: t)) : a.el 0 = .ok v := h.2 0 (by simp)

theorem View.Has.cyc0 {a : View F64} {v : F64} {t : List F64} (h : a.Has (v :: t)) : a.cyc 0 = .ok v := by
  rw [h.cyc (by simp)]; simp

theorem ctorNum_spec {h : Heap F64} (hs : h.sched = []) (n : Nat) (ws : List String) :
    ∃ r, ctorNum n (ws, (h, {})) = (.ok (), (ws, r)) ∧ Ret h r [F64.ofNat n] {} := by
  have R : Ret h (h.addBlk (zeroBlk (F64.fin 0) 1 1), { p := some h.next, sz := 1, capacity := 1, allocated := true }) [F64.fin 0] {} := by
    have w : WF (h.addBlk (zeroBlk (F64.fin 0) 1 1)) { ({} : Store) with
      p := some h.next, sz := 1, capacity := 1, allocated := true } := WF.fresh rfl (le_refl _) (le_refl _) rfl
    refine ⟨w, ?_, rfl, fun b hb => Heap.addBlk_lt _ _ hb, fun b hb => ?_, by simp⟩
    · refine shows_of_cells (b := h.next) w rfl (by simp) ?_
      intro i hi
      simp only [List.length_singleton] at hi
      simp [zeroBlk, show i = 0 by omega]
    · simp only [Option.some.injEq] at hb; omega
  obtain ⟨r, e, R'⟩ := R.set (i := 0) (F64.ofNat n) (by simp)
  refine ⟨r, ?_, R'⟩
  unfold ctorNum
  rw [M.bind_ok (retM_ok (ctorInt_one hs))]
  exact retM_ok e

theorem lift_bind_ok {σ α β : Type} {o : Out α} {a : α} {f : α → M σ β} {s : σ} (h : o = .ok a) : (M.lift o >>= f) s = f a s := by
  subst h; rfl

/-- The result of the loop over a vector with one element. -/
theorem oneLoop {h : Heap F64} {r : Heap F64 × Store} {y v : F64} (R : Ret h r [y] {}) {g : Nat → Out F64} (hg : g 0 = .ok v) (ws : List String) :
    ∃ r', retM (V := F64) (do
      let s ← Store.self
      M.forN s.sz (fun i => do
        let v ← M.lift (g i)
        Store.set i v)) (ws, r) = (.ok (), (ws, r')) ∧ Ret h r' [v] {} := by
  obtain ⟨r', e, R'⟩ := R.set (i := 0) v (by simp)
  refine ⟨r', retM_ok ?_, by simpa using R'⟩
  rw [M.bind_ok (m := Store.self) (s' := r) (a := r.2) rfl, R.sh.1]
  simp only [List.length_singleton, M.forN_succ, M.forN_zero]
  rw [M.bind_ok (m := pure ()) (a := ()) (s' := r) rfl, lift_bind_ok hg, e]

/-- What the densities return, for all lengths of the arguments: one element, computed from the first elements. -/
theorem C68_density_characterised {f : List F64 → Out F64} {x a b lg : View F64} {x0 a0 b0 g0 v : F64} {xs as bs gs : List F64}
    (hx : x.Has (x0 :: xs)) (ha : a.Has (a0 :: as)) (hb : b.Has (b0 :: bs)) (hg : lg.Has (g0 :: gs)) (hf : f [x0, a0, b0, g0] = .ok v)
    {h : Heap F64} (hs : h.sched = []) (ws : List String) : Returns (dens f x a b lg) h ws ws [v] {} := by
  unfold dens
  split
  · obtain ⟨r, e, R⟩ := ctorNum_spec hs 1 ws
    obtain ⟨r', e', R'⟩ := R.set (i := 0) v (by simp)
    refine Ret.returns (r := r') (by simpa using R') ?_
    rw [M.bind_ok e, lift_bind_ok (a := v) (by rw [hx.zero, ha.zero, hb.zero, hg.zero]; exact hf)]
    exact retM_ok e'
  · obtain ⟨r, e, R⟩ := ctorNum_spec hs (maxSizes x.size ([a.size, b.size, lg.size].drop 1)) ws
    obtain ⟨r', e', R'⟩ := oneLoop R (g := distEl f [x, a, b, lg]) (v := v) (by
      unfold distEl
      simp only [List.map_cons, List.map_nil, hx.cyc0, ha.cyc0, hb.cyc0, hg.cyc0]
      exact hf) ws
    refine Ret.returns (r := r') R' ?_
    rw [M.bind_ok e]
    exact e'

/-- What the distribution and quantile functions return, for all lengths of the arguments. -/
theorem C68_probability_characterised {f : List F64 → Out F64} {x a b lo lg : View F64} {x0 a0 b0 l0 g0 v : F64} {xs as bs ls gs : List F64}
    (hx : x.Has (x0 :: xs)) (ha : a.Has (a0 :: as)) (hb : b.Has (b0 :: bs)) (hl : lo.Has (l0 :: ls)) (hg : lg.Has (g0 :: gs))
    (hf : f [x0, a0, b0, l0, g0] = .ok v)
    {h : Heap F64} (hs : h.sched = []) (ws : List String) : Returns (prob f x a b lo lg) h ws ws [v] {} := by
  unfold prob
  split
  · obtain ⟨r, e, R⟩ := ctorNum_spec hs 1 ws
    obtain ⟨r', e', R'⟩ := R.set (i := 0) v (by simp)
    refine Ret.returns (r := r') (by simpa using R') ?_
    rw [M.bind_ok e, lift_bind_ok (a := v) (by rw [hx.zero, ha.zero, hb.zero, hl.zero, hg.zero]; exact hf)]
    exact retM_ok e'
  · obtain ⟨r, e, R⟩ := ctorNum_spec hs (maxSizes x.size ([a.size, b.size, lo.size, lg.size].drop 1)) ws
    obtain ⟨r', e', R'⟩ := oneLoop R (g := distEl f [x, a, b, lo, lg]) (v := v) (by
      unfold distEl
      simp only [List.map_cons, List.map_nil, hx.cyc0, ha.cyc0, hb.cyc0, hl.cyc0, hg.cyc0]
      exact hf) ws
    refine Ret.returns (r := r') R' ?_
    rw [M.bind_ok e]
    exact e'

namespace Spec

/-- Vectorised application with recycling: as many elements as the longest argument has. -/
def recycled (f : List F64 → Out F64) (args : List (List F64)) : Option (List F64) :=
  (List.range ((args.map List.length).foldr max 0)).mapM (fun i => do
    let vs ← args.mapM (fun l => l[i % l.length]?)
    val (f vs))

end Spec

theorem recycled_length {f : List F64 → Out F64} {args : List (List F64)} {l : List F64} (h : recycled f args = some l) :
    l.length = (args.map List.length).foldr max 0 := by
  have := mapM_length h; simpa using this

theorem returns_unique {V : Type} {m : AM V Unit} {h : Heap V} {ws w1 w2 : List String} {l l' : List V} {mp mp' : MP}
    (h1 : Returns m h ws w1 l mp) (h2 : Returns m h ws w2 l' mp') : l = l' := by
  obtain ⟨g, d, e, s, _⟩ := h1
  obtain ⟨g', d', e', s', _⟩ := h2
  rw [e] at e'
  simp only [Prod.mk.injEq, true_and] at e'
  obtain ⟨_, rfl, rfl⟩ := e'
  have hl : l.length = l'.length := by rw [← s.1, ← s'.1]
  refine List.ext_getElem hl (fun i h1 h2 => ?_)
  have := s.2 i h1
  rw [s'.2 i h2] at this
  simpa using this.symm

/-- C68 for densities if all arguments have one element; what is missing: longer arguments. -/
theorem C68_density_partial {f : List F64 → Out F64} {x a b lg : View F64} {lx la lb ll l : List F64}
    (hx : x.Has lx) (ha : a.Has la) (hb : b.Has lb) (hg : lg.Has ll)
    (h1 : lx.length = 1) (h2 : la.length = 1) (h3 : lb.length = 1) (h4 : ll.length = 1) (hr : recycled f [lx, la, lb, ll] = some l)
    {h : Heap F64} (hs : h.sched = []) (ws : List String) : Returns (dens f x a b lg) h ws ws l {} := by
  obtain ⟨x0, rfl⟩ := List.length_eq_one_iff.mp h1
  obtain ⟨a0, rfl⟩ := List.length_eq_one_iff.mp h2
  obtain ⟨b0, rfl⟩ := List.length_eq_one_iff.mp h3
  obtain ⟨g0, rfl⟩ := List.length_eq_one_iff.mp h4
  cases hf : f [x0, a0, b0, g0] with
  | ok v =>
    have : l = [v] := by simpa [recycled, hf, val, List.range_succ] using hr.symm
    rw [this]
    exact C68_density_characterised hx ha hb hg hf hs ws
  | thr m => simp [recycled, hf, val, List.range_succ] at hr
  | ub k => simp [recycled, hf, val, List.range_succ] at hr

/-- C68 for distribution and quantile functions if all arguments have one element; what is missing: longer arguments. -/
theorem C68_probability_partial {f : List F64 → Out F64} {x a b lo lg : View F64} {lx la lb lw ll l : List F64}
    (hx : x.Has lx) (ha : a.Has la) (hb : b.Has lb) (hl : lo.Has lw) (hg : lg.Has ll)
    (h1 : lx.length = 1) (h2 : la.length = 1) (h3 : lb.length = 1) (h5 : lw.length = 1) (h4 : ll.length = 1)
    (hr : recycled f [lx, la, lb, lw, ll] = some l)
    {h : Heap F64} (hs : h.sched = []) (ws : List String) : Returns (prob f x a b lo lg) h ws ws l {} := by
  obtain ⟨x0, rfl⟩ := List.length_eq_one_iff.mp h1
  obtain ⟨a0, rfl⟩ := List.length_eq_one_iff.mp h2
  obtain ⟨b0, rfl⟩ := List.length_eq_one_iff.mp h3
  obtain ⟨g0, rfl⟩ := List.length_eq_one_iff.mp h4
  obtain ⟨l0, rfl⟩ := List.length_eq_one_iff.mp h5
  cases hf : f [x0, a0, b0, l0, g0] with
  | ok v =>
    have : l = [v] := by simpa [recycled, hf, val, List.range_succ] using hr.symm
    rw [this]
    exact C68_probability_characterised hx ha hb hl hg hf hs ws
  | thr m => simp [recycled, hf, val, List.range_succ] at hr
  | ub k => simp [recycled, hf, val, List.range_succ] at hr

/-- C68 is false for every call of a density with an argument that has more than one element (and no empty one). -/
theorem C68_density_false {f : List F64 → Out F64} {x a b lg : View F64} {lx la lb ll l : List F64}
    (hx : x.Has lx) (ha : a.Has la) (hb : b.Has lb) (hg : lg.Has ll) (n1 : lx ≠ []) (n2 : la ≠ []) (n3 : lb ≠ []) (n4 : ll ≠ [])
    (hlong : 1 < lx.length ∨ 1 < la.length ∨ 1 < lb.length ∨ 1 < ll.length) (hr : recycled f [lx, la, lb, ll] = some l)
    {h : Heap F64} (hs : h.sched = []) (ws ws' : List String) (mp : MP) : ¬ Returns (dens f x a b lg) h ws ws' l mp := by
  obtain ⟨x0, xs, rfl⟩ := List.exists_cons_of_ne_nil n1
  obtain ⟨a0, as, rfl⟩ := List.exists_cons_of_ne_nil n2
  obtain ⟨b0, bs, rfl⟩ := List.exists_cons_of_ne_nil n3
  obtain ⟨g0, gs, rfl⟩ := List.exists_cons_of_ne_nil n4
  have hlen := recycled_length hr
  simp only [List.map_cons, List.map_nil, List.foldr_cons, List.foldr_nil] at hlen
  have h2 : 1 < l.length := by rw [hlen]; simp only [List.length_cons] at *; omega
  intro hret
  have h0 := mapM_get hr 0 (by simp) (by omega)
  simp only [List.getElem_range, Option.bind_eq_bind] at h0
  rw [show [x0 :: xs, a0 :: as, b0 :: bs, g0 :: gs].mapM (fun l => l[0 % l.length]?) = some [x0, a0, b0, g0] by simp, Option.bind_some] at h0
  cases hf : f [x0, a0, b0, g0] with
  | ok v =>
    have := returns_unique hret (C68_density_characterised hx ha hb hg hf hs ws)
    rw [this] at h2
    simp at h2
  | thr m => simp [hf, val] at h0
  | ub k => simp [hf, val] at h0

/-- C68 is false for every call of a distribution or quantile function with an argument that has more than one element (and no empty
one). -/
theorem C68_probability_false {f : List F64 → Out F64} {x a b lo lg : View F64} {lx la lb lw ll l : List F64}
    (hx : x.Has lx) (ha : a.Has la) (hb : b.Has lb) (hl : lo.Has lw) (hg : lg.Has ll) (n1 : lx ≠ []) (n2 : la ≠ []) (n3 : lb ≠ [])
    (n5 : lw ≠ []) (n4 : ll ≠ [])
    (hlong : 1 < lx.length ∨ 1 < la.length ∨ 1 < lb.length ∨ 1 < lw.length ∨ 1 < ll.length) (hr : recycled f [lx, la, lb, lw, ll] = some l)
    {h : Heap F64} (hs : h.sched = []) (ws ws' : List String) (mp : MP) : ¬ Returns (prob f x a b lo lg) h ws ws' l mp := by
  obtain ⟨x0, xs, rfl⟩ := List.exists_cons_of_ne_nil n1
  obtain ⟨a0, as, rfl⟩ := List.exists_cons_of_ne_nil n2
  obtain ⟨b0, bs, rfl⟩ := List.exists_cons_of_ne_nil n3
  obtain ⟨g0, gs, rfl⟩ := List.exists_cons_of_ne_nil n4
  obtain ⟨l0, ls, rfl⟩ := List.exists_cons_of_ne_nil n5
  have hlen := recycled_length hr
  simp only [List.map_cons, List.map_nil, List.foldr_cons, List.foldr_nil] at hlen
  have h2 : 1 < l.length := by rw [hlen]; simp only [List.length_cons] at *; omega
  intro hret
  have h0 := mapM_get hr 0 (by simp) (by omega)
  simp only [List.getElem_range, Option.bind_eq_bind] at h0
  rw [show [x0 :: xs, a0 :: as, b0 :: bs, l0 :: ls, g0 :: gs].mapM (fun l => l[0 % l.length]?) = some [x0, a0, b0, l0, g0] by simp, Option.bind_some] at h0
  cases hf : f [x0, a0, b0, l0, g0] with
  | ok v =>
    have := returns_unique hret (C68_probability_characterised hx ha hb hl hg hf hs ws)
    rw [this] at h2
    simp at h2
  | thr m => simp [hf, val] at h0
  | ub k => simp [hf, val] at h0

/-! ## Random generators -/

theorem drawLoop_spec {draw : Nat → List F64 → Out F64} {a b : View F64} {a0 b0 : F64} (ha : a.Has [a0]) (hb : b.Has [b0])
    {w : List F64} (hd : ∀ i (hi : i < w.length), draw i [a0, b0] = .ok w[i]) {h : Heap F64} {r : Heap F64 × Store} {l : List F64}
    (R : Ret h r l {}) (hl : l.length = w.length) (ws : List String) :
    ∃ r', drawLoop draw w.length a b (ws, r) = (.ok (), (ws, r')) ∧ Ret h r' w {} := by
  obtain ⟨r', e, R'⟩ := R.loop w.length (x := w) (k := 0) rfl (body := fun i => do
      let v ← M.lift (distEl (draw i) [a, b] i)
      Store.set i v) (by
    intro i hi r
    have c : ∀ {a : View F64} {v : F64}, a.Has [v] → a.cyc i = .ok v := by
      intro a v h; rw [h.cyc (by simp)]; simp [Nat.mod_one]
    rw [lift_bind_ok (a := w[i]) (by
      unfold distEl
      simp only [List.map_cons, List.map_nil, c ha, c hb]
      exact hd i hi)]
    simp) (by omega)
  refine ⟨r', retM_ok e, ?_⟩
  have hdrop : l.drop w.length = [] := List.drop_eq_nil_iff.mpr (by omega)
  simpa [hdrop] using R'

/-- C68 for `runif` with the number of values given as one number from 1 to `2^31 - 1`: that many values are drawn. -/
theorem C68_runif_partial {draw : Nat → List F64 → Out F64} {x a b : View F64} {q : ℚ} {a0 b0 : F64} (hx : x.Has [.fin q]) (ha : a.Has [a0])
    (hb : b.Has [b0]) (h1 : 1 ≤ q) (h2 : q < 2147483648) {w : List F64} (hw : (w.length : Int) = ⌊q⌋)
    (hd : ∀ i (hi : i < w.length), draw i [a0, b0] = .ok w[i]) {h : Heap F64} (hs : h.sched = []) (ws : List String) :
    Returns (runif draw x a b) h ws ws w {} := by
  have ht : F64.truncQ q = ⌊q⌋ := truncQ_of_nonneg (by linarith)
  have f1 : 1 ≤ ⌊q⌋ := Int.le_floor.mpr (by exact_mod_cast h1)
  have f2 : ⌊q⌋ < 2147483648 := by rw [Int.floor_lt]; exact_mod_cast h2
  have e1 : F64.toI32 (.fin q) = .ok ⌊q⌋ := by
    simp only [F64.toI32, ht]; rw [if_pos (by unfold InI32; omega)]
  have e2 : F64.toSizeT (.fin q) = .ok w.length := by
    simp only [F64.toSizeT, ht]; rw [if_pos (by unfold two64; push_cast; omega)]
    congr 1; omega
  have e3 : wrap64 ⌊q⌋ = w.length := by unfold wrap64 two64; omega
  obtain ⟨r, e, R⟩ := ctorSize_spec (zero := F64.fin 0) (h := h) (n := w.length) hs (by omega) (by omega)
  obtain ⟨r', e', R'⟩ := drawLoop_spec ha hb hd R (by simp) ws
  refine Ret.returns R' ?_
  unfold runif
  rw [if_pos ⟨hx.1, ha.1, hb.1⟩, lift_bind_ok (a := ⌊q⌋) (by rw [hx.zero]; exact e1), e3, M.bind_ok (retM_ok e),
    lift_bind_ok (a := w.length) (by rw [hx.zero]; exact e2)]
  exact e'

/-- C68 for the other random generators if one value is requested. -/
theorem C68_rnorm_partial {draw : Nat → List F64 → Out F64} {x a b : View F64} {q : ℚ} {a0 b0 v : F64} (hx : x.Has [.fin q]) (ha : a.Has [a0])
    (hb : b.Has [b0]) (h1 : 1 ≤ q) (h2 : q < 2) (hd : draw 0 [a0, b0] = .ok v) {h : Heap F64} (hs : h.sched = []) (ws : List String) :
    Returns (rdist draw x a b) h ws ws [v] {} := by
  have ht : F64.truncQ q = ⌊q⌋ := truncQ_of_nonneg (by linarith)
  have f1 : ⌊q⌋ = 1 := by rw [Int.floor_eq_iff]; push_cast; constructor <;> linarith
  have e2 : F64.toSizeT (.fin q) = .ok 1 := by
    simp only [F64.toSizeT, ht, f1]; rw [if_pos (by unfold two64; norm_num)]
    rfl
  obtain ⟨r, e, R⟩ := ctorNum_spec hs 1 ws
  obtain ⟨r', e', R'⟩ := drawLoop_spec (draw := draw) (w := [v]) ha hb (by
    intro i hi; simp only [List.length_singleton] at hi; obtain rfl : i = 0 := by omega
    exact hd) R (by simp) ws
  refine Ret.returns R' ?_
  unfold rdist
  rw [if_pos ⟨hx.1, ha.1, hb.1⟩, lift_bind_ok (a := 1) (by rw [hx.zero]; exact e2), M.bind_ok e]
  exact e'

/-- C68 is false for the other random generators: a call that asks for two or more values is rejected, and a call that asks for none
returns one element, 0. -/
theorem C68_rnorm_false {draw : Nat → List F64 → Out F64} {x a b : View F64} {q : ℚ} {a0 b0 : F64} (hx : x.Has [.fin q]) (ha : a.Has [a0])
    (hb : b.Has [b0]) {h : Heap F64} (hs : h.sched = []) (ws : List String) :
    (2 ≤ q → q < 2 ^ 64 → (∀ i, ∃ v, draw i [a0, b0] = .ok v) → Rejects (rdist draw x a b) h ws) ∧
    (0 ≤ q → q < 1 → Returns (rdist draw x a b) h ws ws [.fin 0] {}) := by
  constructor
  · intro h1 h2 hd
    have ht : F64.truncQ q = ⌊q⌋ := truncQ_of_nonneg (by linarith)
    have f1 : 2 ≤ ⌊q⌋ := Int.le_floor.mpr (by exact_mod_cast h1)
    have f2 : ⌊q⌋ < 2 ^ 64 := by rw [Int.floor_lt]; exact_mod_cast h2
    obtain ⟨m, hm⟩ : ∃ m, ⌊q⌋.toNat = m + 2 := ⟨⌊q⌋.toNat - 2, by omega⟩
    have e2 : F64.toSizeT (.fin q) = .ok (m + 2) := by
      simp only [F64.toSizeT, ht]; rw [if_pos (by unfold two64; push_cast; omega), hm]
    obtain ⟨r, e, R⟩ := ctorNum_spec hs (m + 2) ws
    have c : ∀ {a : View F64} {v : F64}, a.Has [v] → ∀ i, a.cyc i = .ok v := by
      intro a v h i; rw [h.cyc (by simp)]; simp [Nat.mod_one]
    have body : ∀ i r, (do
        let v ← M.lift (distEl (draw i) [a, b] i)
        Store.set i v : SM F64 Unit) r = Store.set i (hd i).choose r := by
      intro i r
      rw [lift_bind_ok (a := (hd i).choose) (by
        unfold distEl
        simp only [List.map_cons, List.map_nil, c ha, c hb]
        exact (hd i).choose_spec)]
    obtain ⟨r1, e1, R1⟩ := R.set (i := 0) (hd 0).choose (by simp)
    obtain ⟨msg, e3⟩ := R1.set_thr (i := 1) (hd 1).choose (by simp)
    have loop : ∀ k, M.forN (k + 2) (fun i => do
        let v ← M.lift (distEl (draw i) [a, b] i)
        Store.set i v : Nat → SM F64 Unit) r = (.thr msg, r1) := by
      intro k
      induction k with
      | zero =>
        rw [M.forN_succ, M.forN_succ, M.forN_zero]
        rw [M.bind_ok (a := ()) (s' := r1) (by
          rw [M.bind_ok (m := pure ()) (a := ()) (s' := r) rfl, body, e1]), body, e3]
      | succ k ih => rw [M.forN_succ, M.bind_thr ih]
    refine ⟨msg, (ws, r1), ?_⟩
    unfold rdist
    rw [if_pos ⟨hx.1, ha.1, hb.1⟩, lift_bind_ok (a := m + 2) (by rw [hx.zero]; exact e2), M.bind_ok e]
    exact retM_ok (loop m)
  · intro h1 h2
    have ht : F64.truncQ q = ⌊q⌋ := truncQ_of_nonneg h1
    have f1 : ⌊q⌋ = 0 := by rw [Int.floor_eq_iff]; push_cast; constructor <;> linarith
    have e2 : F64.toSizeT (.fin q) = .ok 0 := by
      simp only [F64.toSizeT, ht, f1]; rw [if_pos (by unfold two64; norm_num)]
      rfl
    obtain ⟨r, e, R⟩ := ctorNum_spec hs 0 ws
    have h0 : F64.ofNat 0 = .fin 0 := by decide +kernel
    rw [h0] at R
    refine Ret.returns R ?_
    unfold rdist
    rw [if_pos ⟨hx.1, ha.1, hb.1⟩, lift_bind_ok (a := 0) (by rw [hx.zero]; exact e2), M.bind_ok e]
    rfl

/-- The second branch of the generators gives one value, drawn with the first elements of the parameters. -/
theorem drawLong_spec {draw : Nat → List F64 → Out F64} {x a b : View F64} {a0 b0 v : F64} {as bs : List F64} (ha : a.Has (a0 :: as))
    (hb : b.Has (b0 :: bs)) (hd : draw 0 [a0, b0] = .ok v) {h : Heap F64} (hs : h.sched = []) (ws : List String) :
    Returns (drawLong draw x a b) h ws ws [v] {} := by
  obtain ⟨r, e, R⟩ := ctorNum_spec hs (maxSizes x.size ([a.size, b.size].drop 1)) ws
  obtain ⟨r', e', R'⟩ := oneLoop R (g := fun i => distEl (draw i) [a, b] i) (v := v) (by
    unfold distEl
    simp only [List.map_cons, List.map_nil, ha.cyc0, hb.cyc0]
    exact hd) ws
  refine Ret.returns (r := r') R' ?_
  unfold drawLong
  rw [M.bind_ok e, M.bind_ok (M.get_apply _)]
  exact e'

/-- What `runif`, `rnorm` and `rlnorm` return if one of the arguments does not have exactly one element: one value, whatever number of
values was requested. -/
theorem C68_generator_characterised {draw : Nat → List F64 → Out F64} {x a b : View F64} {a0 b0 v : F64} {lx as bs : List F64}
    (hx : x.Has lx) (ha : a.Has (a0 :: as)) (hb : b.Has (b0 :: bs)) (hl : ¬(lx.length = 1 ∧ as = [] ∧ bs = []))
    (hd : draw 0 [a0, b0] = .ok v) {h : Heap F64} (hs : h.sched = []) (ws : List String) :
    Returns (runif draw x a b) h ws ws [v] {} ∧ Returns (rdist draw x a b) h ws ws [v] {} := by
  have hn : ¬(x.size = 1 ∧ a.size = 1 ∧ b.size = 1) := by
    rw [hx.1, ha.1, hb.1]
    simp only [List.length_cons, Nat.add_eq_right, List.length_eq_zero_iff]
    exact hl
  unfold runif rdist
  rw [if_neg hn, if_neg hn]
  exact ⟨drawLong_spec ha hb hd hs ws, drawLong_spec ha hb hd hs ws⟩

/-! ## The gamma distribution -/

/-- The scale used by the gamma functions is the vector of the inverse rates. -/
theorem gammaScale_has {rate : View F64} {l : List F64} (h : rate.Has l) :
    ∃ s, gammaScale rate = .ok s ∧ s.Has (l.map (F64.div (.fin 1))) := by
  have e : Out.all ((List.range rate.size).map (fun i => do
      let v ← rate.el i
      return F64.div (.fin 1) v)) = .ok (l.map (F64.div (.fin 1))) := by
    rw [Out.all_eq_ok, h.1]
    apply List.ext_getElem (by simp)
    intro i h1 h2
    simp only [List.length_map, List.length_range] at h1
    simp [h.2 i h1]
  refine ⟨_, by unfold gammaScale; rw [e, Out.ok_bind]; rfl, rfl, fun i hi => ?_⟩
  simp only [List.getElem?_eq_getElem hi]

/-- C68 for the gamma density if all arguments have one element. -/
theorem C68_gamma_partial {f : List F64 → Out F64} {x s rate lg : View F64} {x0 s0 r0 g0 v : F64}
    (hx : x.Has [x0]) (hss : s.Has [s0]) (hr : rate.Has [r0]) (hg : lg.Has [g0]) (hf : f [x0, s0, F64.div (.fin 1) r0, g0] = .ok v)
    {h : Heap F64} (hs : h.sched = []) (ws : List String) : Returns (dgamma f x s rate lg) h ws ws [v] {} := by
  obtain ⟨sc, e, hsc⟩ := gammaScale_has hr
  obtain ⟨h', d, e', rest⟩ := C68_density_characterised hx hss hsc hg hf hs ws
  refine ⟨h', d, ?_, rest⟩
  unfold dgamma
  rw [lift_bind_ok e]
  exact e'

/-- C68 for probabilities and quantiles of the gamma distribution if all arguments have one element. -/
theorem C68_gamma_probability_partial {f : List F64 → Out F64} {x s rate lo lg : View F64} {x0 s0 r0 l0 g0 v : F64}
    (hx : x.Has [x0]) (hss : s.Has [s0]) (hr : rate.Has [r0]) (hl : lo.Has [l0]) (hg : lg.Has [g0])
    (hf : f [x0, s0, F64.div (.fin 1) r0, l0, g0] = .ok v)
    {h : Heap F64} (hs : h.sched = []) (ws : List String) : Returns (pgamma f x s rate lo lg) h ws ws [v] {} := by
  obtain ⟨sc, e, hsc⟩ := gammaScale_has hr
  obtain ⟨h', d, e', rest⟩ := C68_probability_characterised hx hss hsc hl hg hf hs ws
  refine ⟨h', d, ?_, rest⟩
  unfold pgamma
  rw [lift_bind_ok e]
  exact e'

/-- C68 for one random value of the gamma distribution. -/
theorem C68_rgamma_partial {draw : Nat → List F64 → Out F64} {x s rate : View F64} {q : ℚ} {s0 r0 v : F64} (hx : x.Has [.fin q])
    (hss : s.Has [s0]) (hr : rate.Has [r0]) (h1 : 1 ≤ q) (h2 : q < 2) (hd : draw 0 [s0, F64.div (.fin 1) r0] = .ok v)
    {h : Heap F64} (hs : h.sched = []) (ws : List String) : Returns (rgamma draw x s rate) h ws ws [v] {} := by
  obtain ⟨sc, e, hsc⟩ := gammaScale_has hr
  obtain ⟨h', d, e', rest⟩ := C68_rnorm_partial hx hss hsc h1 h2 hd hs ws
  refine ⟨h', d, ?_, rest⟩
  unfold rgamma
  rw [lift_bind_ok e]
  exact e'

/-- What `rgamma` returns if one of the arguments does not have exactly one element. -/
theorem C68_rgamma_characterised {draw : Nat → List F64 → Out F64} {x s rate : View F64} {s0 r0 v : F64} {lx ss rs : List F64}
    (hx : x.Has lx) (hss : s.Has (s0 :: ss)) (hr : rate.Has (r0 :: rs)) (hl : ¬(lx.length = 1 ∧ ss = [] ∧ rs = []))
    (hd : draw 0 [s0, F64.div (.fin 1) r0] = .ok v) {h : Heap F64} (hs : h.sched = []) (ws : List String) :
    Returns (rgamma draw x s rate) h ws ws [v] {} := by
  obtain ⟨sc, e, hsc⟩ := gammaScale_has hr
  rw [List.map_cons] at hsc
  obtain ⟨h', d, e', rest⟩ := (C68_generator_characterised hx hss hsc (by simpa using hl) hd hs ws).2
  refine ⟨h', d, ?_, rest⟩
  unfold rgamma
  rw [lift_bind_ok e]
  exact e'

/-- C68 is false for two random values of the gamma distribution: the call throws. -/
theorem C68_rgamma_false {draw : Nat → List F64 → Out F64} {x s rate : View F64} {q : ℚ} {s0 r0 : F64} (hx : x.Has [.fin q])
    (hss : s.Has [s0]) (hr : rate.Has [r0]) (h1 : 2 ≤ q) (h2 : q < 2 ^ 64) (hd : ∀ i, ∃ v, draw i [s0, F64.div (.fin 1) r0] = .ok v)
    {h : Heap F64} (hs : h.sched = []) (ws : List String) : Rejects (rgamma draw x s rate) h ws := by
  obtain ⟨sc, e, hsc⟩ := gammaScale_has hr
  obtain ⟨m, st, e'⟩ := (C68_rnorm_false hx hss hsc hs ws).1 h1 h2 hd
  refine ⟨m, st, ?_⟩
  unfold rgamma
  rw [lift_bind_ok e]
  exact e'

/-- Three values requested with a parameter of two elements: `runif` gives one. -/
example : ∃ (x a b : View F64), x.Has [.fin 3] ∧ a.Has [.fin 0, .fin 1] ∧ b.Has [.fin 5] ∧
    Returns (runif (fun i vs => .ok (F64.add (vs.headD .nan) (F64.ofNat i))) x a b) Heap.empty [] [] [.fin 0] {} := by
  have hv : ∀ l : List F64, (View.mk l.length (getL l) (.ok .nan)).Has l := by
    intro l; exact ⟨rfl, fun i hi => by show getL l i = _; unfold getL; rw [List.getElem?_eq_getElem hi]⟩
  exact ⟨_, _, _, hv _, hv _, hv _, (C68_generator_characterised (hv _) (hv _) (hv _) (by simp) (by decide +kernel) rfl []).1⟩

/-- The density of three values gives one element. -/
example : ∃ (x p : View F64), x.Has [.fin 1, .fin 2, .fin 3] ∧ p.Has [.fin 0] ∧
    Returns (dens (fun vs => .ok (vs.headD .nan)) x p p p) Heap.empty [] [] [.fin 1] {} ∧
    recycled (fun vs => .ok (vs.headD .nan)) [[.fin 1, .fin 2, .fin 3], [.fin 0], [.fin 0], [.fin 0]] = some [.fin 1, .fin 2, .fin 3] := by
  have hv : ∀ l : List F64, (View.mk l.length (getL l) (.ok .nan)).Has l := by
    intro l; exact ⟨rfl, fun i hi => by show getL l i = _; unfold getL; rw [List.getElem?_eq_getElem hi]⟩
  exact ⟨_, _, hv _, hv _, C68_density_characterised (hv _) (hv _) (hv _) (hv _) rfl rfl [], by decide +kernel⟩

theorem ofListHas (l : List F64) : (View.mk l.length (getL l) (.ok .nan)).Has l :=
  ⟨rfl, fun i hi => by show getL l i = _; unfold getL; rw [List.getElem?_eq_getElem hi]⟩

/-- Vectors with the given elements. -/
def argView (l : List F64) : View F64 := ⟨l.length, getL l, .ok .nan⟩

/-- The theorems of this file applied to a function that returns its third argument and a generator that counts. -/
example : Returns (prob (fun vs => .ok (vs.getD 2 .nan)) (argView [.fin 1, .fin 2]) (argView [.fin 3]) (argView [.fin 4, .fin 5])
    (argView [.fin 1]) (argView [.fin 0])) Heap.empty [] [] [.fin 4] {} :=
  C68_probability_characterised (ofListHas _) (ofListHas _) (ofListHas _) (ofListHas _) (ofListHas _) rfl rfl []

example : Returns (dens (fun vs => .ok (vs.getD 2 .nan)) (argView [.fin 1]) (argView [.fin 3]) (argView [.fin 4]) (argView [.fin 0]))
    Heap.empty [] [] [.fin 4] {} :=
  C68_density_partial (ofListHas _) (ofListHas _) (ofListHas _) (ofListHas _) rfl rfl rfl rfl (by decide +kernel) rfl []

example : Returns (prob (fun vs => .ok (vs.getD 2 .nan)) (argView [.fin 1]) (argView [.fin 3]) (argView [.fin 4])
    (argView [.fin 1]) (argView [.fin 0])) Heap.empty [] [] [.fin 4] {} :=
  C68_probability_partial (ofListHas _) (ofListHas _) (ofListHas _) (ofListHas _) (ofListHas _) rfl rfl rfl rfl rfl (by decide +kernel) rfl []

example : Returns (runif (fun i _ => .ok (F64.ofNat i)) (argView [.fin (7 / 2)]) (argView [.fin 0]) (argView [.fin 1])) Heap.empty [] []
    [.fin 0, .fin 1, .fin 2] {} :=
  C68_runif_partial (q := 7 / 2) (ofListHas _) (ofListHas _) (ofListHas _) (by norm_num) (by norm_num) (by norm_num) (by decide +kernel) rfl []

example : Returns (rdist (fun i _ => .ok (F64.ofNat i)) (argView [.fin (3 / 2)]) (argView [.fin 0]) (argView [.fin 1])) Heap.empty [] []
    [.fin 0] {} :=
  C68_rnorm_partial (q := 3 / 2) (ofListHas _) (ofListHas _) (ofListHas _) (by norm_num) (by norm_num) (by decide +kernel) rfl []

example : Returns (dgamma (fun vs => .ok (vs.getD 2 .nan)) (argView [.fin 1]) (argView [.fin 3]) (argView [.fin 4]) (argView [.fin 0]))
    Heap.empty [] [] [.fin (1 / 4)] {} :=
  C68_gamma_partial (ofListHas _) (ofListHas _) (ofListHas _) (ofListHas _) (by decide +kernel) rfl []

example : Returns (pgamma (fun vs => .ok (vs.getD 2 .nan)) (argView [.fin 1]) (argView [.fin 3]) (argView [.fin 4]) (argView [.fin 1])
    (argView [.fin 0])) Heap.empty [] [] [.fin (1 / 4)] {} :=
  C68_gamma_probability_partial (ofListHas _) (ofListHas _) (ofListHas _) (ofListHas _) (ofListHas _) (by decide +kernel) rfl []

example : Returns (rgamma (fun _ vs => .ok (vs.getD 1 .nan)) (argView [.fin 1]) (argView [.fin 3]) (argView [.fin 4]))
    Heap.empty [] [] [.fin (1 / 4)] {} :=
  C68_rgamma_partial (q := 1) (ofListHas _) (ofListHas _) (ofListHas _) (by norm_num) (by norm_num) (by decide +kernel) rfl []

example : Returns (rgamma (fun _ vs => .ok (vs.getD 1 .nan)) (argView [.fin 5, .fin 6]) (argView [.fin 3]) (argView [.fin 4]))
    Heap.empty [] [] [.fin (1 / 4)] {} :=
  C68_rgamma_characterised (ofListHas _) (ofListHas _) (ofListHas _) (by simp) (by decide +kernel) rfl []

end ETR
