import Verif.Lemmas.Interp
import Mathlib.Topology.Algebra.Order.Field
import Mathlib.Topology.Instances.Real.Lemmas
import Mathlib.Tactic.Continuity
import Mathlib.Tactic.FieldSimp

/-! Interpolation: C53 to C57 and C51 for `cmr`. -/

namespace ETR
open Spec Store
variable {T : Type}

/-! ## C53 arguments and clamping -/

/-- C53: the lengths are checked, and outside the range of the times the first and the last value is returned.  For any
arithmetic, in particular binary64, and any vectors. -/
theorem C53_checked (A : Arith T) (t : T) {time par : View T} {ts ys : List T} (ht : time.Is ts) (hy : par.Is ys) :
    (ts.length ≠ ys.length → cmrInternal A t time par = .thr "x and y differ in length") ∧
    (ts.length = ys.length → ts.length < 4 →
      cmrInternal A t time par = .thr "time and parameter require at least 4 elements") := by
  constructor
  · intro h
    unfold cmrInternal
    rw [Out.ass_neg (by rw [ht.size, hy.size]; exact h)]
    rfl
  · intro h h4
    unfold cmrInternal
    rw [Out.ass_pos (by rw [ht.size, hy.size]; exact h), Out.ok_bind, Out.ass_neg (by rw [ht.size]; omega)]
    rfl

theorem C53_clamped (A : Arith T) (t : T) {time par : View T} {ts ys : List T} (ht : time.Is ts) (hy : par.Is ys)
    (hl : ts.length = ys.length) (h4 : 4 ≤ ts.length) :
    (A.lt t ts[0] = true → cmrInternal A t time par = .ok ys[0]) ∧
    (A.lt t ts[0] = false → A.lt ts[ts.length - 1] t = true → cmrInternal A t time par = .ok ys[ys.length - 1]) := by
  have e : cmrInternal A t time par = (if A.lt t ts[0] then par.el 0 else do
      let b ← time.el (time.size - 1)
      if A.lt b t then par.el (par.size - 1)
      else do
        let s ← cmrLoop A t time par (time.size + 1) 0
        return cmrFormula A t s) := by
    unfold cmrInternal
    rw [Out.ass_pos (by rw [ht.size, hy.size]; exact hl), Out.ok_bind, Out.ass_pos (by rw [ht.size]; exact h4),
      Out.ok_bind, ht.el 0 (by omega), Out.ok_bind]
  constructor
  · intro h
    rw [e, if_pos h]
    exact hy.el 0 (by omega)
  · intro h h2
    rw [e, if_neg (by rw [h]; simp), ht.size, ht.el _ (by omega), Out.ok_bind, if_pos h2, hy.size]
    exact hy.el _ (by omega)

/-- The hypotheses hold for vectors owning their memory. -/
example : ∃ (h : Heap Int) (s : Store), (s.view h).Is [1, 2, 3, 4] :=
  ⟨⟨fun _ => ⟨4, fun i => some (i + 1), true, true⟩, 1, []⟩, ⟨some 0, 4, 4, true, {}⟩,
    Shows.view ⟨rfl, by decide⟩⟩

/-! ## C56 reads -/

/-- The intervals that are looked up with defined reads only. -/
theorem C56_partial (A : Arith T) (t : T) {time par : View T} {ts ys : List T} (ht : time.Is ts) (hy : par.Is ys)
    (hl : ts.length = ys.length) (h4 : 4 ≤ ts.length) (hlim : ts.length < 2147483648)
    (hout : ¬ (A.le ts[ts.length - 2] t = true ∧ A.lt t ts[ts.length - 1] = true)) :
    ∃ v, ∀ b, cmrInternal A t { time with back := b } par = .ok v := by
  have ht' : ∀ b, ({ time with back := b } : View T).Is ts := fun b => ⟨ht.size, ht.el, ht.out⟩
  by_cases h1 : A.lt t ts[0] = true
  · exact ⟨_, fun b => (C53_clamped A t (ht' b) hy hl h4).1 h1⟩
  rw [Bool.not_eq_true] at h1
  by_cases h2 : A.lt ts[ts.length - 1] t = true
  · exact ⟨_, fun b => (C53_clamped A t (ht' b) hy hl h4).2 h1 h2⟩
  rw [Bool.not_eq_true] at h2
  by_cases hex : ∃ k, A.In ts t k
  · classical
    obtain ⟨hin, hno⟩ := And.intro (Nat.find_spec hex) (fun j (hj : j < Nat.find hex) => Nat.find_min hex hj)
    generalize Nat.find hex = k at hin hno
    have hk2 : k + 2 < ts.length := by
      obtain ⟨hk, a, b⟩ := hin
      by_contra hk'
      have : k = ts.length - 2 := by omega
      subst this
      refine hout ⟨a, ?_⟩
      simpa only [show ts.length - 2 + 1 = ts.length - 1 by omega] using b
    have h : ∀ b, ∃ v, cmrInternal A t { time with back := b } par = .ok v ∧ v = cmrFormula A t
        ⟨ts[(k + ts.length - 1) % ts.length]'(Nat.mod_lt _ (by omega)), ts[k], ts[k + 1], ts[k + 2],
         ys[(k + ts.length - 1) % ts.length]'(by rw [← hl]; exact Nat.mod_lt _ (by omega)), ys[k], ys[k + 1],
         ys[k + 2]⟩ := by
      intro b
      rw [cmrInternal_mid A (ht' b) hy hl h4 h1 h2, cmrLoop_in A (ht' b) hin hno,
        cmrSegment_ok A (ht' b) hy hl h4 hlim hk2]
      exact ⟨_, rfl, rfl⟩
    exact ⟨_, fun b => by obtain ⟨v, e, rfl⟩ := h b; exact e⟩
  · have h : ∀ b, ∃ v, cmrInternal A t { time with back := b } par = .ok v ∧ v = cmrFormula A t
        ⟨ts[ts.length - 2], ts[ts.length - 1], ts[0], ts[1], ys[ts.length - 2], ys[ts.length - 1], ys[0], ys[1]⟩ := by
      intro b
      rw [cmrInternal_mid A (ht' b) hy hl h4 h1 h2, cmrLoop_last A (ht' b) (by omega) (fun j hj => hex ⟨j, hj⟩),
        cmrLast_ok (ht' b) hy hl h4 hlim]
      exact ⟨_, rfl, rfl⟩
    exact ⟨_, fun b => by obtain ⟨v, e, rfl⟩ := h b; exact e⟩

/-- For increasing times, `back()`, which reads the element behind the last one, is used exactly if `t` lies in the
last interval. -/
theorem C56_characterised {A : Arith T} {K : Type} [LinearOrder K] {val : T → K} {P : T → Prop}
    (o : A.Ord val P) {t : T} (htP : P t) {time par : View T} {ts ys : List T} (ht : time.Is ts) (hy : par.Is ys)
    (hl : ts.length = ys.length) (h4 : 4 ≤ ts.length) (hlim : ts.length < 2147483648) (hP : ∀ x ∈ ts, P x)
    (hi : Increasing (ts.map val)) (k : UB) (hb : time.back = .ub k) :
    cmrInternal A t time par = .ub k ↔ val ts[ts.length - 2] ≤ val t ∧ val t < val ts[ts.length - 1] := by
  rw [← o.le _ _ (hP _ (List.getElem_mem _)) htP, ← o.lt _ _ htP (hP _ (List.getElem_mem _))]
  constructor
  · intro h
    by_contra hout
    obtain ⟨v, hv⟩ := C56_partial A t ht hy hl h4 hlim hout
    have := hv time.back
    rw [show ({ time with back := time.back } : View T) = time from rfl, h] at this
    cases this
  · rintro ⟨h1, h2⟩
    have hin : A.In ts t (ts.length - 2) :=
      ⟨by omega, h1, by simpa only [show ts.length - 2 + 1 = ts.length - 1 by omega] using h2⟩
    rw [o.cmr_in hP hi htP ht hy hl h4 hin, cmrSegment_back A ht hy hl h4 hlim, hb]
    rfl

theorem increasing_iff {K : Type} [LT K] {ts : List K} : Increasing ts ↔ ts.Pairwise (· < ·) := by
  rw [List.pairwise_iff_getElem]
  exact Iff.rfl

/-- A vector of four numbers that owns its memory, built with the operations of the library. -/
def four (a b c d : F64) : Heap F64 × Store :=
  ((do Store.ctorSize (.fin 0) 4; Store.set 0 a; Store.set 1 b; Store.set 2 c; Store.set 3 d : SM F64 Unit)
    (Heap.empty, {})).2

/-- C56 is false: with the times 1, 2, 3, 4 the value at 3.5 is computed from memory behind the time vector. -/
theorem C56_false (pow : F64 → Nat → F64) :
    let r := four (.fin 1) (.fin 2) (.fin 3) (.fin 4)
    Shows r.1 r.2 [.fin 1, .fin 2, .fin 3, .fin 4] ∧
      cmrInternal (Arith.f64 pow) (.fin (7 / 2)) (r.2.view r.1) (r.2.view r.1) = .ub .oob := by
  have hs : Shows (four (.fin 1) (.fin 2) (.fin 3) (.fin 4)).1 (four (.fin 1) (.fin 2) (.fin 3) (.fin 4)).2
      [.fin 1, .fin 2, .fin 3, .fin 4] := ⟨by decide +kernel, by decide +kernel⟩
  refine ⟨hs, ?_⟩
  refine (C56_characterised (Arith.ord_f64 pow) ⟨_, rfl⟩ hs.view hs.view rfl (by decide) (by decide) ?_ ?_ .oob ?_).2 ?_
  · intro x hx
    simp only [List.mem_cons, List.not_mem_nil, or_false] at hx
    rcases hx with rfl | rfl | rfl | rfl <;> exact ⟨_, rfl⟩
  · exact increasing_iff.mpr (by decide +kernel)
  · decide +kernel
  · decide +kernel

/-! ## C54 knots -/

/-- C54 in exact arithmetic, for every knot if `back()` returns anything, and for all but the last but one if it does
not. -/
theorem C54_exact_partial {K : Type} [Field K] [LinearOrder K] {time par : View K} {ts ys : List K} (ht : time.Is ts)
    (hy : par.Is ys) (hl : ts.length = ys.length) (h4 : 4 ≤ ts.length) (hlim : ts.length < 2147483648)
    (hi : Increasing ts) {i : Nat} (hit : i < ts.length) (hb : i ≠ ts.length - 2 ∨ ∃ b, time.back = .ok b) :
    cmrInternal (Arith.field K) ts[i] time par = .ok ys[i] := by
  have o := Arith.ord_field K
  have hi' : Increasing (ts.map id) := by rwa [List.map_id]
  have h0 : ∀ s : Seg K, s.t1 = ts[i] → s.y1 = ys[i] → cmrFormula (Arith.field K) ts[i] s = ys[i] := by
    intro s h1 h2
    simp only [cmrFormula, Arith.field, h1, h2, sub_self, zero_div]
    simp
  by_cases hlast : i = ts.length - 1
  · subst hlast
    rw [o.cmr_last (fun _ _ => trivial) hi' ht hy hl h4, cmrLast_ok ht hy hl h4 hlim]
    simp only [Out.ok_bind]
    rw [h0 _ rfl rfl]
    rfl
  · have hin : (Arith.field K).In ts ts[i] i := by
      refine ⟨by omega, by simp [Arith.field], ?_⟩
      have := hi i (i + 1) hit (by omega) (by omega)
      simpa [Arith.field] using this
    rw [o.cmr_in (fun _ _ => trivial) hi' trivial ht hy hl h4 hin]
    by_cases hl2 : i = ts.length - 2
    · obtain ⟨b, hb'⟩ := hb.resolve_left (by simpa using hl2)
      subst hl2
      rw [cmrSegment_back _ ht hy hl h4 hlim, hb']
      simp only [Out.ok_bind, Out.pure_eq]
      rw [h0 _ rfl rfl]
    · rw [cmrSegment_ok _ ht hy hl h4 hlim (by omega)]
      simp only [Out.ok_bind, Out.pure_eq]
      rw [h0 _ rfl rfl]

namespace F64

theorem Rep.rndQ {q : ℚ} (h : Rep q) : rndQ q = q := by
  unfold Rep rnd at h
  simp only [] at h
  split at h
  · cases h
  · exact F64.fin.inj h

/-- A binary64 number is a multiple of the smallest positive one. -/
theorem Rep.grid {q : ℚ} (h : Rep q) : ∃ k : Int, q = k * pow2 (-1074) := by
  by_cases h0 : q = 0
  · exact ⟨0, by simp [h0]⟩
  · have e := h.rndQ
    rw [rndQ_ne h0] at e
    have hu := ulpExp_ge q
    obtain ⟨n, hn⟩ := Int.eq_ofNat_of_zero_le (show 0 ≤ ulpExp q + 1074 by omega)
    have hp : pow2 (ulpExp q) = 2 ^ n * pow2 (-1074) := by
      rw [← pow2_natCast, ← pow2_add]; congr 1; omega
    refine ⟨rhe (q / pow2 (ulpExp q)) * 2 ^ n, ?_⟩
    push_cast
    rw [mul_assoc, ← hp, e]

theorem rndQ_sub_ne {p q : ℚ} (hp : Rep p) (hq : Rep q) (h : p ≠ q) : F64.rndQ (p - q) ≠ 0 := by
  obtain ⟨a, ea⟩ := hp.grid
  obtain ⟨b, eb⟩ := hq.grid
  have hpos := pow2_pos (-1074)
  have hmin : F64.rndQ (pow2 (-1074)) = pow2 (-1074) := by
    have := rndQ_exact (m := 1) (k := -1074) (by norm_num) (le_refl _)
    simpa using this
  have hab : a ≠ b := fun hab => h (by rw [ea, eb, hab])
  have e : p - q = ((a - b : Int) : ℚ) * pow2 (-1074) := by rw [ea, eb]; push_cast; ring
  rcases lt_or_gt_of_ne hab with hlt | hgt
  · have : pow2 (-1074) ≤ -(p - q) := by
      rw [e]
      have : (1 : ℚ) ≤ -((a - b : Int) : ℚ) := by
        have : (1 : Int) ≤ -(a - b) := by omega
        exact_mod_cast this
      nlinarith
    have := rndQ_mono this
    rw [hmin, rndQ_neg] at this
    intro h0
    rw [h0] at this
    linarith
  · have : pow2 (-1074) ≤ p - q := by
      rw [e]
      have : (1 : ℚ) ≤ ((a - b : Int) : ℚ) := by
        have : (1 : Int) ≤ a - b := by omega
        exact_mod_cast this
      nlinarith
    have := rndQ_mono this
    rw [hmin] at this
    intro h0
    rw [h0] at this
    linarith

theorem rnd_zero : rnd 0 = fin 0 := by decide +kernel

end F64

/-- At a knot the formula is exact in binary64 as long as nothing overflows. -/
theorem formula_knot {pow : F64 → Nat → F64} (h2 : pow (.fin 0) 2 = .fin 0) (h3 : pow (.fin 0) 3 = .fin 0)
    {t u y : ℚ} (ht : F64.Rep t) (hu : F64.Rep u) (hne : u ≠ t) (hy : F64.Rep y) {s : Seg F64} (e1 : s.t1 = .fin t)
    (e2 : s.t2 = .fin u) (ey : s.y1 = .fin y) {d m1 m2 z : ℚ} (hd : F64.sub s.t2 s.t1 = .fin d)
    (hm1 : F64.div (F64.sub s.y2 s.y0) (F64.sub s.t2 s.t0) = .fin m1)
    (hm2 : F64.div (F64.sub s.y3 s.y1) (F64.sub s.t3 s.t1) = .fin m2) (ez : s.y2 = .fin z) :
    cmrFormula (Arith.f64 pow) (.fin t) s = .fin y := by
  have hd0 : d ≠ 0 := by
    rw [e1, e2] at hd
    have hd' : F64.rnd (u + -t) = .fin d := hd
    unfold F64.rnd at hd'
    simp only [] at hd'
    split at hd'
    · cases hd'
    · have := F64.fin.inj hd'
      rw [← this, ← sub_eq_add_neg]
      exact F64.rndQ_sub_ne hu ht hne
  have hx : F64.div (F64.sub (.fin t) s.t1) (F64.sub s.t2 s.t1) = .fin 0 := by
    rw [hd, e1]
    have : F64.sub (.fin t) (.fin t) = .fin 0 := by
      show F64.rnd (t + -t) = _
      rw [add_neg_cancel]
      exact F64.rnd_zero
    rw [this]
    show (if d = 0 then _ else F64.rnd (0 / d)) = _
    rw [if_neg hd0, zero_div]
    exact F64.rnd_zero
  have l2 : F64.ofInt 2 = .fin 2 := by decide +kernel
  have l3 : F64.ofInt 3 = .fin 3 := by decide +kernel
  have l1 : F64.ofInt 1 = .fin 1 := by decide +kernel
  have lm : F64.ofInt (-2) = .fin (-2) := by decide +kernel
  have mz : ∀ q : ℚ, F64.mul (.fin q) (.fin 0) = .fin 0 := fun q => by
    show F64.rnd (q * 0) = _
    rw [mul_zero]; exact F64.rnd_zero
  have zm : ∀ q : ℚ, F64.mul (.fin 0) (.fin q) = .fin 0 := fun q => by
    show F64.rnd (0 * q) = _
    rw [zero_mul]; exact F64.rnd_zero
  have s0 : F64.sub (.fin 0) (.fin 0) = .fin 0 := by decide +kernel
  have a0 : F64.add (.fin 0) (.fin 0) = .fin 0 := by decide +kernel
  have a1 : F64.add (.fin 0) (.fin 1) = .fin 1 := by decide +kernel
  have my : F64.mul (.fin 1) (.fin y) = .fin y := by
    show F64.rnd (1 * y) = _
    rw [one_mul]; exact hy
  have ay : F64.add (.fin y) (.fin 0) = .fin y := by
    show F64.rnd (y + 0) = _
    rw [add_zero]; exact hy
  simp only [cmrFormula, Arith.f64]
  rw [hx, hm1, hm2]
  simp only [h2, h3, l1, l2, l3, lm, mz, s0, a0, a1, hd, zm, ey, ez, my, ay]

/-- C54 in binary64, for every knot but the last but one, whenever the length of the interval and the slopes
computed at its ends do not overflow.  `pow` is the function of the C library, of which only `pow(0, 2) = pow(0, 3) = 0` is
used.  The neighbours are counted around the end. -/
theorem C54_binary64_partial {pow : F64 → Nat → F64} (h2 : pow (.fin 0) 2 = .fin 0) (h3 : pow (.fin 0) 3 = .fin 0)
    {time par : View F64} {ts ys : List ℚ} (ht : time.Is (ts.map F64.fin)) (hy : par.Is (ys.map F64.fin))
    (hl : ts.length = ys.length) (h4 : 4 ≤ ts.length) (hlim : ts.length < 2147483648) (hi : Increasing ts)
    (hrt : ∀ q ∈ ts, F64.Rep q) (hry : ∀ q ∈ ys, F64.Rep q) {i : Nat} (hit : i < ts.length)
    (hne : i ≠ ts.length - 2)
    (hfin : ∀ p n n2, p = (i + ts.length - 1) % ts.length → n = (i + 1) % ts.length → n2 = (i + 2) % ts.length →
      ∀ tp tn tn2 yp yn yn2 : ℚ, ts[p]? = some tp → ts[n]? = some tn → ts[n2]? = some tn2 →
      ys[p]? = some yp → ys[n]? = some yn → ys[n2]? = some yn2 →
      (∃ d, F64.sub (.fin tn) (.fin ts[i]) = .fin d) ∧
      (∃ m, F64.div (F64.sub (.fin yn) (.fin yp)) (F64.sub (.fin tn) (.fin tp)) = .fin m) ∧
      (∃ m, F64.div (F64.sub (.fin yn2) (.fin ys[i])) (F64.sub (.fin tn2) (.fin ts[i])) = .fin m)) :
    cmrInternal (Arith.f64 pow) (.fin ts[i]) time par = .ok (.fin ys[i]) := by
  have o := Arith.ord_f64 pow
  have hP : ∀ x ∈ ts.map F64.fin, ∃ q, x = F64.fin q := by
    intro x hx
    obtain ⟨q, _, rfl⟩ := List.mem_map.mp hx
    exact ⟨q, rfl⟩
  have hi' : Increasing ((ts.map F64.fin).map F64.val) := by
    have : (ts.map F64.fin).map F64.val = ts := by
      rw [List.map_map]
      have : F64.val ∘ F64.fin = id := rfl
      rw [this, List.map_id]
    rwa [this]
  have hl' : (ts.map F64.fin).length = (ys.map F64.fin).length := by simpa using hl
  have hle : (ts.map F64.fin).length = ts.length := by simp
  by_cases hlast : i = ts.length - 1
  · have e := o.cmr_last hP hi' ht hy hl' (by simpa using h4)
    rw [cmrLast_ok ht hy hl' (by simpa using h4) (by simpa using hlim)] at e
    simp only [hle, List.getElem_map, Out.ok_bind] at e
    subst hlast
    rw [e]
    obtain ⟨⟨d, hd⟩, ⟨m1, hm1⟩, ⟨m2, hm2⟩⟩ := hfin (ts.length - 2) 0 1
      (by rw [show ts.length - 1 + ts.length - 1 = ts.length - 2 + ts.length by omega, Nat.add_mod_right,
        Nat.mod_eq_of_lt (by omega)])
      (by rw [show ts.length - 1 + 1 = ts.length by omega, Nat.mod_self])
      (by rw [show ts.length - 1 + 2 = 1 + ts.length by omega, Nat.add_mod_right, Nat.mod_eq_of_lt (by omega)])
      _ _ _ _ _ _ (List.getElem?_eq_getElem (by omega)) (List.getElem?_eq_getElem (by omega))
      (List.getElem?_eq_getElem (by omega)) (List.getElem?_eq_getElem (by omega))
      (List.getElem?_eq_getElem (by omega)) (List.getElem?_eq_getElem (by omega))
    show Out.ok _ = _
    rw [formula_knot h2 h3 (hrt _ (List.getElem_mem (show ts.length - 1 < ts.length by omega)))
      (hrt _ (List.getElem_mem (show 0 < ts.length by omega)))
      (hi 0 (ts.length - 1) (by omega) (by omega) (by omega)).ne
      (hry _ (List.getElem_mem (show ts.length - 1 < ys.length by omega))) rfl rfl rfl hd hm1 hm2 rfl]
  · have hin : (Arith.f64 pow).In (ts.map F64.fin) (.fin ts[i]) i := by
      refine ⟨by rw [hle]; omega, by simp [Arith.f64, F64.le], ?_⟩
      have := hi i (i + 1) hit (by omega) (by omega)
      simpa [Arith.f64, F64.lt] using this
    have e := o.cmr_in hP hi' ⟨_, rfl⟩ ht hy hl' (by simpa using h4) hin
    rw [cmrSegment_ok _ ht hy hl' (by simpa using h4) (by simpa using hlim) (by rw [hle]; omega)] at e
    simp only [hle, List.getElem_map, Out.ok_bind] at e
    rw [e]
    obtain ⟨⟨d, hd⟩, ⟨m1, hm1⟩, ⟨m2, hm2⟩⟩ := hfin ((i + ts.length - 1) % ts.length) (i + 1) (i + 2) rfl
      (by rw [Nat.mod_eq_of_lt (by omega)]) (by rw [Nat.mod_eq_of_lt (by omega)])
      _ _ _ _ _ _ (List.getElem?_eq_getElem (Nat.mod_lt _ (by omega))) (List.getElem?_eq_getElem (by omega))
      (List.getElem?_eq_getElem (by omega)) (List.getElem?_eq_getElem (by rw [← hl]; exact Nat.mod_lt _ (by omega)))
      (List.getElem?_eq_getElem (by omega)) (List.getElem?_eq_getElem (by omega))
    show Out.ok _ = _
    rw [formula_knot h2 h3 (hrt _ (List.getElem_mem hit))
      (hrt _ (List.getElem_mem (show i + 1 < ts.length by omega)))
      (hi i (i + 1) (by omega) (by omega) (by omega)).ne'
      (hry _ (List.getElem_mem (show i < ys.length by omega))) rfl rfl rfl hd hm1 hm2 rfl]

/-- C54 is false: with the times 1, 2, 3, 4 the value at the knot 3 is undefined. -/
theorem C54_false (pow : F64 → Nat → F64) :
    let r := four (.fin 1) (.fin 2) (.fin 3) (.fin 4)
    cmrInternal (Arith.f64 pow) (.fin 3) (r.2.view r.1) (r.2.view r.1) = .ub .oob := by
  have hs : Shows (four (.fin 1) (.fin 2) (.fin 3) (.fin 4)).1 (four (.fin 1) (.fin 2) (.fin 3) (.fin 4)).2
      [.fin 1, .fin 2, .fin 3, .fin 4] := ⟨by decide +kernel, by decide +kernel⟩
  refine (C56_characterised (Arith.ord_f64 pow) ⟨_, rfl⟩ hs.view hs.view rfl (by decide) (by decide) ?_ ?_ .oob ?_).2 ?_
  · intro x hx
    simp only [List.mem_cons, List.not_mem_nil, or_false] at hx
    rcases hx with rfl | rfl | rfl | rfl <;> exact ⟨_, rfl⟩
  · exact increasing_iff.mpr (by decide +kernel)
  · decide +kernel
  · decide +kernel

/-! ## C55 interior -/

section
variable {K : Type} [Field K] [LinearOrder K]

/-- The formula is the Hermite polynomial. -/
theorem formula_hermite (t : K) (s : Seg K) :
    cmrFormula (Arith.field K) t s = hermite t s.t0 s.t1 s.t2 s.t3 s.y0 s.y1 s.y2 s.y3 := by
  simp only [cmrFormula, Arith.field, hermite]
  push_cast
  ring

/-- C55: between interior knots the result depends on the four neighbouring points only, by the Hermite
formula. -/
theorem C55_local_partial {time par : View K} {ts ys : List K} (ht : time.Is ts) (hy : par.Is ys)
    (hl : ts.length = ys.length) (hlim : ts.length < 2147483648) (hi : Increasing ts) {i : Nat} (h1 : 1 ≤ i)
    (h2 : i + 2 < ts.length) {t : K} (ht1 : ts[i] ≤ t) (ht2 : t < ts[i + 1]) :
    cmrInternal (Arith.field K) t time par = .ok (hermite t ts[i - 1] ts[i] ts[i + 1] ts[i + 2]
      ys[i - 1] ys[i] ys[i + 1] ys[i + 2]) := by
  have o := Arith.ord_field K
  have hin : (Arith.field K).In ts t i := ⟨by omega, by simpa [Arith.field] using ht1, by simpa [Arith.field] using ht2⟩
  rw [o.cmr_in (fun _ _ => trivial) (by rwa [List.map_id]) trivial ht hy hl (by omega) hin,
    cmrSegment_ok _ ht hy hl (by omega) hlim h2]
  have : (i + ts.length - 1) % ts.length = i - 1 := by
    rw [show i + ts.length - 1 = i - 1 + ts.length by omega, Nat.add_mod_right, Nat.mod_eq_of_lt (by omega)]
  simp only [Out.ok_bind, Out.pure_eq, formula_hermite, this]

/-- C55: linear in the parameters. -/
theorem C55_linear_partial {time p1 p2 p3 : View K} {ts y1 y2 y3 : List K} (ht : time.Is ts) (hp1 : p1.Is y1)
    (hp2 : p2.Is y2) (hp3 : p3.Is y3) (h1 : ts.length = y1.length) (h2 : ts.length = y2.length)
    (h3 : ts.length = y3.length) (hlim : ts.length < 2147483648) (hi : Increasing ts) {a b : K}
    (hab : ∀ j (hj : j < ts.length), y3[j] = a * y1[j] + b * y2[j]) {i : Nat} (hi1 : 1 ≤ i)
    (hi2 : i + 2 < ts.length) {t : K} (ht1 : ts[i] ≤ t) (ht2 : t < ts[i + 1]) :
    ∃ v1 v2, cmrInternal (Arith.field K) t time p1 = .ok v1 ∧ cmrInternal (Arith.field K) t time p2 = .ok v2 ∧
      cmrInternal (Arith.field K) t time p3 = .ok (a * v1 + b * v2) := by
  refine ⟨_, _, C55_local_partial ht hp1 h1 hlim hi hi1 hi2 ht1 ht2,
    C55_local_partial ht hp2 h2 hlim hi hi1 hi2 ht1 ht2, ?_⟩
  rw [C55_local_partial ht hp3 h3 hlim hi hi1 hi2 ht1 ht2]
  rw [hab (i - 1) (by omega), hab i (by omega), hab (i + 1) (by omega), hab (i + 2) (by omega)]
  congr 1
  simp only [hermite]
  ring

/-- C55: exact for points on a straight line. -/
theorem C55_affine_partial [IsStrictOrderedRing K] {time par : View K} {ts ys : List K} (ht : time.Is ts)
    (hy : par.Is ys) (hl : ts.length = ys.length) (hlim : ts.length < 2147483648) (hi : Increasing ts) {a b : K}
    (hab : ∀ j (hj : j < ts.length), ys[j] = a + b * ts[j]) {i : Nat} (h1 : 1 ≤ i)
    (h2 : i + 2 < ts.length) {t : K} (ht1 : ts[i] ≤ t) (ht2 : t < ts[i + 1]) :
    cmrInternal (Arith.field K) t time par = .ok (a + b * t) := by
  rw [C55_local_partial ht hy hl hlim hi h1 h2 ht1 ht2]
  rw [hab (i - 1) (by omega), hab i (by omega), hab (i + 1) (by omega), hab (i + 2) (by omega)]
  have d1 := sub_ne_zero.mpr (hi i (i + 1) (by omega) (by omega) (by omega)).ne'
  have d2 := sub_ne_zero.mpr (hi (i - 1) (i + 1) (by omega) (by omega) (by omega)).ne'
  have d3 := sub_ne_zero.mpr (hi i (i + 2) (by omega) (by omega) (by omega)).ne'
  congr 1
  generalize ts[i - 1] = t0 at *
  generalize ts[i + 1] = t2 at *
  generalize ts[i + 2] = t3 at *
  generalize ts[i] = t1 at *
  have e1 : (a + b * t2 - (a + b * t0)) / (t2 - t0) = b := by field_simp; ring
  have e2 : (a + b * t3 - (a + b * t1)) / (t3 - t1) = b := by field_simp; ring
  simp only [hermite, e1, e2]
  field_simp
  ring

end

/-- C55: at both ends of the interval the result approaches the values at the knots. -/
theorem C55_ends_partial {time par : View ℝ} {ts ys : List ℝ} (ht : time.Is ts) (hy : par.Is ys)
    (hl : ts.length = ys.length) (hlim : ts.length < 2147483648) (hi : Increasing ts) {i : Nat} (h1 : 1 ≤ i)
    (h2 : i + 2 < ts.length) {ε : ℝ} (hε : 0 < ε) :
    ∃ δ > 0, (∀ t, ts[i] ≤ t → t < ts[i] + δ → t < ts[i + 1] →
        ∃ v, cmrInternal (Arith.field ℝ) t time par = .ok v ∧ |v - ys[i]| < ε) ∧
      (∀ t, ts[i + 1] - δ < t → ts[i] ≤ t → t < ts[i + 1] →
        ∃ v, cmrInternal (Arith.field ℝ) t time par = .ok v ∧ |v - ys[i + 1]| < ε) := by
  have d1 := sub_ne_zero.mpr (hi i (i + 1) (by omega) (by omega) (by omega)).ne'
  set H : ℝ → ℝ := fun t => hermite t ts[i - 1] ts[i] ts[i + 1] ts[i + 2] ys[i - 1] ys[i] ys[i + 1] ys[i + 2] with hH
  have hc : Continuous H := by
    simp only [hH, hermite]
    fun_prop
  have e1 : H ts[i] = ys[i] := by simp [hH, hermite]
  have e2 : H ts[i + 1] = ys[i + 1] := by
    simp only [hH, hermite, div_self d1]
    ring
  obtain ⟨δ1, hδ1, c1⟩ := Metric.continuous_iff.mp hc ts[i] ε hε
  obtain ⟨δ2, hδ2, c2⟩ := Metric.continuous_iff.mp hc ts[i + 1] ε hε
  refine ⟨min δ1 δ2, lt_min hδ1 hδ2, ?_, ?_⟩
  · intro t a b c
    refine ⟨H t, C55_local_partial ht hy hl hlim hi h1 h2 a c, ?_⟩
    have := c1 t (by rw [Real.dist_eq, abs_of_nonneg (by linarith)]; have := min_le_left δ1 δ2; linarith)
    rwa [Real.dist_eq, e1] at this
  · intro t a b c
    refine ⟨H t, C55_local_partial ht hy hl hlim hi h1 h2 b c, ?_⟩
    have := c2 t (by rw [Real.dist_eq, abs_of_nonpos (by linarith)]; have := min_le_right δ1 δ2; linarith)
    rwa [Real.dist_eq, e2] at this

/-- In any arithmetic: the formula for the four neighbouring points. -/
theorem cmr_window {A : Arith T} {K : Type} [LinearOrder K] {val : T → K} {P : T → Prop} (o : A.Ord val P) {t : T} (htP : P t)
    {time par : View T} {ts ys : List T} (ht : time.Is ts) (hy : par.Is ys) (hl : ts.length = ys.length) (hlim : ts.length < 2147483648)
    (hP : ∀ x ∈ ts, P x) (hi : Increasing (ts.map val)) {i : Nat} (h1 : 1 ≤ i) (h2 : i + 2 < ts.length) (ht1 : val ts[i] ≤ val t)
    (ht2 : val t < val ts[i + 1]) :
    cmrInternal A t time par = .ok (cmrFormula A t ⟨ts[i - 1], ts[i], ts[i + 1], ts[i + 2], ys[i - 1], ys[i], ys[i + 1], ys[i + 2]⟩) := by
  have hin : A.In ts t i := ⟨by omega, (o.le _ _ (hP _ (List.getElem_mem _)) htP).mpr ht1, (o.lt _ _ htP (hP _ (List.getElem_mem _))).mpr ht2⟩
  rw [o.cmr_in hP hi htP ht hy hl (by omega) hin, cmrSegment_ok _ ht hy hl (by omega) hlim h2]
  have : (i + ts.length - 1) % ts.length = i - 1 := by
    rw [show i + ts.length - 1 = i - 1 + ts.length by omega, Nat.add_mod_right, Nat.mod_eq_of_lt (by omega)]
  simp only [Out.ok_bind, Out.pure_eq, this]

/-- C55 in every arithmetic whose comparisons are those of an order, in particular in binary64 with its rounding and overflow
(`Arith.ord_f64`): two sets of points, also of different sizes, that have the four points around `t` in common give the same result to
the last bit, or the same infinity or NaN. -/
theorem C55_neighbours_partial {A : Arith T} {K : Type} [LinearOrder K] {val : T → K} {P : T → Prop} (o : A.Ord val P) {t : T} (htP : P t)
    {time par time' par' : View T} {ts ys ts' ys' : List T} (ht : time.Is ts) (hy : par.Is ys) (ht' : time'.Is ts') (hy' : par'.Is ys')
    (hl : ts.length = ys.length) (hl' : ts'.length = ys'.length) (hlim : ts.length < 2147483648) (hlim' : ts'.length < 2147483648)
    (hP : ∀ x ∈ ts, P x) (hP' : ∀ x ∈ ts', P x) (hi : Increasing (ts.map val)) (hi' : Increasing (ts'.map val)) {i j : Nat}
    (h2 : i + 3 < ts.length) (h2' : j + 3 < ts'.length) (ht1 : val ts[i + 1] ≤ val t) (ht2 : val t < val ts[i + 2])
    (same : ∀ k, k < 4 → ts[i + k]? = ts'[j + k]? ∧ ys[i + k]? = ys'[j + k]?) :
    ∃ v, cmrInternal A t time par = .ok v ∧ cmrInternal A t time' par' = .ok v := by
  have et : ∀ k (_ : k < 4) (a : i + k < ts.length) (b : j + k < ts'.length), ts'[j + k] = ts[i + k] := fun k hk a b => by
    have := (same k hk).1
    rw [List.getElem?_eq_getElem a, List.getElem?_eq_getElem b] at this
    exact (Option.some.inj this).symm
  have ey : ∀ k (_ : k < 4) (a : i + k < ys.length) (b : j + k < ys'.length), ys'[j + k] = ys[i + k] := fun k hk a b => by
    have := (same k hk).2
    rw [List.getElem?_eq_getElem a, List.getElem?_eq_getElem b] at this
    exact (Option.some.inj this).symm
  refine ⟨_, cmr_window o htP ht hy hl hlim hP hi (i := i + 1) (by omega) (by omega) ht1 ht2, ?_⟩
  rw [cmr_window o htP ht' hy' hl' hlim' hP' hi' (i := j + 1) (by omega) (by omega)
    (by rw [et 1 (by omega) (by omega) (by omega)]; exact ht1) (by
      show _ < val ts'[j + 2]
      rw [et 2 (by omega) (by omega) (by omega)]; exact ht2)]
  have t0 := et 0 (by omega) (by omega) (by omega)
  have t1 := et 1 (by omega) (by omega) (by omega)
  have t2 := et 2 (by omega) (by omega) (by omega)
  have t3 := et 3 (by omega) (by omega) (by omega)
  have y0 := ey 0 (by omega) (by omega) (by omega)
  have y1 := ey 1 (by omega) (by omega) (by omega)
  have y2 := ey 2 (by omega) (by omega) (by omega)
  have y3 := ey 3 (by omega) (by omega) (by omega)
  simp only [Nat.add_zero, Nat.add_assoc, Nat.add_sub_cancel, Nat.reduceAdd] at *
  rw [t0, t1, t2, t3, y0, y1, y2, y3]

/-- The vector of a list. -/
def listView {T : Type} (l : List T) : View T := ⟨l.length, getL l, .ub .oob⟩

theorem listView_is (l : List T) : (listView l).Is l :=
  ⟨rfl, fun i hi => by simp [listView, getL, hi], fun i hi => ⟨_, by simp [listView, getL, not_lt.mpr hi]; rfl⟩⟩

/-- Five unequally spaced points, evaluated in the middle of the second interval. -/
example : cmrInternal (Arith.field ℚ) 2 (listView [0, 1, 3, 4, 6]) (listView [5, 1, 2, 0, 7]) =
    .ok (hermite 2 0 1 3 4 5 1 2 0) ∧ Increasing ([0, 1, 3, 4, 6] : List ℚ) := by
  have hi : Increasing ([0, 1, 3, 4, 6] : List ℚ) := by exact increasing_iff.mpr (by decide +kernel)
  exact ⟨C55_local_partial (i := 1) (t := 2) (listView_is [0, 1, 3, 4, 6]) (listView_is [5, 1, 2, 0, 7]) rfl (by decide) hi (le_refl _) (by decide)
    (by norm_num) (by norm_num), hi⟩

/-- In binary64: the value at 2 from five points is the value from the last four of them and another point behind. -/
example (pow : F64 → Nat → F64) : ∃ v,
    cmrInternal (Arith.f64 pow) (.fin 2) (listView [.fin 0, .fin 1, .fin 3, .fin 4, .fin 6]) (listView [.fin 5, .fin 1, .fin 2, .fin 0, .fin 7]) = .ok v ∧
    cmrInternal (Arith.f64 pow) (.fin 2) (listView [.fin (-9), .fin 0, .fin 1, .fin 3, .fin 4]) (listView [.fin 8, .fin 5, .fin 1, .fin 2, .fin 0]) = .ok v := by
  refine C55_neighbours_partial (Arith.ord_f64 pow) ⟨_, rfl⟩ (listView_is _) (listView_is _) (listView_is _) (listView_is _) rfl rfl (by decide)
    (by decide) ?_ ?_ (increasing_iff.mpr (by decide +kernel)) (increasing_iff.mpr (by decide +kernel)) (i := 0) (j := 1) (by decide) (by decide)
    (by decide +kernel) (by decide +kernel) (by decide +kernel)
  all_goals
    intro x hx
    simp only [List.mem_cons, List.not_mem_nil, or_false] at hx
    rcases hx with rfl | rfl | rfl | rfl | rfl <;> exact ⟨_, rfl⟩

/-- `pow` with correct rounding. -/
def powRounded : F64 → Nat → F64
  | .fin q, n => F64.rnd (q ^ n)
  | x, _ => x

/-- C55 in binary64: a straight line is not reproduced exactly, even if `pow` rounds correctly.  The points lie on the line through (0, 0) and
(5, 5), but the value at 65/64 is not 65/64. -/
theorem C55_false_rounding :
    ∃ v, cmrInternal (Arith.f64 powRounded) (.fin (65 / 64)) (listView [.fin 0, .fin 1, .fin 4, .fin 5])
      (listView [.fin 0, .fin 1, .fin 4, .fin 5]) = .ok v ∧ v ≠ .fin (65 / 64) := by
  have hP : ∀ x ∈ [F64.fin 0, F64.fin 1, F64.fin 4, F64.fin 5], ∃ q, x = F64.fin q := by
    intro x hx
    simp only [List.mem_cons, List.not_mem_nil, or_false] at hx
    rcases hx with rfl | rfl | rfl | rfl <;> exact ⟨_, rfl⟩
  exact ⟨_, cmr_window (Arith.ord_f64 powRounded) ⟨_, rfl⟩ (listView_is [.fin 0, .fin 1, .fin 4, .fin 5]) (listView_is [.fin 0, .fin 1, .fin 4, .fin 5]) rfl (by decide) hP
    (increasing_iff.mpr (by decide +kernel)) (i := 1) (by decide) (by decide) (by decide +kernel) (by decide +kernel), by decide +kernel⟩

/-! ## C57 `li` -/

/-- C57 is false: `li` never returns a value.  It reads the element behind the last one, which throws. -/
theorem C57_false (A : Arith T) {tv time par : View T} {l ts : List T} (hv : tv.Is l) (ht : time.Is ts) :
    ∃ e, li A tv time par = .thr e := by
  unfold li
  by_cases h1 : tv.size = 1
  · rw [Out.ass_pos h1, Out.ok_bind, hv.el 0 (by rw [← hv.size]; omega), Out.ok_bind]
    by_cases h2 : time.size = par.size
    · obtain ⟨e, he⟩ := ht.out time.size (by rw [ht.size])
      rw [Out.ass_pos h2, Out.ok_bind, he]
      exact ⟨e, rfl⟩
    · rw [Out.ass_neg h2]
      exact ⟨_, rfl⟩
  · rw [Out.ass_neg h1]
    exact ⟨_, rfl⟩

example : (listView [(2 : ℚ)]).Is [2] ∧ (listView [0, (1 : ℚ), 3]).Is [0, 1, 3] := ⟨listView_is _, listView_is _⟩

/-! ## C51 for `cmr` -/

/-- C51 is false for `cmr`: the warning is printed exactly if the time point is a vector with at most one element. -/
theorem C51_cmr_characterised (A : Arith T) (size : Nat) (first : Out T) (time par : View T) :
    cmrMsg ∈ (cmrVec A size first time par []).2 ↔ ¬ 1 < size := by
  have h : ∀ (o : Out T) (ws : List String), ((M.lift o : L T) ws).2 = ws := fun o ws => by cases o <;> rfl
  have h' : (cmrVec A size first time par []).2 = if size > 1 then [] else [cmrMsg] := by
    unfold cmrVec
    rw [M.bind_ok (warn_eq _ _ _)]
    cases first with
    | ok t =>
      rw [M.bind_ok (m := M.lift (.ok t)) (a := t) rfl, h]
      by_cases hs : size > 1 <;> simp [hs]
    | thr e => rw [M.bind_thr (m := M.lift (.thr e)) rfl]; by_cases hs : size > 1 <;> simp [hs]
    | ub k => rw [M.bind_ub (m := M.lift (.ub k)) rfl]; by_cases hs : size > 1 <;> simp [hs]
  rw [h']
  by_cases hs : size > 1 <;> simp [hs]

/-! ### The hypotheses of the theorems above for concrete points -/

example (pow : F64 → Nat → F64) : cmrInternal (Arith.f64 pow) (.fin 2) (listView [.fin 0, .fin 1, .fin 3, .fin 4]) (listView [.fin 5, .fin 1]) =
    .thr "x and y differ in length" ∧
    cmrInternal (Arith.f64 pow) (.fin 2) (listView [.fin 0, .fin 1, .fin 3]) (listView [.fin 5, .fin 1, .fin 0]) =
    .thr "time and parameter require at least 4 elements" :=
  ⟨(C53_checked _ _ (listView_is _) (listView_is _)).1 (by decide), (C53_checked _ _ (listView_is _) (listView_is _)).2 rfl (by decide)⟩

example : cmrInternal (Arith.field ℚ) (-1) (listView [0, 1, 3, 4]) (listView [5, 1, 2, 0]) = .ok 5 ∧
    cmrInternal (Arith.field ℚ) 9 (listView [0, 1, 3, 4]) (listView [5, 1, 2, 0]) = .ok 0 :=
  ⟨(C53_clamped (Arith.field ℚ) (-1) (listView_is [0, 1, 3, 4]) (listView_is [5, 1, 2, 0]) rfl (by decide)).1 (by decide +kernel),
    (C53_clamped (Arith.field ℚ) 9 (listView_is [0, 1, 3, 4]) (listView_is [5, 1, 2, 0]) rfl (by decide)).2 (by decide +kernel) (by decide +kernel)⟩

example : ∃ v, ∀ b, cmrInternal (Arith.field ℚ) 2 { listView [0, 1, 3, 4, 6] with back := b } (listView [5, 1, 2, 0, 7]) = .ok v :=
  C56_partial (Arith.field ℚ) 2 (listView_is [0, 1, 3, 4, 6]) (listView_is [5, 1, 2, 0, 7]) rfl (by decide) (by decide) (by decide +kernel)

example : cmrInternal (Arith.field ℚ) 5 (listView [0, 1, 3, 4, 6]) (listView [5, 1, 2, 0, 7]) = .ub .oob :=
  (C56_characterised (Arith.ord_field ℚ) trivial (listView_is [0, 1, 3, 4, 6]) (listView_is [5, 1, 2, 0, 7]) rfl (by decide) (by decide)
    (fun _ _ => trivial) (increasing_iff.mpr (by decide +kernel)) .oob rfl).mpr (by decide +kernel)

example : cmrInternal (Arith.field ℚ) 3 (listView [0, 1, 3, 4, 6]) (listView [5, 1, 2, 0, 7]) = .ok 2 :=
  C54_exact_partial (listView_is [0, 1, 3, 4, 6]) (listView_is [5, 1, 2, 0, 7]) rfl (by decide) (by decide)
    (increasing_iff.mpr (by decide +kernel)) (i := 2) (by decide) (.inl (by decide))

example : ∃ v1 v2, cmrInternal (Arith.field ℚ) 2 (listView [0, 1, 3, 4]) (listView [5, 1, 2, 0]) = .ok v1 ∧
    cmrInternal (Arith.field ℚ) 2 (listView [0, 1, 3, 4]) (listView [1, 1, 0, 2]) = .ok v2 ∧
    cmrInternal (Arith.field ℚ) 2 (listView [0, 1, 3, 4]) (listView [13, 5, 4, 6]) = .ok (2 * v1 + 3 * v2) :=
  C55_linear_partial (listView_is [0, 1, 3, 4]) (listView_is [5, 1, 2, 0]) (listView_is [1, 1, 0, 2]) (listView_is [13, 5, 4, 6]) rfl rfl rfl
    (by decide) (increasing_iff.mpr (by decide +kernel)) (by decide +kernel) (i := 1) (le_refl _) (by decide) (by decide +kernel) (by decide +kernel)

example : cmrInternal (Arith.field ℚ) 2 (listView [0, 1, 3, 4]) (listView [1, 3, 7, 9]) = .ok 5 := by
  have := C55_affine_partial (a := 1) (b := 2) (t := (2 : ℚ)) (listView_is [0, 1, 3, 4]) (listView_is [1, 3, 7, 9]) rfl (by decide)
    (increasing_iff.mpr (by decide +kernel)) (by decide +kernel) (i := 1) (le_refl _) (by decide) (by decide +kernel) (by decide +kernel)
  rw [this]; norm_num

example : ∃ δ > 0, ∀ t, (1 : ℝ) ≤ t → t < 1 + δ → t < 3 →
    ∃ v, cmrInternal (Arith.field ℝ) t (listView [0, 1, 3, 4]) (listView [5, 1, 2, 0]) = .ok v ∧ |v - 1| < 1 / 100 := by
  obtain ⟨δ, h, h1, _⟩ := C55_ends_partial (ε := 1 / 100) (listView_is [0, 1, 3, 4]) (listView_is [5, 1, 2, 0]) rfl (by simp)
    (increasing_iff.mpr (by norm_num [List.pairwise_cons])) (i := 1) (le_refl _) (by simp) (by norm_num)
  exact ⟨δ, h, h1⟩

example : cmrMsg ∈ (cmrVec (Arith.field ℚ) 1 (.ok 2) (listView [0, 1, 3, 4]) (listView [5, 1, 2, 0]) []).2 ∧
    cmrMsg ∉ (cmrVec (Arith.field ℚ) 2 (.ok 2) (listView [0, 1, 3, 4]) (listView [5, 1, 2, 0]) []).2 :=
  ⟨(C51_cmr_characterised _ _ _ _ _).mpr (by decide), fun h => (C51_cmr_characterised _ _ _ _ _).mp h (by decide)⟩

/-- The knot 1 of the points 0, 1, 2, 3, 4. -/
example (pow : F64 → Nat → F64) (h2 : pow (.fin 0) 2 = .fin 0) (h3 : pow (.fin 0) 3 = .fin 0) :
    cmrInternal (Arith.f64 pow) (.fin 1) (listView [.fin 0, .fin 1, .fin 2, .fin 3, .fin 4]) (listView [.fin 5, .fin 1, .fin 2, .fin 0, .fin 7]) =
      .ok (.fin 1) := by
  refine C54_binary64_partial h2 h3 (ts := [0, 1, 2, 3, 4]) (ys := [5, 1, 2, 0, 7]) (listView_is _) (listView_is _) rfl (by decide) (by decide)
    (increasing_iff.mpr (by decide +kernel)) (by decide +kernel) (by decide +kernel) (i := 1) (by decide) (by decide) ?_
  intro p n n2 hp hn hn2 tp tn tn2 yp yn yn2 e1 e2 e3 e4 e5 e6
  simp at hp hn hn2
  subst hp hn hn2
  simp at e1 e2 e3 e4 e5 e6
  subst e1 e2 e3 e4 e5 e6
  exact ⟨⟨1, by decide +kernel⟩, ⟨-3 / 2, by decide +kernel⟩, ⟨-1 / 2, by decide +kernel⟩⟩

end ETR
