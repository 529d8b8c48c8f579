import Verif.Lemmas.DerivSelf
import Verif.Lemmas.DerivReal

/-! # Properties of derivatives (C58 to C63) -/

namespace ETR.Deriv
open Spec
variable {T : Type}

/-- A variable that is a buffer. -/
abbrev B (n : Nat) : DVar := (.buffer, n)

/-! ## C58 -/

/-- C58, without assignments in which a variable that is read by its own new value changes its length.  The program runs, and
for every variable the stored value is the value over the real numbers, and each element of the stored derivative (which is also
what `get_derivs` returns) is the derivative of that element with respect to the value given to the independent variable.

Missing: those assignments throw (`C58_false`). -/
theorem C58_partial (k : Nat) (kind : VKind) (prog : List (AV.Stmt ℝ)) (h : FitsAll (B k) prog Vals.start) :
    ∃ s, AV.run DArith.real prog (AV.start k kind) = (.ok (), s) ∧ ∀ x : DVar, ∃ d : List ℝ,
      (s.val x).Is ((devals (B k) 0 prog Vals.start).var x) ∧ (s.der x).Is d ∧
      d.length = ((devals (B k) 0 prog Vals.start).var x).length ∧
      (∀ i, HasDerivAt (fun t => ((devals (B k) t prog Vals.start).var x).getD i 0) (d.getD i 0) 0) ∧
      ((devals (B k) 0 prog Vals.start).var x ≠ [] → AV.getDerivs DArith.real x s = (.ok d, s)) := by
  obtain ⟨s, D, e, hi⟩ := (DInv.start k kind).run rfl (ps := prog) h
  exact ⟨s, e, fun x => ⟨D x, hi.val x, hi.der x (fun h => h), hi.derL x, hi.derD x, hi.getDerivs_same (fun h => h)⟩⟩

/-- `a = c0; b = c1; b = a * b + a` with `a` the independent variable, `b` of length two and `a` a single number. -/
noncomputable def prog1 : List (AV.Stmt ℝ) :=
  [.setCon 0 [3], .setCon 1 [5, 7], .assign (B 0) (.con 0), .assign (B 1) (.con 1),
    .assign (B 1) (.bin .add (.bin .mul (.var (B 0)) (.var (B 1))) (.var (B 0)))]

theorem prog1_fits : FitsAll (B 0) prog1 Vals.start := by
  simp [prog1, FitsAll, Fits, FitsWeak, deval, Vals.start, Conform, leaves, Vals.leaf, Vals.len, Poly, Nonzero, Occurs]

/-- The second element of `b` is `7 (3 + t) + (3 + t)`: the stored derivative is 8. -/
example : ∃ s d, AV.run DArith.real prog1 (AV.start 0 .buffer) = (.ok (), s) ∧ (s.der (B 1)).Is d ∧ d.getD 1 0 = 8 := by
  obtain ⟨s, e, h⟩ := C58_partial 0 .buffer prog1 prog1_fits
  obtain ⟨d, _, h2, _, h4, _⟩ := h (B 1)
  refine ⟨s, d, e, h2, ?_⟩
  have e1 : (fun t => ((devals (B 0) t prog1 Vals.start).var (B 1)).getD 1 0) = fun t : ℝ => (3 + t) * 7 + (3 + t) := by
    funext t
    simp [prog1, devals, deval, Vals.start, Vals.len, Vals.elem, pick, List.range_succ]
  have h5 := h4 1
  rw [e1] at h5
  have h6 : HasDerivAt (fun t : ℝ => (3 + t) * 7 + (3 + t)) (1 * 7 + 1) 0 :=
    (((hasDerivAt_id' (0 : ℝ)).const_add 3).mul_const 7).add ((hasDerivAt_id' (0 : ℝ)).const_add 3)
  rw [h5.unique h6]
  norm_num

/-- `b = c0; a = c1; b = a * b` where `b` is a single number and `a` has two elements. -/
noncomputable def prog2 : List (AV.Stmt ℝ) :=
  [.setCon 0 [3], .setCon 1 [5, 7], .assign (B 1) (.con 0), .assign (B 0) (.con 1)]

noncomputable def stmt2 : AV.Stmt ℝ := .assign (B 1) (.bin .mul (.var (B 0)) (.var (B 1)))

/-- C58 is false without the condition on lengths: this program uses only multiplication, constants and copies on equally long
or scalar vectors, but does not run to the end. -/
theorem C58_false : ∃ prog : List (AV.Stmt ℝ), FitsWeakAll (B 0) prog Vals.start ∧
    ∀ s, AV.run DArith.real prog (AV.start 0 .buffer) ≠ (.ok (), s) := by
  refine ⟨prog2 ++ [stmt2], ?_, ?_⟩
  · simp [prog2, stmt2, FitsWeakAll, FitsWeak, deval, Vals.start, Conform, leaves, Vals.leaf, Vals.len, Poly, Nonzero, Occurs]
  · have h2 : FitsAll (B 0) prog2 Vals.start := by
      simp [prog2, FitsAll, Fits, FitsWeak, deval, Vals.start, Conform, leaves, Vals.leaf, Vals.len, Poly, Nonzero, Occurs]
    obtain ⟨s, D, e, hi⟩ := (DInv.start 0 .buffer).run rfl (ps := prog2) h2
    intro s' h
    have app : ∀ (ps : List (AV.Stmt ℝ)) t t', AV.run DArith.real ps t = (.ok (), t') →
        AV.run DArith.real (ps ++ [stmt2]) t = AV.run DArith.real [stmt2] t' := by
      intro ps
      induction ps with
      | nil => intro t t' h; cases h; rfl
      | cons p ps ih =>
        intro t t' h
        rw [AV.run] at h
        rw [List.cons_append, AV.run]
        rcases hp : AV.exec DArith.real p t with ⟨o, t1⟩
        cases o with
        | ok u => rw [M.bind_ok hp] at h ⊢; exact ih t1 t' h
        | thr m => rw [M.bind_thr hp] at h; cases h
        | ub k => rw [M.bind_ub hp] at h; cases h
    rw [app _ _ _ e, AV.run] at h
    rcases hp : AV.exec DArith.real stmt2 s with ⟨o, t1⟩
    cases o with
    | ok u =>
      refine AV.assign_self (A := DArith.real) (s := s) (x := B 1) (e := .bin .mul (.var (B 0)) (.var (B 1))) rfl
        (Or.inr rfl) ?_ hp
      have h1 : (s.val (B 1)).sz = 1 := by
        rw [(hi.val (B 1)).1]
        simp [prog2, devals, deval, Vals.start]
      have h0 : (s.val (B 0)).sz = 2 := by
        rw [(hi.val (B 0)).1]
        simp [prog2, devals, deval, Vals.start]
      rw [DExpr.size, DExpr.size, DExpr.size, h0, h1]
      decide
    | thr m => rw [M.bind_thr hp] at h; cases h
    | ub k => rw [M.bind_ub hp] at h; cases h

/-! ## C59 -/

/-- What is stored as derivative of a quotient of two variables: the denominator is the square of the derivative of `b`. -/
theorem C59_characterised (A : DArith T) {s : AV T} {x a b : DVar} {la lb da db : List T} {n : Nat} (hx : x.1 = .buffer)
    (h1 : 1 ≤ n) (h2 : n ≤ 2 ^ 59) (hxa : x ≠ a) (hxb : x ≠ b) (ha : (s.val a).Is la) (hb : (s.val b).Is lb)
    (hda : (s.der a).Is da) (hdb : (s.der b).Is db) (na : la.length = n) (nb : lb.length = n) (nda : da.length = n)
    (ndb : db.length = n) (ma : (s.val a).mp.im = false) (mb : (s.val b).mp.im = false) :
    ∃ s' d, AV.assign A x (.bin .div (.var a) (.var b)) s = (.ok (), s') ∧ (s'.der x).Is d ∧ d.length = n ∧
      ∀ i (hi : i < n), d[i]? = some (A.div (A.sub (A.mul da[i] lb[i]) (A.mul la[i] db[i])) (A.pow db[i] 2)) := by
  have hab : a = b → la = lb ∧ da = db := by
    intro e; subst e; exact ⟨ha.inj hb, hda.inj hdb⟩
  have key : ∀ {l r : List T} (e : DVar), (e = a → r = l) → (if e = a then l else r) = r := by
    intro l r e h; split
    · rename_i h'; rw [h h']
    · rfl
  have hE : (⟨fun _ => [], fun y => if y = a then la else lb⟩ : Vals T).var b = lb := by
    show (if b = a then la else lb) = lb
    exact key b fun e => ((hab e.symm).1).symm
  have hD : (fun y : DVar => if y = a then da else db) b = db := by
    show (if b = a then da else db) = db
    exact key b fun e => ((hab e.symm).2).symm
  have hEa : (⟨fun _ => [], fun y => if y = a then la else lb⟩ : Vals T).var a = la := if_pos rfl
  have hDa : (fun y : DVar => if y = a then da else db) a = da := if_pos rfl
  have hlen : (⟨fun _ => [], fun y => if y = a then la else lb⟩ : Vals T).len (.bin .div (.var a) (.var b)) = n := by
    rw [Vals.len, Vals.len, Vals.len, hE, hEa, na, nb, Nat.max_self]
  obtain ⟨fv, bv, bd, _, e, _, hd⟩ := AV.assign_shows (A := A) (s := s) (x := x)
    (E := ⟨fun _ => [], fun y => if y = a then la else lb⟩) (D := fun y => if y = a then da else db)
    (e := .bin .div (.var a) (.var b)) hx rfl
    (by
      intro v hv
      simp only [leaves, List.cons_append, List.nil_append, List.mem_cons, List.not_mem_nil, or_false] at hv
      rcases hv with rfl | rfl
      · refine ⟨by rw [hEa]; exact ha, by rw [hDa]; exact hda, by rw [hDa, hEa, nda, na]⟩
      · refine ⟨by rw [hE]; exact hb, by rw [hD]; exact hdb, by rw [hD, hE, ndb, nb]⟩)
    (by
      intro v hv
      simp only [leaves, List.cons_append, List.nil_append, List.mem_cons, List.not_mem_nil, or_false] at hv
      rcases hv with rfl | rfl
      · rw [Vals.leaf, hEa, na]; omega
      · rw [Vals.leaf, hE, nb]; omega)
    (by rw [hlen]; exact h2)
    (by rw [DExpr.im, DExpr.im, DExpr.im, ma, mb]; rfl)
    (by
      intro ho
      simp only [Occurs, leaves, List.cons_append, List.nil_append, List.mem_cons, List.not_mem_nil, or_false,
        Leaf.var.injEq] at ho
      rcases ho with h | h
      · exact absurd h hxa
      · exact absurd h hxb)
  rw [hlen] at hd
  refine ⟨_, _, e, by simpa using hd, by simp, ?_⟩
  intro i hi
  rw [List.getElem?_map, List.getElem?_range hi]
  have p1 : ∀ {l : List T} (hl : l.length = n), l.getD (i % l.length) (A.lit 0) = l[i]'(by omega) := by
    intro l hl
    simp only [hl, Nat.mod_eq_of_lt hi]
    exact getD_lt _ _ (by omega)
  have hE' : (if b = a then la else lb) = lb := hE
  simp only [Option.map_some, DExpr.gDer, DExpr.gVal, DExpr.ptOf, hE', hD, if_true, DExpr.boolVal, Bool.and_self, DArith.conv]
  rw [p1 na, p1 nb, p1 nda, p1 ndb]
  rfl

/-- The stored derivative of a quotient `a / b` of real numbers equals the derivative exactly if `a'b = ab'` or `b'^2 = b^2`
(for nonzero `b` and `b'`). -/
theorem C59_iff {s : AV ℝ} {x a b : DVar} {la lb da db : List ℝ} {n : Nat} (hx : x.1 = .buffer)
    (h1 : 1 ≤ n) (h2 : n ≤ 2 ^ 59) (hxa : x ≠ a) (hxb : x ≠ b) (ha : (s.val a).Is la) (hb : (s.val b).Is lb)
    (hda : (s.der a).Is da) (hdb : (s.der b).Is db) (na : la.length = n) (nb : lb.length = n) (nda : da.length = n)
    (ndb : db.length = n) (ma : (s.val a).mp.im = false) (mb : (s.val b).mp.im = false) :
    ∃ s' d, AV.assign DArith.real x (.bin .div (.var a) (.var b)) s = (.ok (), s') ∧ (s'.der x).Is d ∧ d.length = n ∧
      ∀ i (hi : i < n), lb[i] ≠ 0 → db[i] ≠ 0 →
        (d[i]? = some ((da[i] * lb[i] - la[i] * db[i]) / lb[i] ^ 2) ↔
          da[i] * lb[i] = la[i] * db[i] ∨ db[i] ^ 2 = lb[i] ^ 2) := by
  obtain ⟨s', d, e, hd, hl, h⟩ := C59_characterised DArith.real hx h1 h2 hxa hxb ha hb hda hdb na nb nda ndb ma mb
  refine ⟨s', d, e, hd, hl, ?_⟩
  intro i hi hb0 hdb0
  rw [h i hi]
  have : DArith.real.div (DArith.real.sub (DArith.real.mul da[i] lb[i]) (DArith.real.mul la[i] db[i])) (DArith.real.pow db[i] 2)
      = (da[i] * lb[i] - la[i] * db[i]) / db[i] ^ 2 := rfl
  rw [this, Option.some.injEq, div_eq_div_iff (pow_ne_zero 2 hdb0) (pow_ne_zero 2 hb0)]
  constructor
  · intro he
    have : (da[i] * lb[i] - la[i] * db[i]) * (db[i] ^ 2 - lb[i] ^ 2) = 0 := by linarith
    rcases mul_eq_zero.1 this with h | h
    · exact Or.inl (by linarith)
    · exact Or.inr (by linarith)
  · rintro (h | h)
    · have : da[i] * lb[i] - la[i] * db[i] = 0 := by linarith
      rw [this, zero_mul, zero_mul]
    · rw [h]

/-- C59 for a constant divisor: the stored derivative of `a / c` is `a'/c`.  Missing: `C59_false`. -/
theorem C59_partial (A : DArith T) {s : AV T} {x a : DVar} {c : Nat} {la lc da : List T} {n : Nat} (hx : x.1 = .buffer)
    (h1 : 1 ≤ n) (h2 : n ≤ 2 ^ 59) (hxa : x ≠ a) (ha : (s.val a).Is la) (hc : (s.con c).Is lc)
    (hda : (s.der a).Is da) (na : la.length = n) (nc : lc.length = n ∨ lc.length = 1) (nda : da.length = n)
    (ma : (s.val a).mp.im = false) (mc : (s.con c).mp.im = false) :
    ∃ s' d, AV.assign A x (.bin .div (.var a) (.con c)) s = (.ok (), s') ∧ (s'.der x).Is d ∧ d.length = n ∧
      ∀ i (hi : i < n), ∃ y, lc[i % lc.length]? = some y ∧ d[i]? = some (A.div da[i] y) := by
  have n0 : lc.length ≠ 0 := by omega
  have hlen : (⟨fun _ => lc, fun _ => la⟩ : Vals T).len (.bin .div (.var a) (.con c)) = n := by
    rw [Vals.len, Vals.len, Vals.len]
    show max la.length lc.length = n
    omega
  obtain ⟨fv, bv, bd, _, e, _, hd⟩ := AV.assign_shows (A := A) (s := s) (x := x)
    (E := ⟨fun _ => lc, fun _ => la⟩) (D := fun _ => da) (e := .bin .div (.var a) (.con c)) hx rfl
    (by
      intro v hv
      simp only [leaves, List.cons_append, List.nil_append, List.mem_cons, List.not_mem_nil, or_false] at hv
      rcases hv with rfl | rfl
      · exact ⟨ha, hda, by rw [nda, na]⟩
      · exact hc)
    (by
      intro v hv
      simp only [leaves, List.cons_append, List.nil_append, List.mem_cons, List.not_mem_nil, or_false] at hv
      rcases hv with rfl | rfl
      · show la.length ≠ 0
        omega
      · exact n0)
    (by rw [hlen]; exact h2)
    (by rw [DExpr.im, DExpr.im, DExpr.im, ma, mc]; rfl)
    (by
      intro ho
      simp only [Occurs, leaves, List.cons_append, List.nil_append, List.mem_cons, List.not_mem_nil, or_false,
        Leaf.var.injEq, reduceCtorEq] at ho
      exact absurd ho hxa)
  rw [hlen] at hd
  refine ⟨_, _, e, by simpa using hd, by simp, ?_⟩
  intro i hi
  have hm := Nat.mod_lt i (Nat.pos_of_ne_zero n0)
  refine ⟨lc[i % lc.length], List.getElem?_eq_getElem hm, ?_⟩
  rw [List.getElem?_map, List.getElem?_range hi]
  have p1 : da.getD (i % da.length) (A.lit 0) = da[i]'(by omega) := by
    simp only [nda, Nat.mod_eq_of_lt hi]
    exact getD_lt _ _ (by omega)
  have p2 : lc.getD (i % lc.length) (A.lit 0) = lc[i % lc.length] := getD_lt _ _ hm
  simp only [Option.map_some, DExpr.gDer, DExpr.ptOf, p1, p2]

/-- Exact arithmetic for the examples; the sinus is not used. -/
def ratA : DArith ℚ where
  toArith := Arith.field ℚ
  sin x := x
  cos x := x
  eqv x y := decide (|x - y| < 1 / 1000)
  nev x y := decide (|x - y| > 1 / 1000)
  nz x := decide (x ≠ 0)

/-- The derivative of a variable after a program, `none` if it does not run. -/
def derAfter (prog : List (AV.Stmt ℚ)) (indep : Nat) (x : DVar) : Option (List ℚ) :=
  match (AV.run ratA prog >>= fun _ => AV.getDerivs ratA x) (AV.start indep .buffer) with
  | (.ok d, _) => some d
  | _ => none

/-- C59 is false: `1 / b` at `b = 2` with respect to `b` has the derivative -1/4, stored is -1. -/
theorem C59_false : derAfter [.setCon 0 [1], .setCon 1 [2], .assign (B 0) (.con 0), .assign (B 1) (.con 1),
    .assign (B 2) (.bin .div (.var (B 0)) (.var (B 1)))] 1 (B 2) = some [-1] := by decide +kernel

example : derAfter [.setCon 0 [6, 8], .setCon 1 [2], .assign (B 0) (.con 0),
    .assign (B 2) (.bin .div (.var (B 0)) (.con 1))] 0 (B 2) = some [1 / 2, 1 / 2] := by decide +kernel

/-! ## C60 -/

/-- The stored derivative of `sinus` of a variable is the cosine of its value, without the derivative of the variable. -/
theorem C60_var_characterised (A : DArith T) {s : AV T} {x a : DVar} {la da : List T} (hx : x.1 = .buffer)
    (h1 : 1 ≤ la.length) (h2 : la.length ≤ 2 ^ 59) (hxa : x ≠ a) (ha : (s.val a).Is la) (hda : (s.der a).Is da)
    (nda : da.length = la.length) :
    ∃ s', AV.assign A x (.sin (.var a)) s = (.ok (), s') ∧ (s'.val x).Is (la.map A.sin) ∧ (s'.der x).Is (la.map A.cos) := by
  obtain ⟨fv, bv, bd, hf, e, hv, hd⟩ := AV.assign_shows (A := A) (s := s) (x := x)
    (E := ⟨fun _ => [], fun _ => la⟩) (D := fun _ => da) (e := .sin (.var a)) hx rfl
    (by
      intro v hv
      simp only [leaves, List.mem_cons, List.not_mem_nil, or_false] at hv
      subst hv
      exact ⟨ha, hda, nda⟩)
    (by
      intro v hv
      simp only [leaves, List.mem_cons, List.not_mem_nil, or_false] at hv
      subst hv
      show la.length ≠ 0
      omega)
    h2 rfl
    (by
      intro ho
      simp only [Occurs, leaves, List.mem_cons, List.not_mem_nil, or_false, Leaf.var.injEq] at ho
      exact absurd ho hxa)
  have hlen : (⟨fun _ => [], fun _ => la⟩ : Vals T).len (.sin (.var a)) = la.length := rfl
  rw [hlen] at hv hd hf
  refine ⟨_, e, ?_, ?_⟩
  · have : (List.range la.length).map fv = la.map A.sin := by
      refine List.ext_getElem (by simp) ?_
      intro i h3 h4
      have hi : i < la.length := by simpa using h3
      have := hf i hi
      rw [DExpr.elem, DExpr.size, DExpr.modIdx_ok (by rw [ha.1]; omega), Out.ok_bind, DExpr.elem, ha.1, Nat.mod_eq_of_lt hi,
        ha.2 i hi, Out.ok_bind] at this
      simp only [List.getElem_map, List.getElem_range]
      exact (Out.ok.inj this).symm
    rw [← this]
    simpa using hv
  · have : (List.range la.length).map (fun i => DExpr.gDer A (DExpr.ptOf A ⟨fun _ => [], fun _ => la⟩ (fun _ => da) i)
        (.sin (.var a))) = la.map A.cos := by
      refine List.ext_getElem (by simp) ?_
      intro i h3 h4
      have hi : i < la.length := by simpa using h3
      simp only [List.getElem_map, List.getElem_range, DExpr.gDer, DExpr.gVal, DExpr.ptOf, DExpr.isLeaf, if_true,
        Nat.mod_eq_of_lt hi]
      rw [getD_lt _ _ hi]
    rw [← this]
    simpa using hd

/-- C60 for a variable whose derivative is one in every element.  Missing: `C60_false`. -/
theorem C60_partial {s : AV ℝ} {x a : DVar} {la da : List ℝ} (hx : x.1 = .buffer)
    (h1 : 1 ≤ la.length) (h2 : la.length ≤ 2 ^ 59) (hxa : x ≠ a) (ha : (s.val a).Is la) (hda : (s.der a).Is da)
    (nda : da.length = la.length) (hone : ∀ y ∈ da, y = 1) :
    ∃ s', AV.assign DArith.real x (.sin (.var a)) s = (.ok (), s') ∧
      (s'.der x).Is (List.zipWith (fun v d => Real.cos v * d) la da) := by
  obtain ⟨s', e, _, hd⟩ := C60_var_characterised DArith.real hx h1 h2 hxa ha hda nda
  refine ⟨s', e, ?_⟩
  have : List.zipWith (fun v d => Real.cos v * d) la da = la.map DArith.real.cos := by
    refine List.ext_getElem (by simp [nda]) ?_
    intro i h3 h4
    rw [List.getElem_zipWith, List.getElem_map, hone _ (List.getElem_mem _), mul_one]
    rfl
  rw [this]
  exact hd

/-- The stored derivative of `sinus(e)`, for an expression `e` that is neither a constant nor a variable and contains no
comparison, is the cosine of the derivative (not of the value) of `e`: if `y = e` stores the derivative `d`, then
`x = sinus(e)` stores `cos(d)`. -/
theorem C60_expr_characterised (A : DArith T) {s : AV T} {x y : DVar} {E : Vals T} {D : DVar → List T} {e : DExpr}
    (hx : x.1 = .buffer) (hy : y.1 = .buffer) (hl : e.isLeaf = false) (hp : Plain e) (h : Shows s E D e)
    (h0 : ∀ v ∈ leaves e, (E.leaf v).length ≠ 0) (h2 : E.len e ≤ 2 ^ 59) (hm : e.im s = false) (hxe : ¬ Occurs x e)
    (hye : ¬ Occurs y e) :
    ∃ s1 s2 d, AV.assign A y e s = (.ok (), s1) ∧ AV.assign A x (.sin e) s = (.ok (), s2) ∧ (s1.der y).Is d ∧
      (s2.der x).Is (d.map A.cos) := by
  obtain ⟨fv, bv, bd, hf, e1, hv, hd⟩ := AV.assign_shows (A := A) (s := s) (x := y) hy hl h h0 h2 hm (fun ho => absurd ho hye)
  obtain ⟨fv', bv', bd', hf', e2, hv', hd'⟩ := AV.assign_shows (A := A) (s := s) (x := x) (e := .sin e) hx rfl h h0 h2 rfl
    (fun ho => absurd ho hxe)
  refine ⟨_, _, _, e1, e2, by simpa using hd, ?_⟩
  have : (List.range (E.len (.sin e))).map (fun i => DExpr.gDer A (DExpr.ptOf A E D i) (.sin e)) =
      ((List.range (E.len e)).map (fun i => DExpr.gDer A (DExpr.ptOf A E D i) e)).map A.cos := by
    rw [List.map_map]
    refine List.map_congr_left ?_
    intro i _
    simp only [DExpr.gDer, hl, DExpr.plain_boolDer hp, DArith.conv, Function.comp]
    rfl
  rw [← this]
  simpa using hd'

/-- A state in which constants and variables are given. -/
def mk (con : Nat → List T) (val der : DVar → List T) : AV T where
  con c := ⟨(con c).map some, (con c).length, true, {}⟩
  val x := ⟨(val x).map some, (val x).length, true, {}⟩
  der x := ⟨(der x).map some, (der x).length, true, {}⟩
  indep := 0
  indepKind := .buffer
  derivInit := false

theorem buf_is (l : List T) : Buf.Is ⟨l.map some, l.length, true, {}⟩ l :=
  Buf.is_of_cells ⟨rfl, rfl, by simp⟩ (fun i hi => by simp [hi])

/-- C60 is false: for a variable with value 0 and derivative 0 the derivative of its sinus is 0, stored is 1. -/
theorem C60_false : ∃ (s s' : AV ℝ), (s.val (B 0)).Is [0] ∧ (s.der (B 0)).Is [0] ∧
    AV.assign DArith.real (B 1) (.sin (.var (B 0))) s = (.ok (), s') ∧ (s'.der (B 1)).Is [1] ∧
    ¬ (s'.der (B 1)).Is [Real.cos 0 * 0] := by
  obtain ⟨s', e, _, hd⟩ := C60_var_characterised DArith.real (s := mk (fun _ => []) (fun _ => [0]) (fun _ => [0]))
    (x := B 1) (a := B 0) (la := [0]) (da := [0]) rfl (by simp) (by norm_num) (by decide) (buf_is _) (buf_is _) rfl
  have h1 : (s'.der (B 1)).Is [1] := by
    have : ([0] : List ℝ).map DArith.real.cos = [1] := by
      show [Real.cos 0] = [1]
      rw [Real.cos_zero]
    rw [← this]; exact hd
  refine ⟨_, s', buf_is _, buf_is _, e, h1, ?_⟩
  intro h
  have := h1.inj h
  simp at this

/-- The state of `C60_expr_characterised` for `e = a * b`. -/
example : Shows (mk (fun _ => []) (fun _ => [2, 3]) (fun _ => [1, 4]) : AV ℚ) ⟨fun _ => [], fun _ => [2, 3]⟩ (fun _ => [1, 4])
    (.bin .mul (.var (B 0)) (.var (B 1))) := by
  intro v hv
  simp only [leaves, List.cons_append, List.nil_append, List.mem_cons, List.not_mem_nil, or_false] at hv
  rcases hv with rfl | rfl <;> exact ⟨buf_is _, buf_is _, rfl⟩

/-! ## C61 -/

/-- C61 when the length of every operand divides the length of the operand expression of each operator it is in (as for equal
lengths and numbers): value and derivative of element `i` depend only on the same elements, those given by recycling at each
operator.  Missing: other lengths, `C61_false`. -/
theorem C61_partial (A : DArith T) {s s' : AV T} {e : DExpr} {i : Nat} (hev : Spec.Even s e)
    (h0 : ∀ v ∈ leaves e, v.size s ≠ 0) (hi : i < e.size s) (hd : ∀ x, (s.der x).sz = (s.val x).sz) (hz : SameSizes s s')
    (hs : ∀ v ∈ operands s e i, SameElem s s' v.1 v.2) :
    e.elem A s i = e.elem A s' i ∧ (e.getDeriv A i s).1 = (e.getDeriv A i s').1 := by
  refine ⟨DExpr.elem_agree hz hs, ?_⟩
  have : DExpr.LeafAgree s s' e i := by
    intro v hv
    have h := hs _ (DExpr.operand_mem hev h0 i hi v hv)
    cases v with
    | con c => exact DExpr.leafVal_get (hz.1 c) h
    | var x =>
      refine ⟨DExpr.leafVal_get (hz.2.1 x) h.1, ?_, hd x, ?_⟩
      · refine DExpr.leafVal_get (hz.2.2 x) ?_
        rw [hd x]; exact h.2
      · rw [← hz.2.2, ← hz.2.1]; exact hd x
  obtain ⟨o, e1, e2⟩ := DExpr.getDeriv_agree (A := A) this
  rw [e1, e2]

/-- A table of three variables; `b` gives the second element of the first one. -/
def tab (b : ℚ) : AV ℚ :=
  mk (fun _ => []) (fun x => if x = B 0 then [1, b] else if x = B 1 then [1, 2, 3] else [1, 2, 3, 4, 5, 6])
    (fun x => if x = B 0 then [1, b] else if x = B 1 then [1, 2, 3] else [1, 2, 3, 4, 5, 6])

/-- `(a + b) * c` with lengths 2, 3 and 6. -/
def abc : DExpr := .bin .mul (.bin .add (.var (B 0)) (.var (B 1))) (.var (B 2))

theorem tab_same : SameSizes (tab 1) (tab 2) ∧ ∀ b x, ((tab b).der x).sz = ((tab b).val x).sz := by
  refine ⟨⟨fun _ => rfl, ?_, ?_⟩, fun _ _ => rfl⟩ <;>
  · intro x
    simp only [tab, mk]
    split
    · rfl
    · rfl

/-- C61 is false: element 3 of `(a + b) * c` is computed from the first elements of `a` and `b`, its derivative reads the second
element of `a`. -/
theorem C61_false : SameSizes (tab 1) (tab 2) ∧
    (∀ v ∈ operands (tab 1) abc 3, SameElem (tab 1) (tab 2) v.1 v.2) ∧ (3 : Nat) < abc.size (tab 1) ∧
    abc.elem ratA (tab 1) 3 = abc.elem ratA (tab 2) 3 ∧
    (abc.getDeriv ratA 3 (tab 1)).1 ≠ (abc.getDeriv ratA 3 (tab 2)).1 := by
  have hz := tab_same.1
  have ho : operands (tab 1) abc 3 = [(.var (B 0), 0), (.var (B 1), 0), (.var (B 2), 3)] := by decide +kernel
  have hs : ∀ v ∈ operands (tab 1) abc 3, SameElem (tab 1) (tab 2) v.1 v.2 := by
    rw [ho]
    intro v hv
    simp only [List.mem_cons, List.not_mem_nil, or_false] at hv
    rcases hv with rfl | rfl | rfl
    · exact ⟨by decide +kernel, by decide +kernel⟩
    · exact ⟨by decide +kernel, by decide +kernel⟩
    · exact ⟨by decide +kernel, by decide +kernel⟩
  exact ⟨hz, hs, by decide +kernel, DExpr.elem_agree hz hs, by decide +kernel⟩

/-- The lengths 2, 2 and 6 are covered by `C61_partial`. -/
example : Spec.Even (mk (fun _ => []) (fun x => if x = B 2 then [1, 2, 3, 4, 5, 6] else [1, 2]) (fun _ => []) : AV ℚ) abc := by
  simp [Spec.Even, abc, leaves, Leaf.size, DExpr.size, mk]

/-! ## C62 -/

/-- C62 for a variable that is a buffer and the independent variable a buffer.  Missing: `C62_kind_false`,
`C62_borrow_false`. -/
theorem C62_partial (A : DArith T) {s : AV T} {x : DVar} {c : Nat} {l : List T} (hx : x.1 = .buffer)
    (hk : s.indepKind = .buffer) (hc : (s.con c).Is l) (h1 : 1 ≤ l.length) (h2 : l.length ≤ 2 ^ 59)
    (hm : (s.con c).mp.im = false) :
    ∃ s', AV.assign A x (.con c) s = (.ok (), s') ∧ (s'.val x).Is l ∧
      (s'.der x).Is (List.replicate l.length (if x = (s.indepKind, s.indep) then A.lit 1 else A.lit 0)) ∧
      ∀ y, y ≠ x → s'.val y = s.val y ∧ s'.der y = s.der y := by
  obtain ⟨bv, bd, e, hv, hmp, hd⟩ := AV.assignCon_ok (A := A) hx hc h1 h2
  have hiff : (s.indep = x.2) ↔ x = (s.indepKind, s.indep) := by
    rw [hk]
    constructor
    · intro h; exact Prod.ext hx h.symm
    · intro h; rw [h]
  refine ⟨(s.putVal x bv).putDer x bd, ?_, by simpa using hv, ?_, ?_⟩
  · show (AV.assignCon A x c >>= fun _ => AV.setDims x (.con c)) s = _
    rw [M.bind_ok e]
    exact AV.setDims_no hm
  · have : (if s.indep = x.2 then A.lit 1 else A.lit 0) = if x = (s.indepKind, s.indep) then A.lit 1 else A.lit 0 := by
      by_cases h : s.indep = x.2
      · rw [if_pos h, if_pos (hiff.1 h)]
      · rw [if_neg h, if_neg (fun h' => h (hiff.2 h'))]
    rw [this] at hd
    simpa using hd
  · intro y hy
    simp [AV.val_putVal_ne, AV.der_putDer_ne, hy]

example : derAfter [.setCon 0 [4, 5], .assign (B 0) (.con 0), .assign (B 1) (.con 0)] 1 (B 1) = some [1, 1] ∧
    derAfter [.setCon 0 [4, 5], .assign (B 0) (.con 0), .assign (B 1) (.con 0)] 1 (B 0) = some [0, 0] := by decide +kernel

/-- What seeding does for a variable that is a buffer, whatever the kind of the independent variable is: the derivative is one exactly if the
index is that of the independent variable. -/
theorem C62_characterised (A : DArith T) {s : AV T} {x : DVar} {c : Nat} {l : List T} (hx : x.1 = .buffer)
    (hc : (s.con c).Is l) (h1 : 1 ≤ l.length) (h2 : l.length ≤ 2 ^ 59) (hm : (s.con c).mp.im = false) :
    ∃ s', AV.assign A x (.con c) s = (.ok (), s') ∧ (s'.val x).Is l ∧
      (s'.der x).Is (List.replicate l.length (if x.2 = s.indep then A.lit 1 else A.lit 0)) ∧
      ∀ y, y ≠ x → s'.val y = s.val y ∧ s'.der y = s.der y := by
  obtain ⟨bv, bd, e, hv, hmp, hd⟩ := AV.assignCon_ok (A := A) hx hc h1 h2
  refine ⟨(s.putVal x bv).putDer x bd, ?_, by simpa using hv, ?_, ?_⟩
  · show (AV.assignCon A x c >>= fun _ => AV.setDims x (.con c)) s = _
    rw [M.bind_ok e]
    exact AV.setDims_no hm
  · rw [show (if s.indep = x.2 then A.lit 1 else A.lit 0) = if x.2 = s.indep then A.lit 1 else A.lit 0 by
      simp only [eq_comm]] at hd
    simpa using hd
  · intro y hy
    simp [AV.val_putVal_ne, AV.der_putDer_ne, hy]

example : ∃ s' : AV ℚ, AV.assign ratA (B 1) (.con 0) { (mk (fun _ => [4, 5]) (fun _ => []) (fun _ => []) : AV ℚ) with
      indep := 1, indepKind := .borrow } = (.ok (), s') ∧ (s'.val (B 1)).Is [4, 5] ∧ (s'.der (B 1)).Is [1, 1] := by
  obtain ⟨s', e, hv, hd, _⟩ := C62_characterised ratA (x := B 1) (c := 0) (l := [4, 5])
    (s := { (mk (fun _ => [4, 5]) (fun _ => []) (fun _ => []) : AV ℚ) with indep := 1, indepKind := .borrow })
    rfl (buf_is _) (by decide) (by norm_num) rfl
  exact ⟨s', e, hv, hd⟩

/-- C62 is false: a buffer with the index of the independent variable, which is a borrowed vector, gets the derivative one. -/
theorem C62_kind_false : (AV.start 0 .borrow : AV ℚ).indepKind ≠ (B 0).1 ∧
    (let r := AV.run ratA [.setCon 0 [4, 5], .assign (B 0) (.con 0)] (AV.start 0 .borrow);
      r.1 = .ok () ∧ ((r.2.der (B 0)).get 0 = .ok 1 ∧ (r.2.der (B 0)).get 1 = .ok 1)) := by decide +kernel

/-- A borrowed variable with memory for two numbers, and a buffer of the same index. -/
def borrowed : AV ℚ := mk (fun _ => [4, 5]) (fun x => if x.1 = .borrow then [1, 2] else [7, 8, 9]) (fun _ => [])

/-- C62 is false for borrowed variables: the values of the constant are written to the buffer variable with the same index, and the
borrowed variable keeps its values although its derivative is set. -/
theorem C62_borrow_false : let r := AV.assign ratA (.borrow, 3) (.con 0) borrowed
    r.1 = .ok () ∧ (r.2.val (.borrow, 3)).get 0 = .ok 1 ∧ (r.2.val (B 3)).get 0 = .ok 4 ∧
      (r.2.der (.borrow, 3)).get 0 = .ok 0 := by decide +kernel

/-! ## C63 -/

/-- C63 when the assigned variable is as long as the new value: a variable that is read by its own new value gets the same value
and derivative as any other variable `y`, not read by the expression, would get.  Missing: `C63_false`, borrowed variables. -/
theorem C63_partial (A : DArith T) {s : AV T} {x y : DVar} {E : Vals T} {D : DVar → List T} {e : DExpr}
    (hx : x.1 = .buffer) (hy : y.1 = .buffer) (hl : e.isLeaf = false) (h : Shows s E D e)
    (h0 : ∀ v ∈ leaves e, (E.leaf v).length ≠ 0) (h2 : E.len e ≤ 2 ^ 59) (hm : e.im s = false)
    (hlen : (E.var x).length = E.len e) (hye : ¬ Occurs y e) :
    ∃ s1 s2 v d, AV.assign A y e s = (.ok (), s1) ∧ AV.assign A x e s = (.ok (), s2) ∧
      (s1.val y).Is v ∧ (s1.der y).Is d ∧ (s2.val x).Is v ∧ (s2.der x).Is d := by
  obtain ⟨fv, bv, bd, hf, e1, hv, hd⟩ := AV.assign_shows (A := A) (s := s) (x := y) hy hl h h0 h2 hm (fun ho => absurd ho hye)
  obtain ⟨fv', bv', bd', hf', e2, hv', hd'⟩ := AV.assign_shows (A := A) (s := s) (x := x) hx hl h h0 h2 hm (fun _ => hlen)
  have : (List.range (E.len e)).map fv' = (List.range (E.len e)).map fv := by
    refine List.map_congr_left ?_
    intro i hi
    have hi := List.mem_range.1 hi
    have := (hf i hi).symm.trans (hf' i hi)
    exact (Out.ok.inj this).symm
  rw [this] at hv'
  exact ⟨_, _, _, _, e1, e2, by simpa using hv, by simpa using hd, by simpa using hv', by simpa using hd'⟩

/-- C63 is false whenever the variable is shorter than its new value and its derivative is needed: the assignment does not
succeed, whatever the state. -/
theorem C63_characterised (A : DArith T) {s : AV T} {x : DVar} {e : DExpr} (hl : e.isLeaf = false) (hr : ReadsDer x e)
    (hs : (s.val x).sz < e.size s) : ∀ s', AV.assign A x e s ≠ (.ok (), s') :=
  fun _ => AV.assign_self hl hr hs

/-- C63 is false: with `b = 2` and `a = (3, 4)`, `b = a * b` throws; assigning the same product to another variable works. -/
theorem C63_false :
    let p : List (AV.Stmt ℚ) := [.setCon 0 [2], .setCon 1 [3, 4], .assign (B 1) (.con 0), .assign (B 0) (.con 1)]
    (AV.run ratA (p ++ [.assign (B 1) (.bin .mul (.var (B 0)) (.var (B 1)))]) (AV.start 0 .buffer)).1 =
        .thr "Error: out of boundaries --> value beyond size of vector" ∧
      derAfter (p ++ [.assign (B 2) (.bin .mul (.var (B 0)) (.var (B 1)))]) 0 (B 2) = some [2, 2] := by decide +kernel

example : derAfter [.setCon 0 [2, 5], .setCon 1 [3, 4], .assign (B 1) (.con 0), .assign (B 0) (.con 1),
    .assign (B 1) (.bin .mul (.var (B 1)) (.var (B 1)))] 1 (B 1) = some [4, 10] := by decide +kernel

/-- Values `[2, 3]` with derivatives `[1, 4]` in every variable, constants `[5, 6]`. -/
def sampleAV {T : Type} [OfNat T 1] [OfNat T 2] [OfNat T 3] [OfNat T 4] [OfNat T 5] [OfNat T 6] : AV T :=
  mk (fun _ => [5, 6]) (fun _ => [2, 3]) (fun _ => [1, 4])

/-- `C59_characterised`, `C59_iff` and `C59_partial` applied. -/
example : ∃ s' d, AV.assign ratA (B 2) (.bin .div (.var (B 0)) (.var (B 1))) sampleAV = (.ok (), s') ∧ (s'.der (B 2)).Is d ∧
    d[1]? = some ((4 * 3 - 3 * 4) / 4 ^ 2) := by
  obtain ⟨s', d, e, h, _, hi⟩ := C59_characterised ratA (s := sampleAV) (x := B 2) (a := B 0) (b := B 1) (la := [2, 3]) (lb := [2, 3])
    (da := [1, 4]) (db := [1, 4]) (n := 2) rfl (by decide) (by decide) (by decide) (by decide) (buf_is _) (buf_is _) (buf_is _) (buf_is _)
    rfl rfl rfl rfl rfl rfl
  exact ⟨s', d, e, h, (hi 1 (by decide)).trans (by decide +kernel)⟩

example : ∃ s' d, AV.assign DArith.real (B 2) (.bin .div (.var (B 0)) (.var (B 1))) sampleAV = (.ok (), s') ∧ (s'.der (B 2)).Is d ∧
    d[1]? = some ((4 * 3 - 3 * 4) / 3 ^ 2) := by
  obtain ⟨s', d, e, h, _, hi⟩ := C59_iff (s := sampleAV) (x := B 2) (a := B 0) (b := B 1) (la := [2, 3]) (lb := [2, 3])
    (da := [1, 4]) (db := [1, 4]) (n := 2) rfl (by decide) (by decide) (by decide) (by decide) (buf_is _) (buf_is _) (buf_is _) (buf_is _)
    rfl rfl rfl rfl rfl rfl
  exact ⟨s', d, e, h, (hi 1 (by decide) (by norm_num) (by norm_num)).mpr (.inl (by norm_num))⟩

example : ∃ s' d, AV.assign ratA (B 2) (.bin .div (.var (B 0)) (.con 0)) sampleAV = (.ok (), s') ∧ (s'.der (B 2)).Is d ∧
    d[1]? = some (4 / 6) := by
  obtain ⟨s', d, e, h, _, hi⟩ := C59_partial ratA (s := sampleAV) (x := B 2) (a := B 0) (c := 0) (la := [2, 3]) (lc := [5, 6])
    (da := [1, 4]) (n := 2) rfl (by decide) (by decide) (by decide) (buf_is _) (buf_is _) (buf_is _)
    rfl (.inl rfl) rfl rfl rfl
  obtain ⟨y, h1, h2⟩ := hi 1 (by decide)
  have h1 : some 6 = some y := h1
  cases h1
  exact ⟨s', d, e, h, h2⟩

/-- `C60_var_characterised` and `C60_partial` applied. -/
example : ∃ s', AV.assign ratA (B 1) (.sin (.var (B 0))) sampleAV = (.ok (), s') ∧ (s'.der (B 1)).Is ([2, 3].map ratA.cos) := by
  obtain ⟨s', e, _, h⟩ := C60_var_characterised ratA (s := sampleAV) (x := B 1) (a := B 0) (la := [2, 3]) (da := [1, 4]) rfl (by decide)
    (by decide) (by decide) (buf_is _) (buf_is _) rfl
  exact ⟨s', e, h⟩

example : ∃ s', AV.assign DArith.real (B 1) (.sin (.var (B 0))) (mk (fun _ => []) (fun _ => [2, 3]) (fun _ => [1, 1])) = (.ok (), s') ∧
    (s'.der (B 1)).Is [Real.cos 2 * 1, Real.cos 3 * 1] :=
  C60_partial (x := B 1) (a := B 0) (la := [2, 3]) (da := [1, 1]) rfl (by simp) (by norm_num) (by decide) (buf_is _) (buf_is _) rfl
    (by simp)

theorem sampleAV_shows {e : DExpr} : Shows (sampleAV : AV ℚ) ⟨fun _ => [5, 6], fun _ => [2, 3]⟩ (fun _ => [1, 4]) e := by
  intro v _
  cases v with
  | con c => exact buf_is _
  | var x => exact ⟨buf_is _, buf_is _, rfl⟩

/-- `C60_expr_characterised` applied to `sin(a * b)`. -/
example : ∃ s1 s2 d, AV.assign ratA (B 3) (.bin .mul (.var (B 0)) (.var (B 1))) sampleAV = (.ok (), s1) ∧
    AV.assign ratA (B 2) (.sin (.bin .mul (.var (B 0)) (.var (B 1)))) sampleAV = (.ok (), s2) ∧ (s1.der (B 3)).Is d ∧
    (s2.der (B 2)).Is (d.map ratA.cos) :=
  C60_expr_characterised ratA rfl rfl rfl (by simp [Plain]) sampleAV_shows (by simp [leaves, Vals.leaf]) (by decide +kernel)
    (by decide +kernel) (by simp [Occurs, leaves]) (by simp [Occurs, leaves])

/-- `C61_partial` applied: the last element of `(a + b) * c` with lengths 2, 2 and 6 does not depend on the other elements of `c`. -/
def tab226 (u : ℚ) : AV ℚ :=
  mk (fun _ => []) (fun x => if x = B 2 then [u, 2, 3, 4, 5, 6] else [1, 2]) (fun x => if x = B 2 then [u, 2, 3, 4, 5, 6] else [1, 2])

example : (abc.getDeriv ratA 5 (tab226 1)).1 = (abc.getDeriv ratA 5 (tab226 8)).1 := by
  have ho : operands (tab226 1) abc 5 = [(.var (B 0), 1), (.var (B 1), 1), (.var (B 2), 5)] := by decide +kernel
  have hz : SameSizes (tab226 1) (tab226 8) := by
    refine ⟨fun _ => rfl, ?_, ?_⟩ <;>
    · intro x
      simp only [tab226, mk]
      split <;> rfl
  refine (C61_partial ratA ?_ ?_ (by decide +kernel) (fun _ => rfl) hz ?_).2
  · simp [Spec.Even, abc, leaves, Leaf.size, DExpr.size, mk, tab226]
  · simp [abc, leaves, Leaf.size, mk, tab226]
  · rw [ho]
    intro v hv
    simp only [List.mem_cons, List.not_mem_nil, or_false] at hv
    rcases hv with rfl | rfl | rfl
    · exact ⟨by decide +kernel, by decide +kernel⟩
    · exact ⟨by decide +kernel, by decide +kernel⟩
    · exact ⟨by decide +kernel, by decide +kernel⟩

/-- `C63_partial` and `C63_characterised` applied. -/
example : ∃ s1 s2 v d, AV.assign ratA (B 3) (.bin .mul (.var (B 0)) (.var (B 1))) sampleAV = (.ok (), s1) ∧
    AV.assign ratA (B 0) (.bin .mul (.var (B 0)) (.var (B 1))) sampleAV = (.ok (), s2) ∧
    (s1.val (B 3)).Is v ∧ (s1.der (B 3)).Is d ∧ (s2.val (B 0)).Is v ∧ (s2.der (B 0)).Is d :=
  C63_partial ratA rfl rfl rfl sampleAV_shows (by simp [leaves, Vals.leaf]) (by decide +kernel)
    (by decide +kernel) (by decide +kernel) (by simp [Occurs, leaves])

example : ∀ s', AV.assign ratA (B 0) abc (tab226 1) ≠ (.ok (), s') :=
  C63_characterised ratA rfl (by simp [ReadsDer, abc]) (by decide +kernel)

end ETR.Deriv
