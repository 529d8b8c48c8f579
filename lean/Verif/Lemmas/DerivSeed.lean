import Verif.Lemmas.DerivAssign

/-! The first use of the derivative of a variable that was given a value without a derivative (`initBuffer`). -/

namespace ETR
open Spec
variable {T : Type}

theorem Buf.resize_new (zero : T) {n : Nat} (h1 : 1 ≤ n) (h2 : n ≤ 2 ^ 59) :
    ∃ b, Buf.resize zero n {} = (.ok (), b) ∧ b.Is (List.replicate n zero) ∧ b.Room n := by
  unfold Buf.resize
  rw [if_neg (by omega), if_neg (by simp)]
  obtain ⟨c, e, hlo, hhi⟩ := capOf_spec (n := n) (by omega)
  rw [e]
  simp only []
  rw [if_neg (by omega), if_neg (by omega)]
  have hr : Buf.Room (⟨List.replicate n (some zero) ++ List.replicate (c - n) none, n, true, {}⟩ : Buf T) n :=
    ⟨rfl, rfl, by simp⟩
  refine ⟨_, rfl, Buf.is_of_cells (by simpa using hr) ?_, hr⟩
  intro i hi
  have hi' : i < n := by simpa using hi
  show (List.replicate n (some zero) ++ List.replicate (c - n) none)[i]? = _
  rw [List.getElem?_append_left (by simpa using hi')]
  simp [hi']

namespace AV

/-- The state after the derivative of `x` was made as long as its value. -/
def seed1 (A : DArith T) (s : AV T) (x : DVar) : AV T :=
  if (s.der x).sz = (s.val x).sz then s
  else
    let b := (Buf.resize (A.lit 0) (s.val x).sz (s.der x)).2
    if x.2 = s.indep ∧ s.derivInit = false then { s.putDer x (Buf.fill (A.lit 1) b).2 with derivInit := true }
    else s.putDer x b

/-- The state after the derivatives of operands were made as long as their values. -/
def seeds (A : DArith T) (s : AV T) : List Leaf → AV T
  | [] => s
  | .con _ :: L => seeds A s L
  | .var x :: L => seeds A (seed1 A s x) L

theorem seeds_append (A : DArith T) (s : AV T) (L L' : List Leaf) : seeds A s (L ++ L') = seeds A (seeds A s L) L' := by
  induction L generalizing s with
  | nil => rfl
  | cons v L ih => cases v <;> exact ih _

variable {A : DArith T} {s : AV T} {x y : DVar}

theorem seed1_eq (h : (s.der x).sz = (s.val x).sz) : seed1 A s x = s := if_pos h

@[simp] theorem seed1_val : (seed1 A s x).val = s.val := by unfold seed1; split <;> [rfl; (split <;> rfl)]
@[simp] theorem seed1_con : (seed1 A s x).con = s.con := by unfold seed1; split <;> [rfl; (split <;> rfl)]
@[simp] theorem seed1_indep : (seed1 A s x).indep = s.indep := by unfold seed1; split <;> [rfl; (split <;> rfl)]

theorem seed1_der_ne (h : y ≠ x) : (seed1 A s x).der y = s.der y := by
  unfold seed1
  split
  · rfl
  · split
    · exact der_putDer_ne _ _ h
    · exact der_putDer_ne _ _ h

theorem fill_ok {v : T} {b : Buf T} {n : Nat} (h : b.Room n) :
    ∃ b', Buf.fill v b = (.ok (), b') ∧ b'.Room n ∧ b'.Is (List.replicate n v) ∧ b'.mp = b.mp := by
  unfold Buf.fill
  rw [if_neg (by rw [h.sz]; exact Nat.not_lt.2 h.cap)]
  have hr : Buf.Room { b with cells := List.replicate b.sz (some v) ++ b.cells.drop b.sz } n :=
    ⟨h.al, h.sz, by simp [h.sz]⟩
  refine ⟨_, rfl, hr, Buf.is_of_cells (by simpa using hr) ?_, rfl⟩
  intro i hi
  have hi' : i < b.sz := by rw [h.sz]; simpa using hi
  show (List.replicate b.sz (some v) ++ b.cells.drop b.sz)[i]? = _
  rw [List.getElem?_append_left (by simpa using hi')]
  simp [hi']

theorem seed1_size (h1 : 1 ≤ (s.val x).sz) (h2 : (s.val x).sz ≤ 2 ^ 59) :
    ((seed1 A s x).der x).sz = (s.val x).sz := by
  obtain ⟨b, e, hr, _, _⟩ := Buf.resize_ok (A.lit 0) (s.der x) h1 h2
  obtain ⟨b', e', hr', _⟩ := fill_ok (v := A.lit 1) hr
  unfold seed1
  by_cases h : (s.der x).sz = (s.val x).sz
  · rw [if_pos h]; exact h
  · rw [if_neg h, e]
    by_cases hk : x.2 = s.indep ∧ s.derivInit = false
    · simp only [if_pos hk, e']
      show ((s.putDer x b').der x).sz = _
      rw [der_putDer]; exact hr'.sz
    · simp only [if_neg hk]
      rw [der_putDer]; exact hr.sz

/-- Reading the derivative of a variable first makes it as long as the value. -/
theorem varDeriv_seed (h1 : 1 ≤ (s.val x).sz) (h2 : (s.val x).sz ≤ 2 ^ 59) (i : Nat) :
    DExpr.varDeriv A x i s = (DExpr.leafVal ((seed1 A s x).der x) i, seed1 A s x) := by
  obtain ⟨b, e, hr, _, _⟩ := Buf.resize_ok (A.lit 0) (s.der x) h1 h2
  obtain ⟨b', e', hr', _⟩ := fill_ok (v := A.lit 1) hr
  unfold DExpr.varDeriv seed1
  rw [M.bind_ok (M.get_apply s)]
  by_cases h : (s.der x).sz = (s.val x).sz
  · rw [if_neg (by simpa using h), if_pos h]
    rfl
  · rw [if_pos (by simpa using h), if_neg h, e]
    have ed : onDer x (Buf.resize (A.lit 0) (s.val x).sz) s = (.ok (), s.putDer x b) := onDer_ok e
    rw [M.bind_ok ed]
    by_cases hk : x.2 = s.indep ∧ s.derivInit = false
    · have ef : onDer x (Buf.fill (A.lit 1)) (s.putDer x b) = (.ok (), s.putDer x b') := by
        rw [onDer_put, e']
      simp only [if_pos hk, e']
      rw [M.bind_ok ef]
      rfl
    · simp only [if_neg hk]
      rfl

@[simp] theorem seeds_val (L : List Leaf) : (seeds A s L).val = s.val := by
  induction L generalizing s with
  | nil => rfl
  | cons v L ih => cases v <;> simp [seeds, ih]
@[simp] theorem seeds_con (L : List Leaf) : (seeds A s L).con = s.con := by
  induction L generalizing s with
  | nil => rfl
  | cons v L ih => cases v <;> simp [seeds, ih]
@[simp] theorem seeds_indep (L : List Leaf) : (seeds A s L).indep = s.indep := by
  induction L generalizing s with
  | nil => rfl
  | cons v L ih => cases v <;> simp [seeds, ih]

theorem seeds_der_ne {L : List Leaf} (h : Leaf.var y ∉ L) : (seeds A s L).der y = s.der y := by
  induction L generalizing s with
  | nil => rfl
  | cons v L ih =>
    cases v with
    | con c => exact ih (fun h' => h (List.mem_cons_of_mem _ h'))
    | var x =>
      have hx : y ≠ x := by rintro rfl; exact h (by simp)
      rw [seeds, ih (fun h' => h (List.mem_cons_of_mem _ h')), seed1_der_ne hx]

/-- A derivative that has the right length is not changed. -/
theorem seeds_der_eq {L : List Leaf} (h : (s.der y).sz = (s.val y).sz) : (seeds A s L).der y = s.der y := by
  induction L generalizing s with
  | nil => rfl
  | cons v L ih =>
    cases v with
    | con c => exact ih h
    | var x =>
      by_cases hx : y = x
      · subst hx; rw [seeds, seed1_eq h, ih h]
      · have h1 := seed1_der_ne (A := A) (s := s) hx
        rw [seeds, ih (by rw [h1, seed1_val]; exact h), h1]

theorem seeds_size {L : List Leaf} (h : ∀ y, Leaf.var y ∈ L → 1 ≤ (s.val y).sz ∧ (s.val y).sz ≤ 2 ^ 59)
    (hy : Leaf.var y ∈ L) : ((seeds A s L).der y).sz = (s.val y).sz := by
  induction L generalizing s with
  | nil => simp at hy
  | cons v L ih =>
    cases v with
    | con c => exact ih (fun z hz => h z (List.mem_cons_of_mem _ hz)) (by simpa using hy)
    | var x =>
      by_cases hx : y = x
      · subst hx
        have h1 := seed1_size (A := A) (h y hy).1 (h y hy).2
        rw [seeds, seeds_der_eq (by rw [h1, seed1_val]), h1]
      · have := ih (s := seed1 A s x) (fun z hz => by rw [seed1_val]; exact h z (List.mem_cons_of_mem _ hz))
          (by simpa [hx] using hy)
        rw [seeds, this, seed1_val]

theorem seeds_same {L : List Leaf} (h : ∀ y, Leaf.var y ∈ L → (s.der y).sz = (s.val y).sz) : seeds A s L = s := by
  induction L with
  | nil => rfl
  | cons v L ih =>
    cases v with
    | con c => exact ih (fun z hz => h z (List.mem_cons_of_mem _ hz))
    | var x => rw [seeds, seed1_eq (h x (by simp))]; exact ih (fun z hz => h z (List.mem_cons_of_mem _ hz))

theorem seed1_putDer (b : Buf T) (h : x ≠ y) : seed1 A (s.putDer y b) x = (seed1 A s x).putDer y b := by
  have hc : ∀ b' : Buf T, (s.putDer y b).putDer x b' = (s.putDer x b').putDer y b := by
    intro b'
    unfold putDer
    congr 1
    funext z
    by_cases h1 : z = x <;> by_cases h2 : z = y <;> simp_all
  unfold seed1
  simp only [der_putDer_ne _ _ h, val_putDer, indep_putDer, init_putDer]
  by_cases h0 : (s.der x).sz = (s.val x).sz
  · rw [if_pos h0, if_pos h0]
  · rw [if_neg h0, if_neg h0]
    by_cases hk : x.2 = s.indep ∧ s.derivInit = false
    · rw [if_pos hk, if_pos hk, hc]; rfl
    · rw [if_neg hk, if_neg hk, hc]

theorem seed1_putVal (b : Buf T) (h : x ≠ y) : seed1 A (s.putVal y b) x = (seed1 A s x).putVal y b := by
  unfold seed1
  simp only [val_putVal_ne _ _ h, der_putVal, indep_putVal, init_putVal]
  by_cases h0 : (s.der x).sz = (s.val x).sz
  · rw [if_pos h0, if_pos h0]
  · rw [if_neg h0, if_neg h0]
    by_cases hk : x.2 = s.indep ∧ s.derivInit = false
    · rw [if_pos hk, if_pos hk]; rfl
    · rw [if_neg hk, if_neg hk]; rfl

theorem seeds_putDer (b : Buf T) {L : List Leaf} (h : Leaf.var y ∉ L) :
    seeds A (s.putDer y b) L = (seeds A s L).putDer y b := by
  induction L generalizing s with
  | nil => rfl
  | cons v L ih =>
    cases v with
    | con c => exact ih (fun h' => h (List.mem_cons_of_mem _ h'))
    | var x =>
      have hx : x ≠ y := by rintro rfl; exact h (by simp)
      rw [seeds, seed1_putDer b hx, ih (fun h' => h (List.mem_cons_of_mem _ h'))]; rfl

end AV

namespace DExpr
open AV
variable {A : DArith T} {s : AV T}

theorem getVal_congr {s s' : AV T} (h1 : s.val = s'.val) (h2 : s.con = s'.con) (e : DExpr) (i : Nat) :
    e.getVal A s i = e.getVal A s' i := by
  induction e with
  | con c => rw [getVal, getVal, h2]
  | var x => rw [getVal, getVal, h1]
  | bin op l r hl hr => rw [getVal, getVal, hl, hr]
  | sin e he => rw [getVal, getVal, he]

theorem size_congr {s s' : AV T} (h1 : s.val = s'.val) (h2 : s.con = s'.con) (e : DExpr) : e.size s = e.size s' := by
  induction e with
  | con c => rw [size, size, h2]
  | var x => rw [size, size, h1]
  | bin op l r hl hr => rw [size, size, hl, hr]
  | sin e he => rw [size, size, he]

theorem elem_congr {s s' : AV T} (h1 : s.val = s'.val) (h2 : s.con = s'.con) (e : DExpr) :
    ∀ i, e.elem A s i = e.elem A s' i := by
  induction e with
  | con c => intro i; rw [elem, elem, h2]
  | var x => intro i; rw [elem, elem, h1]
  | bin op l r hl hr =>
    intro i
    rw [elem, elem, size_congr h1 h2 l, size_congr h1 h2 r]
    simp only [hl, hr]
  | sin e he =>
    intro i
    rw [elem, elem, size_congr h1 h2 e]
    simp only [he]

theorem im_congr {s s' : AV T} (h1 : s.val = s'.val) (h2 : s.con = s'.con) (e : DExpr) : e.im s = e.im s' := by
  induction e with
  | con c => rw [im, im, h2]
  | var x => rw [im, im, h1]
  | bin op l r hl hr => rw [im, im, hl, hr]
  | sin e he => rfl

/-- `sinus` does not occur. -/
def NoSin : DExpr → Prop
  | con _ => True
  | var _ => True
  | bin _ l r => NoSin l ∧ NoSin r
  | sin _ => False

/-- The derivative of an expression, from a state in which derivatives of operands have not been used. -/
theorem getDeriv_seeds {p : Pt T} {e : DExpr} {i : Nat} (hn : e.NoSin)
    (hsz : ∀ y, Leaf.var y ∈ leaves e → 1 ≤ (s.val y).sz ∧ (s.val y).sz ≤ 2 ^ 59)
    (h : SeesAt (seeds A s (leaves e)) p e i) : e.getDeriv A i s = (.ok (e.gDer A p), seeds A s (leaves e)) := by
  induction e generalizing s with
  | con c => rfl
  | var x =>
    have hx : Leaf.var x ∈ leaves (.var x) := by simp [leaves]
    show varDeriv A x i s = _
    rw [varDeriv_seed (hsz x hx).1 (hsz x hx).2]
    exact Prod.ext (h.der x hx) rfl
  | bin op l r hl hr =>
    obtain ⟨n1, n2⟩ := hn
    have szl : ∀ y, Leaf.var y ∈ leaves l → 1 ≤ (s.val y).sz ∧ (s.val y).sz ≤ 2 ^ 59 := fun y hy => hsz y (by simp [leaves, hy])
    have szr : ∀ y, Leaf.var y ∈ leaves r → 1 ≤ ((seeds A s (leaves l)).val y).sz ∧ ((seeds A s (leaves l)).val y).sz ≤ 2 ^ 59 :=
      fun y hy => by rw [seeds_val]; exact hsz y (by simp [leaves, hy])
    have e1 : seeds A s (leaves (bin op l r)) = seeds A (seeds A s (leaves l)) (leaves r) := by
      rw [leaves, seeds_append]
    rw [e1] at h ⊢
    have h2 : SeesAt (seeds A (seeds A s (leaves l)) (leaves r)) p r i := h.right
    have h1 : SeesAt (seeds A s (leaves l)) p l i := by
      have h1 := h.left
      refine ⟨?_, ?_, ?_, ?_⟩
      · intro c hc; have := h1.con c hc; rwa [seeds_con] at this
      · intro x hx; have := h1.var x hx; rwa [seeds_val] at this
      · intro x hx; rw [seeds_size szl hx, seeds_val]
      · intro x hx
        have := h1.der x hx
        rwa [seeds_der_eq (by rw [seeds_size szl hx, seeds_val])] at this
    have vl : M.reads (fun s => l.getVal A s i) s = (.ok (l.gVal A p), s) := by
      rw [M.reads_apply, ← getVal_ok h1, getVal_congr (s := s) (s' := seeds A s (leaves l)) (by simp) (by simp)]
    have vr : M.reads (fun s => r.getVal A s i) s = (.ok (r.gVal A p), s) := by
      rw [M.reads_apply, ← getVal_ok h2, getVal_congr (s := s) (s' := seeds A (seeds A s (leaves l)) (leaves r)) (by simp) (by simp)]
    have il := hl n1 szl h1
    have ir := hr n2 szr h2
    cases op
    case mul => rw [getDeriv, M.bind_ok vl, M.bind_ok vr, M.bind_ok il, M.bind_ok ir]; rfl
    case div =>
      rw [getDeriv, M.bind_ok vl, M.bind_ok vr, M.bind_ok il, M.bind_ok ir]
      cases r <;> rfl
    all_goals rw [getDeriv, M.bind_ok il, M.bind_ok ir] <;> first | rfl | simp
  | sin e he => exact hn.elim

end DExpr

theorem M.forN_first {σ : Type} {f : Nat → M σ Unit} {n : Nat} {s s' : σ} (hn : 1 ≤ n) (h : f 0 s = f 0 s') :
    M.forN n f s = M.forN n f s' := by
  induction n with
  | zero => omega
  | succ n ih =>
    rw [M.forN_succ, M.bind_apply, M.bind_apply]
    rcases Nat.eq_zero_or_pos n with rfl | hn'
    · exact h
    · rw [ih hn']

namespace AV
variable {A : DArith T} {s : AV T} {x y : DVar}

/-- Assignment of an expression, from a state in which derivatives of operands have not been used: as if they had been. -/
theorem assignExpr_seeds {p : Pt T} {e : DExpr} {fv : Nat → T} (hn : e.NoSin)
    (hsz : ∀ y, Leaf.var y ∈ leaves e → 1 ≤ (s.val y).sz ∧ (s.val y).sz ≤ 2 ^ 59) (h1 : 1 ≤ e.size s) (hlen : e.size s ≤ 2 ^ 59)
    (hv : ∀ i, i < e.size s → e.elem A s i = .ok (fv i))
    (hs : DExpr.SeesAt (seeds A s (leaves e)) p e 0) (hx : ¬ Occurs x e ∨ (s.der x).Room (e.size s) ∧ (s.val x).sz = e.size s) :
    assignExpr A x e s = assignExpr A x e (seeds A s (leaves e)) := by
  have esz : e.size (seeds A s (leaves e)) = e.size s := DExpr.size_congr (by simp) (by simp) e
  have hall : ∀ s' : AV T, s'.val = s.val → s'.con = s.con →
      Out.all ((List.range (e.size s)).map (fun i => e.elem A s' i)) = .ok ((List.range (e.size s)).map fv) := by
    intro s' e1 e2
    have : (List.range (e.size s)).map (fun i => e.elem A s' i) = (List.range (e.size s)).map (fun i => Out.ok (fv i)) :=
      List.map_congr_left (fun i hi => by rw [DExpr.elem_congr e1 e2]; exact hv i (List.mem_range.1 hi))
    rw [this, Out.all_map_ok]
  have hd : (seeds A s (leaves e)).der x = s.der x := by
    rcases hx with hx | hx
    · exact seeds_der_ne hx
    · exact seeds_der_eq (by rw [hx.1.sz, hx.2])
  obtain ⟨b, e0, hr0, hm0, hk0⟩ := Buf.resize_ok (A.lit 0) (s.der x) h1 hlen
  have r1 : resizeDerivs A x (e.size s) s = (.ok (), s.putDer x b) := onDer_ok e0
  have r2 : resizeDerivs A x (e.size s) (seeds A s (leaves e)) = (.ok (), (seeds A s (leaves e)).putDer x b) :=
    onDer_ok (by rw [hd]; exact e0)
  have key : seeds A (s.putDer x b) (leaves e) = (seeds A s (leaves e)).putDer x b := by
    rcases hx with hx | hx
    · exact seeds_putDer b hx
    · rw [hk0 hx.1, putDer_self, ← hd, putDer_self]
  have sees : DExpr.SeesAt ((seeds A s (leaves e)).putDer x b) p e 0 := by
    rcases hx with hx | hx
    · refine ⟨hs.con, hs.var, ?_, ?_⟩
      · intro y hy
        have : y ≠ x := by rintro rfl; exact hx hy
        rw [der_putDer_ne _ _ this]; exact hs.sz y hy
      · intro y hy
        have : y ≠ x := by rintro rfl; exact hx hy
        rw [der_putDer_ne _ _ this]; exact hs.der y hy
    · rw [hk0 hx.1, ← hd, putDer_self]; exact hs
  have loop : M.forN (e.size s) (fun i => do
      let d ← e.getDeriv A i
      onDer x (Buf.set i d)) (s.putDer x b) = M.forN (e.size s) (fun i => do
      let d ← e.getDeriv A i
      onDer x (Buf.set i d)) ((seeds A s (leaves e)).putDer x b) := by
    refine M.forN_first h1 ?_
    have g1 := DExpr.getDeriv_seeds (A := A) (s := s.putDer x b) (p := p) (e := e) (i := 0) hn hsz (by rw [key]; exact sees)
    have g2 := DExpr.getDeriv_ok (A := A) sees
    rw [key] at g1
    rw [M.bind_ok g1, M.bind_ok g2]
  have a1 : ∀ s' : AV T, (M.ass (e.size s ≥ 1) "Size has to be larger than 0" : M (AV T) Unit) s' = (.ok (), s') := by
    intro s'
    unfold M.ass
    rw [M.lift_apply, Out.ass_pos h1]
  have l1 : (M.lift (Out.all ((List.range (e.size s)).map (fun i => e.elem A s i))) : M (AV T) (List T)) s
      = (.ok ((List.range (e.size s)).map fv), s) := by rw [M.lift_apply, hall s rfl rfl]
  have l2 : (M.lift (Out.all ((List.range (e.size s)).map (fun i => e.elem A (seeds A s (leaves e)) i))) :
      M (AV T) (List T)) (seeds A s (leaves e))
      = (.ok ((List.range (e.size s)).map fv), seeds A s (leaves e)) := by rw [M.lift_apply, hall _ (by simp) (by simp)]
  unfold assignExpr
  rw [M.bind_ok (M.get_apply s), M.bind_ok (M.get_apply (seeds A s (leaves e))), esz, M.bind_ok (a1 _), M.bind_ok (a1 _),
    M.bind_ok l1, M.bind_ok l2, M.bind_ok r1, M.bind_ok r2, M.bind_apply, M.bind_apply, loop]

/-- Assignment of a variable whose derivative may not have been used. -/
theorem assignVar_seed {l d : List T} (hx : x.1 ≠ .borrow) (hne : y ≠ x)
    (hy : (s.val y).Is l) (hd : ((seed1 A s y).der y).Is d) (hld : d.length = l.length) (h1 : 1 ≤ l.length)
    (h2 : l.length ≤ 2 ^ 59) :
    ∃ bv bd, assignVar A x y s = (.ok (), ((seed1 A s y).putVal x bv).putDer x bd) ∧ bv.Is l ∧ bv.mp = (s.val x).mp ∧
      bd.Is d := by
  obtain ⟨b, e, hr, hm⟩ := resize_val (A := A) (s := s) (x := x) hx h1 h2
  obtain ⟨bv, ev, rv, mv, hv⟩ := loop_set (put := s.putVal x) (on := onVal x)
    (fun m b => onVal_put s x m b) (m := fun i => M.reads (fun s => DExpr.leafVal (s.val y) i))
    (f := fun i => l.getD i (A.lit 0)) hr (by
      intro i hi b _ _ _
      rw [M.reads_apply, val_putVal_ne _ _ hne, hy.leaf (by omega), getD_lt _ _ hi]
      simp only [Nat.mod_eq_of_lt hi])
  obtain ⟨b2, e2, hr2, hm2, _⟩ := resize_der (A := A) (s := s.putVal x bv) (x := x) h1 h2
  obtain ⟨bd, ed, rd, md, hd'⟩ := loop_set (put := ((seed1 A s y).putVal x bv).putDer x)
    (on := onDer x) (fun m b => onDer_put _ x m b)
    (m := fun i => DExpr.varDeriv A y i)
    (f := fun i => d.getD i (A.lit 0)) hr2 (by
      intro i hi b _ _ _
      refine DExpr.varDeriv_ok ?_ ?_
      · rw [der_putDer_ne _ _ hne, val_putDer, der_putVal, val_putVal_ne _ _ hne, seed1_val, hd.1, hy.1, hld]
      · rw [der_putDer_ne _ _ hne, der_putVal, hd.leaf (by omega), getD_lt _ _ (by omega)]
        simp only [hld, Nat.mod_eq_of_lt hi])
  refine ⟨bv, bd, ?_, ?_, mv.trans hm, ?_⟩
  · unfold assignVar
    rw [M.bind_ok (M.get_apply s), hy.1, M.bind_ok e, M.bind_ok ev, M.bind_ok e2]
    have key : seed1 A ((s.putVal x bv).putDer x b2) y = ((seed1 A s y).putVal x bv).putDer x b2 := by
      rw [seed1_putDer _ hne, seed1_putVal _ hne]
    refine Eq.trans (M.forN_first h1 ?_) ed
    have v1 := varDeriv_seed (A := A) (s := (s.putVal x bv).putDer x b2) (x := y)
      (by rw [val_putDer, val_putVal_ne _ _ hne, hy.1]; exact h1) (by rw [val_putDer, val_putVal_ne _ _ hne, hy.1]; exact h2) 0
    have v2 := varDeriv_seed (A := A) (s := ((seed1 A s y).putVal x bv).putDer x b2) (x := y)
      (by rw [val_putDer, val_putVal_ne _ _ hne, seed1_val, hy.1]; exact h1)
      (by rw [val_putDer, val_putVal_ne _ _ hne, seed1_val, hy.1]; exact h2) 0
    have idem : seed1 A (((seed1 A s y).putVal x bv).putDer x b2) y = ((seed1 A s y).putVal x bv).putDer x b2 := by
      refine seed1_eq ?_
      rw [der_putDer_ne _ _ hne, val_putDer, der_putVal, val_putVal_ne _ _ hne, seed1_val, hd.1, hy.1, hld]
    rw [key] at v1
    rw [idem] at v2
    rw [M.bind_apply, M.bind_apply, v1, v2]
  · refine Buf.is_of_cells rv ?_
    intro i hi
    rw [hv i hi, getD_lt _ _ hi]
  · refine Buf.is_of_cells (by rw [hld]; exact rd) ?_
    intro i hi
    rw [hd' i (by omega), getD_lt _ _ hi]

end AV
end ETR
