import Verif.Lemmas.Eval

/-! Properties of expressions: C22, C23, C24, C25. -/

namespace ETR
open Spec

variable {V : Type}

/-! ## C22 element-wise arithmetic with recycling -/

/-- C22.  For two named vectors `x`, `y` that show the non-empty lists `a`, `b`, and for every element
operator `f`: the operation has the length of the longer list and its `i`-th element is
`f a[i mod |a|] b[i mod |b|]`. -/
theorem C22_recycling (env : Env V) (x y : Nat) (a b : List V) (f : V → V → Out V)
    (ha : env.size x = a.length ∧ ∀ i (hi : i < a.length), env.get x i = .ok a[i])
    (hb : env.size y = b.length ∧ ∀ i (hi : i < b.length), env.get y i = .ok b[i])
    (pa : 0 < a.length) (pb : 0 < b.length) :
    let e : Expr V := .bin f (.leaf x) (.leaf y)
    e.size env = max a.length b.length ∧
    ∀ i, e.el env i = f (a[i % a.length]'(Nat.mod_lt _ pa)) (b[i % b.length]'(Nat.mod_lt _ pb)) := by
  refine ⟨?_, fun i => ?_⟩
  · simp only [Expr.size, Expr.isScal, ha.1, hb.1]
    simp only [Bool.false_eq_true, false_and, if_false]
    split <;> omega
  · simp only [Expr.el, Expr.isScal, Expr.size, posOf, ha.1, hb.1, Bool.false_eq_true, if_false,
      modz_pos pa, modz_pos pb, Out.ok_bind, ha.2 _ (Nat.mod_lt i pa), hb.2 _ (Nat.mod_lt i pb)]

/-- C22 with a scalar on the right or on the left. -/
theorem C22_scalar (env : Env V) (x : Nat) (a : List V) (s : V) (f : V → V → Out V)
    (ha : env.size x = a.length ∧ ∀ i (hi : i < a.length), env.get x i = .ok a[i])
    (pa : 0 < a.length) :
    let e1 : Expr V := .bin f (.leaf x) (.scal s)
    let e2 : Expr V := .bin f (.scal s) (.leaf x)
    e1.size env = a.length ∧ e2.size env = a.length ∧
    ∀ i, e1.el env i = f (a[i % a.length]'(Nat.mod_lt _ pa)) s ∧
      e2.el env i = f s (a[i % a.length]'(Nat.mod_lt _ pa)) := by
  refine ⟨by simp [Expr.size, Expr.isScal, ha.1], by simp [Expr.size, Expr.isScal, ha.1],
    fun i => ?_⟩
  simp only [Expr.el, Expr.isScal, Expr.size, posOf, ha.1, Bool.false_eq_true, if_false, if_true,
    modz_pos pa, Out.ok_bind, ha.2 _ (Nat.mod_lt i pa), and_self]

/-- Environment with the lists given. -/
def listEnv (ls : List (List V)) (mps : List MP := []) : Env V where
  size x := (ls[x]?.getD []).length
  get x i := getL (ls[x]?.getD []) i
  mp x := mps[x]?.getD {}

example : let e : Expr Int := .bin (fun a b => .ok (a + b)) (.leaf 0) (.leaf 1)
    e.size (listEnv [[1, 2, 3, 4, 5], [10, 20]]) = 5 ∧ e.el (listEnv [[1, 2, 3, 4, 5], [10, 20]]) 4 = .ok 15 :=
  have h := C22_recycling (listEnv [[1, 2, 3, 4, 5], [10, 20]]) 0 1 [1, 2, 3, 4, 5] [10, (20 : Int)] (fun a b => .ok (a + b))
    ⟨by decide, by decide⟩ ⟨by decide, by decide⟩ (by decide) (by decide)
  ⟨h.1, h.2 4⟩

theorem listEnv_get (ls : List (List V)) (mps : List MP) (x : Nat) (i : Nat)
    (hi : i < (ls[x]?.getD []).length) :
    (listEnv ls mps).get x i = .ok (ls[x]?.getD [])[i] := by
  simp [listEnv, getL, hi]

/-- Five and two elements: the hypotheses hold and the shorter operand is recycled. -/
example : let env := listEnv [[1, 2, 3, 4, 5], [10, 20]]
    let e : Expr Int := .bin (fun a b => .ok (a + b)) (.leaf 0) (.leaf 1)
    (env.size 0 = 5 ∧ env.size 1 = 2) ∧ e.size env = 5 ∧ e.el env 4 = .ok 15 := by decide

/-! ## C23 nested expressions -/

/-- The expression has a naive meaning: named vectors are non-empty, element functions are defined
everywhere, subset indices are in range (and not more than the object has elements, see C31). -/
def Meaningful (ρ : Nat → Option (List V)) : Expr V → Prop
  | .leaf x => ∃ l, ρ x = some l ∧ l ≠ []
  | .rvec l _ => l ≠ []
  | .scal _ => True
  | .un f e => (∀ v, ∃ w, f v = .ok w) ∧ Meaningful ρ e
  | .bin f l r => (∀ v w, ∃ u, f v w = .ok u) ∧ Meaningful ρ l ∧ Meaningful ρ r
  | .sub e ind _ => Meaningful ρ e ∧ ind ≠ [] ∧
      ∀ l, eval ρ e = some l → ind.length ≤ l.length ∧ ∀ j ∈ ind, j < l.length

private theorem mapM_total {α β : Type} {f : α → Option β} {l : List α}
    (h : ∀ a ∈ l, ∃ b, f a = some b) : ∃ r, l.mapM f = some r := by
  induction l with
  | nil => exact ⟨[], rfl⟩
  | cons a t ih =>
    obtain ⟨b, hb⟩ := h a (by simp)
    obtain ⟨r, hr⟩ := ih (fun a ha => h a (by simp [ha]))
    exact ⟨b :: r, by simp [List.mapM_cons, hb, hr]⟩

/-- C23.  Every meaningful expression denotes a non-empty list `L` in the naive semantics, and lazy
evaluation delivers exactly this list: the same length, and element `i` is returned without error. -/
theorem C23_compositional (env : Env V) (ρ : Nat → Option (List V)) (ha : Agrees env ρ)
    (e : Expr V) (hm : Meaningful ρ e) :
    ∃ L, eval ρ e = some L ∧ L ≠ [] ∧ e.size env = L.length ∧
      ∀ i (hi : i < L.length), e.el env i = .ok L[i] := by
  suffices h : ∃ L, eval ρ e = some L by
    obtain ⟨L, hL⟩ := h
    exact ⟨L, hL, eval_sound ha e hL⟩
  induction e with
  | leaf x =>
    obtain ⟨l, h1, h2⟩ := hm
    exact ⟨l, by simp [eval, h1, nonEmpty, h2]⟩
  | rvec l mp => exact ⟨l, nonEmpty_eq_some.mpr ⟨hm, rfl⟩⟩
  | scal v => exact ⟨[v], rfl⟩
  | un f e ih =>
    obtain ⟨l, hl⟩ := ih hm.2
    obtain ⟨r, hr⟩ := mapM_total (f := fun v => val (f v)) (l := l) (fun v _ => by
      obtain ⟨w, hw⟩ := hm.1 v
      exact ⟨w, by rw [hw]; rfl⟩)
    exact ⟨r, by simp [eval, hl, hr]⟩
  | bin f l r ihl ihr =>
    obtain ⟨a, hla⟩ := ihl hm.2.1
    obtain ⟨b, hlb⟩ := ihr hm.2.2
    have pa := List.length_pos_iff.mpr (eval_sound ha l hla).1
    have pb := List.length_pos_iff.mpr (eval_sound ha r hlb).1
    obtain ⟨c, hc⟩ := mapM_total (f := fun i => do
      let x ← a[i % a.length]?
      let y ← b[i % b.length]?
      val (f x y)) (l := List.range (max a.length b.length)) (fun i _ => by
        obtain ⟨w, hw⟩ := hm.1 (a[i % a.length]'(Nat.mod_lt _ pa)) (b[i % b.length]'(Nat.mod_lt _ pb))
        refine ⟨w, ?_⟩
        rw [List.getElem?_eq_getElem (Nat.mod_lt _ pa), List.getElem?_eq_getElem (Nat.mod_lt _ pb)]
        simp [hw, val])
    exact ⟨c, by simp only [eval, hla, hlb, Option.bind_eq_bind, Option.bind_some]; exact hc⟩
  | sub e ind mp ih =>
    obtain ⟨l, hl⟩ := ih hm.1
    obtain ⟨h1, h2⟩ := hm.2.2 l hl
    obtain ⟨r, hr⟩ := mapM_total (f := fun j => l[j]?) (l := ind) (fun j hj =>
      ⟨_, List.getElem?_eq_getElem (h2 j hj)⟩)
    refine ⟨r, ?_⟩
    simp only [eval, hl, Option.bind_eq_bind, Option.bind_some]
    rw [if_pos ⟨hm.2.1, h1⟩]; exact hr

/-- A nested expression with recycling on two levels and a subset, `-(a + b) * c[(3,1)]`. -/
example : ∃ (ρ : Nat → Option (List Int)) (e : Expr Int), Meaningful ρ e ∧
    Agrees (listEnv [[1, 2, 3, 4], [10, 20], [5, 6, 7]]) ρ ∧
    eval ρ e = some [-77, -110, -91, -120] := by
  refine ⟨fun x => [[1, 2, 3, 4], [10, 20], [5, 6, 7]][x]?,
    .bin (fun a b => .ok (a * b)) (.un (fun a => .ok (-a))
      (.bin (fun a b => .ok (a + b)) (.leaf 0) (.leaf 1))) (.sub (.leaf 2) [2, 0] {}), ?_, ?_, ?_⟩
  · refine ⟨fun v w => ⟨_, rfl⟩, ⟨fun v => ⟨_, rfl⟩, fun v w => ⟨_, rfl⟩, ⟨_, rfl, by simp⟩,
      ⟨_, rfl, by simp⟩⟩, ⟨_, rfl, by simp⟩, by simp, ?_⟩
    intro l hl
    simp [eval, nonEmpty] at hl
    subst hl
    decide
  · intro x l hl
    refine ⟨by simp [listEnv, hl], fun i hi => ?_⟩
    simp only [] at hl
    simp [listEnv, getL, hl, hi]
  · decide

/-! ## C24 dimensions of binary operations -/

/-- Matrix shape of an expression, if it is a matrix: the numbers of rows and columns. -/
def shape (env : Env V) (e : Expr V) : Option (Out Nat × Out Nat) :=
  if e.im env then some (e.nr env, e.nc env) else none

/-- The operands fit: matrices have the same shape, a vector is not longer than the matrix it is
combined with; leaves and subsets have as many elements as their recorded shape says; a unary function
is not applied to a matrix inside (it loses the dimensions, see C25). -/
def Conformable (env : Env V) : Expr V → Prop
  | .leaf x => (env.mp x).im = true → (env.mp x).nr * (env.mp x).nc = env.size x
  | .rvec l mp => mp.im = true → mp.nr * mp.nc = l.length
  | .scal _ => True
  | .un _ _ => True
  | .sub _ ind mp => mp.im = true → mp.nr * mp.nc = ind.length
  | .bin _ l r => Conformable env l ∧ Conformable env r ∧ 1 ≤ l.size env ∧ 1 ≤ r.size env ∧
      (l.im env = true → r.im env = true → shape env l = shape env r) ∧
      (l.im env = true → r.im env = false → r.size env ≤ l.size env) ∧
      (l.im env = false → r.im env = true → l.size env ≤ r.size env)

theorem size_bin {env : Env V} {f : V → V → Out V} {l r : Expr V} (h1 : 1 ≤ l.size env)
    (h2 : 1 ≤ r.size env) : (Expr.bin f l r).size env = max (l.size env) (r.size env) := by
  have sc : ∀ {x : Expr V}, x.isScal = true → x.size env = 1 := by
    intro x hx; cases x <;> simp_all [Expr.isScal, Expr.size]
  simp only [Expr.size]
  split
  · rename_i hc; have := sc hc.1; have := sc hc.2; omega
  · split
    · rename_i hc; have := sc hc; omega
    · split
      · rename_i hc; have := sc hc; omega
      · split <;> omega

/-- C24, part 1: a binary operation is a matrix iff an operand is. -/
theorem C24_matrix_iff (env : Env V) (f : V → V → Out V) (l r : Expr V) :
    (Expr.bin f l r).im env = true ↔ l.im env = true ∨ r.im env = true := by
  have sc : ∀ {x : Expr V}, x.isScal = true → x.im env = false := by
    intro x hx; cases x <;> simp_all [Expr.isScal, Expr.im]
  simp only [Expr.im]
  split
  · rename_i h; simp [sc h]
  · split
    · rename_i h; simp [sc h]
    · simp

example : (Expr.bin (fun a b => .ok (a + b)) (.scal 1) (.leaf 0)).im (listEnv [[1, 2, 3, (4 : Int)]] [⟨true, 2, 2⟩]) = true :=
  (C24_matrix_iff _ _ _ _).mpr (.inr (by decide))

/-- C24, part 2 (partial: operands conform): a matrix-valued operation has the shape of its matrix
operand(s), and rows times columns is the length. -/
theorem C24_dims_partial (env : Env V) (e : Expr V) (hc : Conformable env e)
    (him : e.im env = true) :
    (∃ a b, e.nr env = .ok a ∧ e.nc env = .ok b ∧ a * b = e.size env) ∧
    ∀ f l r, e = .bin f l r → (l.im env = true → shape env e = shape env l) ∧
      (r.im env = true → shape env e = shape env r) := by
  induction e with
  | leaf x => exact ⟨⟨_, _, rfl, rfl, hc him⟩, by simp⟩
  | rvec l mp => exact ⟨⟨_, _, rfl, rfl, hc him⟩, by simp⟩
  | scal v => simp [Expr.im] at him
  | un f e ih => simp [Expr.im] at him
  | sub e ind mp ih => exact ⟨⟨_, _, rfl, rfl, hc him⟩, by simp⟩
  | bin f l r ihl ihr =>
    obtain ⟨cl, cr, sl, sr, h1, h2, h3⟩ := hc
    have hsz := size_bin (f := f) sl sr
    have sc : ∀ {x : Expr V}, x.isScal = true → x.im env = false := by
      intro x hx; cases x <;> simp_all [Expr.isScal, Expr.im]
    have key : ∀ (n : Expr V → Out Nat) (hn : n (.bin f l r) = if l.isScal then n r
        else if r.isScal then n l else if l.im env && r.im env then (do
          let a ← n l
          let b ← n r
          return if a > b then a else b) else if r.im env then n r else if l.im env then n l
          else .thr "Matrix calculation failed!"),
        (l.im env = true → r.im env = true → n l = n r) →
        (l.im env = true → ∃ a, n l = .ok a) → (r.im env = true → ∃ a, n r = .ok a) →
        (l.im env = true → n (.bin f l r) = n l) ∧ (r.im env = true → n (.bin f l r) = n r) := by
      intro n hn e1 e2 e3
      rw [hn]
      by_cases hl : l.isScal = true
      · have hl' := sc hl; simp [hl, hl']
      · by_cases hr : r.isScal = true
        · have hr' := sc hr; simp [hl, hr, hr']
        · simp only [hl, hr, if_false, Bool.false_eq_true]
          by_cases il : l.im env = true
          · by_cases ir : r.im env = true
            · obtain ⟨a, ha⟩ := e2 il
              have hb := e1 il ir
              rw [ha] at hb
              simp [il, ir, ha, ← hb]
            · simp [il, ir]
          · by_cases ir : r.im env = true <;> simp [il, ir]
    have kr := key (fun e => e.nr env) (by simp only [Expr.nr])
      (fun il ir => by have := h1 il ir; simp only [shape, il, ir, if_true, Option.some.injEq,
                        Prod.mk.injEq] at this; exact this.1)
      (fun il => by obtain ⟨⟨a, b, h, _⟩, _⟩ := ihl cl il; exact ⟨a, h⟩)
      (fun ir => by obtain ⟨⟨a, b, h, _⟩, _⟩ := ihr cr ir; exact ⟨a, h⟩)
    have kc := key (fun e => e.nc env) (by simp only [Expr.nc])
      (fun il ir => by have := h1 il ir; simp only [shape, il, ir, if_true, Option.some.injEq,
                        Prod.mk.injEq] at this; exact this.2)
      (fun il => by obtain ⟨⟨a, b, _, h, _⟩, _⟩ := ihl cl il; exact ⟨b, h⟩)
      (fun ir => by obtain ⟨⟨a, b, _, h, _⟩, _⟩ := ihr cr ir; exact ⟨b, h⟩)
    refine ⟨?_, ?_⟩
    · rcases (C24_matrix_iff env f l r).mp him with il | ir
      · obtain ⟨⟨a, b, ha, hb, hab⟩, _⟩ := ihl cl il
        refine ⟨a, b, by rw [kr.1 il, ha], by rw [kc.1 il, hb], ?_⟩
        rw [hsz, hab]
        cases ir : r.im env with
        | true =>
          obtain ⟨⟨a', b', ha', hb', hab'⟩, _⟩ := ihr cr ir
          have := h1 il ir
          simp only [shape, il, ir, if_true, Option.some.injEq, Prod.mk.injEq] at this
          rw [ha, ha', hb, hb'] at this
          simp only [Out.ok.injEq] at this
          rw [← hab', ← this.1, ← this.2, hab]; simp
        | false => have := h2 il ir; omega
      · obtain ⟨⟨a, b, ha, hb, hab⟩, _⟩ := ihr cr ir
        refine ⟨a, b, by rw [kr.2 ir, ha], by rw [kc.2 ir, hb], ?_⟩
        rw [hsz, hab]
        cases il : l.im env with
        | true =>
          obtain ⟨⟨a', b', ha', hb', hab'⟩, _⟩ := ihl cl il
          have := h1 il ir
          simp only [shape, il, ir, if_true, Option.some.injEq, Prod.mk.injEq] at this
          rw [ha, ha', hb, hb'] at this
          simp only [Out.ok.injEq] at this
          rw [← hab', this.1, this.2, hab]; simp
        | false => have := h3 il ir; omega
    · intro f' l' r' he
      simp only [Expr.bin.injEq] at he
      obtain ⟨_, rfl, rfl⟩ := he
      constructor
      · intro il; simp only [shape, him, il, if_true]; rw [kr.1 il, kc.1 il]
      · intro ir; simp only [shape, him, ir, if_true]; rw [kr.2 ir, kc.2 ir]

/-- Matrix plus vector plus matrix: the hypotheses hold. -/
example : let env := listEnv [[1, 2, 3, 4, 5, 6], [10, 20]] [⟨true, 2, 3⟩]
    let e : Expr Int := .bin (fun a b => .ok (a + b)) (.bin (fun a b => .ok (a + b)) (.leaf 0)
      (.leaf 1)) (.leaf 0)
    e.im env = true ∧ e.nr env = .ok 2 ∧ e.nc env = .ok 3 ∧ Conformable env e := by
  refine ⟨by decide, by decide, by decide, ?_⟩
  simp [Conformable, shape, Expr.im, Expr.size, Expr.nr, Expr.nc, Expr.isScal, listEnv]

/-- C24 is false for matrices of different shape: a `2×3` plus a `3×2` matrix is not rejected and
claims to be `3×3` although it has 6 elements. -/
theorem C24_false_nonconformable :
    let env := listEnv [[1, 2, 3, 4, 5, 6], [1, 2, 3, 4, 5, 6]] [⟨true, 2, 3⟩, ⟨true, 3, 2⟩]
    let e : Expr Int := .bin (fun a b => .ok (a + b)) (.leaf 0) (.leaf 1)
    e.im env = true ∧ e.nr env = .ok 3 ∧ e.nc env = .ok 3 ∧ e.size env = 6 := by decide

/-- C24 is also false for a vector longer than the matrix. -/
theorem C24_false_long_vector :
    let env := listEnv [[1, 2, 3, 4], [1, 2, 3, 4, 5]] [⟨true, 2, 2⟩]
    let e : Expr Int := .bin (fun a b => .ok (a + b)) (.leaf 0) (.leaf 1)
    e.im env = true ∧ e.nr env = .ok 2 ∧ e.nc env = .ok 2 ∧ e.size env = 5 := by decide

/-! ## C25 unary functions -/

/-- C25 (partial: without the dimensions).  A unary function of any expression whose elements are
`l` has the length of `l` and element `i` is `f l[i]`. -/
theorem C25_elementwise_partial (env : Env V) (e : Expr V) (l : List V) (f : V → Out V)
    (hz : e.size env = l.length) (he : ∀ i (hi : i < l.length), e.el env i = .ok l[i]) :
    (Expr.un f e).size env = l.length ∧
    ∀ i (hi : i < l.length), (Expr.un f e).el env i = f l[i] := by
  refine ⟨by simpa [Expr.size] using hz, fun i hi => ?_⟩
  have hl : l ≠ [] := List.length_pos_iff.mp (by omega)
  simp only [Expr.el]
  rw [← bind_assoc, posOf_el hl hz he i, Out.ok_bind]
  simp [Nat.mod_eq_of_lt hi]

example : (Expr.un (fun a : Int => .ok (-a)) (.leaf 0)).el (listEnv [[1, 2, 3, 4]]) 2 = .ok (-3) :=
  (C25_elementwise_partial (listEnv [[1, 2, 3, 4]]) (.leaf 0) [1, 2, 3, (4 : Int)] (fun a => .ok (-a)) (by decide) (by decide)).2 2 (by decide)

/-- C25 is false for the dimensions: a unary function of a matrix is not a matrix. -/
theorem C25_false_dims (env : Env V) (f : V → Out V) (x : Nat) (_ : (env.mp x).im = true) :
    (Expr.un f (.leaf x)).im env = false := rfl

example : let env := listEnv [[1, 2, 3, 4]] [⟨true, 2, 2⟩]
    (Expr.leaf 0 : Expr Int).im env = true ∧
    (Expr.un (fun a : Int => .ok (-a)) (.leaf 0)).im env = false ∧
    (Expr.un (fun a : Int => .ok (-a)) (.leaf 0)).el env 2 = .ok (-3) := by decide

end ETR
