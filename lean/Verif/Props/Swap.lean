import Verif.Props.Fusion
import Verif.Props.Missing

/-!
# Exchanging the operands of a commutative operation

`a + b` and `b + a`, `a * b` and `b * a`, `a < b` and `b > a` are interchangeable anywhere in an
expression: whenever the statement with one of them succeeds, the statement with the other one succeeds
too and leaves exactly the same state behind, that is the same elements, the same sizes, the same matrix
dimensions and the same memory.  The code treats its two operands by separate branches (scalar on the
left, scalar on the right, two vectors) for the length, the matrix flag, the numbers of rows and columns
and the elements, so that this depends on eight case distinctions being mirror images of each other:
`/repo/include/etr_bits/BinaryCalculations.hpp` 32-120.
-/

namespace ETR

namespace Spec

/-- `e'` is `e` with the operands of some operations exchanged, where the operation that takes its operands
in the other order is `g`. -/
inductive Swap {V : Type} : Expr V → Expr V → Prop
  | refl (e : Expr V) : Swap e e
  | swap {f g : V → V → Out V} (h : ∀ a b v, f a b = .ok v → g b a = .ok v) (l r : Expr V) : Swap (.bin f l r) (.bin g r l)
  | un (f : V → Out V) {e e' : Expr V} : Swap e e' → Swap (.un f e) (.un f e')
  | bin (f : V → V → Out V) {l l' r r' : Expr V} : Swap l l' → Swap r r' → Swap (.bin f l r) (.bin f l' r')
  | sub {e e' : Expr V} (ind : List Nat) (mp : MP) : Swap e e' → Swap (.sub e ind mp) (.sub e' ind mp)
  | trans {e e' e'' : Expr V} : Swap e e' → Swap e' e'' → Swap e e''

/-- The same statement, with operands exchanged inside of its expression. -/
inductive SwapCmd {V : Type} : Cmd V → Cmd V → Prop
  | refl (c : Cmd V) : SwapCmd c c
  | declExpr (conv : V → Out V) {e e' : Expr V} : Swap e e' → SwapCmd (.declExpr conv e) (.declExpr conv e')
  | assign (conv : V → Out V) (x : Nat) {e e' : Expr V} : Swap e e' → SwapCmd (.assign conv x e) (.assign conv x e')
  | subAssign (conv : V → Out V) (same : Bool) (x : Nat) (ind : List Nat) {e e' : Expr V} :
    Swap e e' → SwapCmd (.subAssign conv same x ind e) (.subAssign conv same x ind e')

/-- All operations of the list succeed and lead from the first to the second state. -/
inductive AllOk {V : Type} (zero : V) : List (Cmd V) → Mach V → Mach V → Prop
  | nil (s : Mach V) : AllOk zero [] s s
  | cons {c : Cmd V} {cs : List (Cmd V)} {s s1 s2 : Mach V} : Mach.exec zero c s = (.ok (), s1) → AllOk zero cs s1 s2 →
    AllOk zero (c :: cs) s s2

/-- The operator that takes its operands in the other order. -/
inductive Mirror : BinO → BinO → Prop
  | plus : Mirror .plus .plus
  | times : Mirror .times .times
  | lt : Mirror .lt .gt
  | gt : Mirror .gt .lt
  | le : Mirror .le .ge
  | ge : Mirror .ge .le

/-- Formulas with operands of `+`, `*`, `<`, `>`, `<=`, `>=` exchanged (comparisons are mirrored). -/
inductive TSwap : TForm → TForm → Prop
  | refl (e : TForm) : TSwap e e
  | swap {o o' : BinO} (h : Mirror o o') (l r : TForm) : TSwap (.bin o l r) (.bin o' r l)
  | un (o : UnO) {e e' : TForm} : TSwap e e' → TSwap (.un o e) (.un o e')
  | bin (o : BinO) {l l' r r' : TForm} : TSwap l l' → TSwap r r' → TSwap (.bin o l r) (.bin o l' r')
  | sub {e e' : TForm} (ind : List Nat) (mp : MP) : TSwap e e' → TSwap (.sub e ind mp) (.sub e' ind mp)
  | trans {e e' e'' : TForm} : TSwap e e' → TSwap e' e'' → TSwap e e''

end Spec

section
variable {V : Type}

/-- Everything that succeeds with `m` succeeds with `m'`, with the same result and the same state. -/
def SameOk {σ α : Type} (m m' : M σ α) : Prop := ∀ s a s', m s = (.ok a, s') → m' s = (.ok a, s')

namespace SameOk
variable {σ α β : Type}

theorem rfl' (m : M σ α) : SameOk m m := fun _ _ _ h => h

theorem bind {m m' : M σ α} {f f' : α → M σ β} (hm : SameOk m m') (hf : ∀ a, SameOk (f a) (f' a)) : SameOk (m >>= f) (m' >>= f') := by
  intro s b s' h
  rw [M.bind_apply] at h
  rcases hms : m s with ⟨o, s1⟩
  rw [hms] at h
  cases o with
  | ok a =>
    rw [M.bind_ok (hm _ _ _ hms)]
    exact hf a _ _ _ h
  | thr e => simp at h
  | ub k => simp at h

/-- The continuation may use the state that was read. -/
theorem get_bind {f f' : σ → M σ β} (hf : ∀ s b s', f s s = (.ok b, s') → f' s s = (.ok b, s')) :
    SameOk ((M.get : M σ σ) >>= f) ((M.get : M σ σ) >>= f') := by
  intro s b s' h
  rw [M.bind_ok (M.get_apply s)] at h ⊢
  exact hf s b s' h

theorem ass {c c' : Prop} [hc : Decidable c] [hc' : Decidable c'] {m : String} (h : c ↔ c') :
    SameOk (M.ass c m : M σ Unit) (M.ass c' m) := by
  have e : c = c' := propext h
  subst e
  have : hc = hc' := Subsingleton.elim _ _
  subst this
  exact rfl' _

theorem forN {f f' : Nat → M σ Unit} (h : ∀ i, SameOk (f i) (f' i)) (n : Nat) : SameOk (M.forN n f) (M.forN n f') := by
  induction n with
  | zero => exact rfl' _
  | succ n ih => rw [M.forN_succ, M.forN_succ]; exact bind ih (fun _ => h n)

end SameOk

/-- Everything that succeeds with `a` succeeds with `b`. -/
def OutSame {α : Type} (a b : Out α) : Prop := ∀ v, a = .ok v → b = .ok v

theorem OutSame.bind {α β : Type} {a b : Out α} {f g : α → Out β} (h : OutSame a b) (hf : ∀ v, OutSame (f v) (g v)) :
    OutSame (a >>= f) (b >>= g) := by
  intro v hv
  obtain ⟨w, hw, hv⟩ := bind_eq_ok hv
  rw [h w hw]; exact hf w v hv

/-- What an assignment sees of an expression. -/
structure ExprSame (e e' : Expr V) : Prop where
  scal : e.isScal = e'.isScal
  size : ∀ env, e.size env = e'.size env
  im : ∀ env, e.im env = e'.im env
  nr : ∀ env, e.im env = true → OutSame (e.nr env) (e'.nr env)
  nc : ∀ env, e.im env = true → OutSame (e.nc env) (e'.nc env)
  el : ∀ env i, OutSame (e.el env i) (e'.el env i)

theorem swap_two {f : Nat → Nat → Nat} (hf : ∀ a b, f a b = f b a) (p q : Out Nat) :
    OutSame (do let a ← p; let b ← q; return f a b) (do let a ← q; let b ← p; return f a b) := by
  intro v hv
  obtain ⟨a, ha, h1⟩ := bind_eq_ok hv
  obtain ⟨b, hb, h2⟩ := bind_eq_ok h1
  rw [ha, hb]
  simp only [Out.ok_bind]
  rw [hf]; exact h2

theorem larger_comm (a b : Nat) : (if a > b then a else b) = if b > a then b else a := by split <;> split <;> omega

theorem Spec.Swap.same {e e' : Expr V} (h : Spec.Swap e e') : ExprSame e e' := by
  induction h with
  | refl e => exact ⟨rfl, fun _ => rfl, fun _ => rfl, fun _ _ _ h => h, fun _ _ _ h => h, fun _ _ _ h => h⟩
  | trans _ _ i j =>
    exact ⟨i.scal.trans j.scal, fun env => (i.size env).trans (j.size env), fun env => (i.im env).trans (j.im env),
      fun env h v hv => j.nr env (i.im env ▸ h) v (i.nr env h v hv),
      fun env h v hv => j.nc env (i.im env ▸ h) v (i.nc env h v hv),
      fun env k v hv => j.el env k v (i.el env k v hv)⟩
  | sub ind mp _ i =>
    refine ⟨rfl, fun _ => rfl, fun _ => rfl, fun _ _ _ h => h, fun _ _ _ h => h, fun env k => ?_⟩
    simp only [Expr.el, i.size env]
    exact OutSame.bind (fun _ h => h) (fun _ => OutSame.bind (fun _ h => h) (fun j => i.el env j))
  | un f _ i =>
    refine ⟨rfl, fun env => i.size env, fun _ => rfl, fun _ h => by simp [Expr.im] at h, fun _ h => by simp [Expr.im] at h, fun env k => ?_⟩
    simp only [Expr.el, i.size env, i.scal]
    exact OutSame.bind (fun _ h => h) (fun j => OutSame.bind (i.el env j) (fun _ _ h => h))
  | bin f _ _ i j =>
    refine ⟨rfl, fun env => ?_, fun env => ?_, fun env h => ?_, fun env h => ?_, fun env k => ?_⟩
    · simp only [Expr.size, i.size env, j.size env, i.scal, j.scal]
    · rw [Mach.bin_im, Mach.bin_im, i.im, j.im]
    · rw [Mach.bin_im] at h
      have h' := h
      rw [i.im, j.im] at h'
      rw [Mach.bin_nr h, Mach.bin_nr h', ← i.im, ← j.im]
      split
      · rename_i hb
        rw [Bool.and_eq_true] at hb
        exact OutSame.bind (i.nr env hb.1) (fun _ => OutSame.bind (j.nr env hb.2) (fun _ _ h => h))
      · split
        · rename_i hb; exact j.nr env hb
        · rename_i hb; exact i.nr env (by simpa [hb] using h)
    · rw [Mach.bin_im] at h
      have h' := h
      rw [i.im, j.im] at h'
      rw [Mach.bin_nc h, Mach.bin_nc h', ← i.im, ← j.im]
      split
      · rename_i hb
        rw [Bool.and_eq_true] at hb
        exact OutSame.bind (i.nc env hb.1) (fun _ => OutSame.bind (j.nc env hb.2) (fun _ _ h => h))
      · split
        · rename_i hb; exact j.nc env hb
        · rename_i hb; exact i.nc env (by simpa [hb] using h)
    · simp only [Expr.el, i.size env, j.size env, i.scal, j.scal]
      exact OutSame.bind (fun _ h => h) (fun p => OutSame.bind (i.el env p) (fun _ => OutSame.bind (fun _ h => h)
        (fun q => OutSame.bind (j.el env q) (fun _ _ h => h))))
  | @swap f g h l r =>
    refine ⟨rfl, fun env => ?_, fun env => ?_, fun env hi => ?_, fun env hi => ?_, fun env k => ?_⟩
    · simp only [Expr.size]
      cases hl : l.isScal <;> cases hr : r.isScal <;> simp
      split <;> split <;> omega
    · rw [Mach.bin_im, Mach.bin_im, Bool.or_comm]
    · rw [Mach.bin_im] at hi
      have hi' := hi
      rw [Bool.or_comm] at hi'
      rw [Mach.bin_nr hi, Mach.bin_nr hi']
      cases hl : l.im env <;> cases hr : r.im env
      · simp [hl, hr] at hi
      · exact fun _ h => by simpa using h
      · exact fun _ h => by simpa using h
      · simp only [Bool.and_self, if_true]
        exact swap_two larger_comm _ _
    · rw [Mach.bin_im] at hi
      have hi' := hi
      rw [Bool.or_comm] at hi'
      rw [Mach.bin_nc hi, Mach.bin_nc hi']
      cases hl : l.im env <;> cases hr : r.im env
      · simp [hl, hr] at hi
      · exact fun _ h => by simpa using h
      · exact fun _ h => by simpa using h
      · simp only [Bool.and_self, if_true]
        exact swap_two larger_comm _ _
    · intro v hv
      simp only [Expr.el] at hv ⊢
      obtain ⟨p, hp, h1⟩ := bind_eq_ok hv
      obtain ⟨a, ha, h2⟩ := bind_eq_ok h1
      obtain ⟨q, hq, h3⟩ := bind_eq_ok h2
      obtain ⟨b, hb, h4⟩ := bind_eq_ok h3
      rw [hp, hq]
      simp only [Out.ok_bind]
      rw [ha, hb]
      simp only [Out.ok_bind]
      exact h a b v h4

namespace Mach
open SameOk

theorem same_fillTemp (zero : V) (conv : V → Out V) (t : Nat) {e e' : Expr V} (h : ExprSame e e') :
    SameOk (fillTemp zero conv t e) (fillTemp zero conv t e') := by
  refine SameOk.bind (rfl' _) (fun s => ?_)
  simp only [h.size]
  refine SameOk.bind (rfl' _) (fun _ => SameOk.forN (fun i => SameOk.bind ?_ (fun v => rfl' _)) _)
  intro s a s' hs
  rw [M.reads_apply] at hs ⊢
  injection hs with h1 h2
  rw [h.el _ _ _ h1, h2]

theorem same_setDims (x : Nat) {e e' : Expr V} (h : ExprSame e e') : SameOk (setDims x e) (setDims x e') := by
  refine SameOk.bind (rfl' _) (fun s => ?_)
  cases hi : e.im s.env with
  | false =>
    have hi' := h.im s.env ▸ hi
    simp only [hi', Bool.false_eq_true, if_false]
    exact rfl' _
  | true =>
    have hi' := h.im s.env ▸ hi
    simp only [hi', if_true]
    refine SameOk.bind ?_ (fun r => SameOk.bind ?_ (fun c => rfl' _))
    · intro s1 a s' hs
      rw [M.lift_apply] at hs ⊢
      injection hs with h1 h2
      rw [h.nr _ hi _ h1, h2]
    · intro s1 a s' hs
      rw [M.lift_apply] at hs ⊢
      injection hs with h1 h2
      rw [h.nc _ hi _ h1, h2]

theorem same_assign (zero : V) (conv : V → Out V) (x : Nat) {e e' : Expr V} (h : ExprSame e e') :
    SameOk (assign zero conv x e) (assign zero conv x e') := by
  refine SameOk.bind (rfl' _) (fun s => ?_)
  split
  · refine SameOk.bind (rfl' _) (fun s1 => SameOk.bind (SameOk.ass (by rw [h.size])) (fun _ =>
      SameOk.bind (same_fillTemp zero conv x h) (fun _ => SameOk.bind (rfl' _) (fun s2 =>
      SameOk.bind (SameOk.ass (by rw [h.size])) (fun _ => ?_)))))
    simp only [h.size]
    exact SameOk.bind (rfl' _) (fun _ => SameOk.bind (rfl' _) (fun _ => SameOk.bind (rfl' _) (fun _ => same_setDims x h)))
  · exact SameOk.bind (same_fillTemp zero conv x h) (fun _ => SameOk.bind (rfl' _) (fun _ => same_setDims x h))

theorem same_decl {b b' : Nat → M (Mach V) Unit} (h : ∀ x, SameOk (b x) (b' x)) : SameOk (decl b) (decl b') := by
  intro s a s' hs
  unfold decl at hs ⊢
  rcases hb : b s.n { s with n := s.n + 1 } with ⟨o, s1⟩
  rw [hb] at hs
  cases o with
  | ok u => rw [h _ _ _ _ hb]; exact hs
  | thr m =>
    simp only at hs
    rw [M.bind_apply] at hs
    rcases hd : destroy s.n s1 with ⟨o, s2⟩
    rw [hd] at hs
    cases o <;> simp at hs
  | ub k => simp at hs

theorem same_withTmp {b b' : Nat → M (Mach V) Unit} (h : ∀ x, SameOk (b x) (b' x)) : SameOk (withTmp b) (withTmp b') := by
  intro s a s' hs
  unfold withTmp at hs ⊢
  rcases hb : b s.n { s with n := s.n + 1 } with ⟨o, s1⟩
  rw [hb] at hs
  cases o with
  | ok u => rw [h _ _ _ _ hb]; exact hs
  | thr m =>
    simp only at hs
    rw [M.bind_apply] at hs
    rcases hd : destroy s.n s1 with ⟨o, s2⟩
    rw [hd] at hs
    cases o <;> simp at hs
  | ub k => simp at hs

theorem same_declExpr (zero : V) (conv : V → Out V) {e e' : Expr V} (h : ExprSame e e') :
    SameOk (declExpr zero conv e) (declExpr zero conv e') := by
  refine same_decl (fun x => ?_)
  have key : ∀ n : Nat, SameOk (M.forN n (fun i => do
      let v ← M.reads (fun s => e.el s.env i)
      let w ← M.lift (conv v)
      onSlot (x, false) (Store.set i w))) (M.forN n (fun i => do
      let v ← M.reads (fun s => e'.el s.env i)
      let w ← M.lift (conv v)
      onSlot (x, false) (Store.set i w))) := by
    refine fun n => SameOk.forN (fun i => SameOk.bind ?_ (fun v => rfl' _)) n
    intro s a s' hs
    rw [M.reads_apply] at hs ⊢
    injection hs with h1 h2
    rw [h.el _ _ _ h1, h2]
  refine SameOk.bind (rfl' _) (fun s => ?_)
  rw [h.size]
  split
  · exact SameOk.bind (rfl' _) (fun _ => SameOk.bind (rfl' _) (fun _ => SameOk.bind (key _) (fun _ => same_setDims x h)))
  · exact SameOk.bind (rfl' _) (fun _ => SameOk.bind (rfl' _) (fun _ => SameOk.bind (key _) (fun _ => same_setDims x h)))

theorem same_subAssign (zero : V) (conv : V → Out V) (same : Bool) (x : Nat) (ind : List Nat) {e e' : Expr V}
    (h : ExprSame e e') : SameOk (subAssign zero conv same x ind e) (subAssign zero conv same x ind e') := by
  refine same_withTmp (fun t => ?_)
  exact SameOk.bind (rfl' _) (fun s => SameOk.bind (SameOk.ass (by rw [h.size])) (fun _ => SameOk.bind (same_fillTemp zero conv t h) (fun _ => rfl' _)))

theorem same_exec (zero : V) {c c' : Cmd V} (h : Spec.SwapCmd c c') : SameOk (exec zero c) (exec zero c') := by
  cases h with
  | refl => exact rfl' _
  | declExpr conv h => exact same_declExpr zero conv h.same
  | assign conv x h => exact same_assign zero conv x h.same
  | subAssign conv same x ind h => exact same_subAssign zero conv same x ind h.same

end Mach
end

namespace F64

theorem add_comm' : ∀ x y : F64, add x y = add y x
  | nan, nan => rfl
  | nan, inf _ => rfl
  | nan, fin _ => rfl
  | inf _, nan => rfl
  | fin _, nan => rfl
  | inf a, inf b => by cases a <;> cases b <;> rfl
  | inf _, fin _ => rfl
  | fin _, inf _ => rfl
  | fin p, fin q => by simp only [add]; rw [add_comm]

theorem mul_comm' : ∀ x y : F64, mul x y = mul y x
  | nan, nan => rfl
  | nan, inf _ => rfl
  | nan, fin _ => rfl
  | inf _, nan => rfl
  | fin _, nan => rfl
  | inf a, inf b => by cases a <;> cases b <;> rfl
  | inf a, fin q => by simp only [mul]; cases a <;> cases decide (q < 0) <;> rfl
  | fin q, inf a => by simp only [mul]; cases a <;> cases decide (q < 0) <;> rfl
  | fin p, fin q => by simp only [mul]; rw [mul_comm]

theorem abs_rnd_neg (q : ℚ) : abs (rnd (-q)) = abs (rnd q) := by
  unfold rnd
  simp only [rndQ_neg, abs_neg]
  split <;> simp [abs]

theorem abs_sub_comm' : ∀ x y : F64, abs (sub x y) = abs (sub y x)
  | nan, nan => rfl
  | nan, inf _ => rfl
  | nan, fin _ => rfl
  | inf _, nan => rfl
  | fin _, nan => rfl
  | inf a, inf b => by cases a <;> cases b <;> rfl
  | inf _, fin _ => rfl
  | fin _, inf _ => rfl
  | fin p, fin q => by
    show abs (rnd (p + -q)) = abs (rnd (q + -p))
    rw [← abs_rnd_neg]; congr 2; ring

end F64

namespace Trait

theorem arith_swap {fi : Int → Int → Int} {fd : F64 → F64 → F64} (hi : ∀ a b, fi a b = fi b a) (hd : ∀ a b, fd a b = fd b a)
    (l r : Scal) : arith fi fd l r = arith fi fd r l := by
  unfold arith
  cases hl : l.int? <;> cases hr : r.int? <;> simp only [hd l.toD, hi]
  rw [Bool.and_comm]

theorem mirror {o o' : BinO} (h : Spec.Mirror o o') (a b : Scal) : o.f a b = o'.f b a := by
  cases h with
  | plus => exact arith_swap Int.add_comm F64.add_comm' a b
  | times => exact arith_swap Int.mul_comm F64.mul_comm' a b
  | lt => simp only [BinO.f, smaller, larger, cmp]; cases a.int? <;> cases b.int? <;> rfl
  | gt => simp only [BinO.f, smaller, larger, cmp]; cases a.int? <;> cases b.int? <;> rfl
  | le => simp only [BinO.f, smallerEqual, largerEqual, cmp]; cases a.int? <;> cases b.int? <;> rfl
  | ge => simp only [BinO.f, smallerEqual, largerEqual, cmp]; cases a.int? <;> cases b.int? <;> rfl

end Trait

theorem Spec.TSwap.retTy {e e' : TForm} (h : Spec.TSwap e e') : e.retTy = e'.retTy := by
  induction h with
  | trans _ _ i j => exact i.trans j
  | _ => rfl

theorem Spec.TSwap.conv {e e' : TForm} (h : Spec.TSwap e e') : e.conv = e'.conv := by
  induction h with
  | trans _ _ i j => exact i.trans j
  | sub ind mp h => funext v; simp only [TForm.conv, Spec.TSwap.retTy h]
  | _ => rfl

theorem Spec.TSwap.toExpr {e e' : TForm} (h : Spec.TSwap e e') : Spec.Swap e.toExpr e'.toExpr := by
  induction h with
  | refl e => exact .refl _
  | trans _ _ i j => exact .trans i j
  | swap h l r => exact .swap (fun a b v hv => by rw [← hv]; exact (Trait.mirror h _ _).symm) _ _
  | un o h i => simp only [TForm.toExpr, h.conv]; exact .un _ i
  | bin o h h' i j => simp only [TForm.toExpr, h.conv, h'.conv]; exact .bin _ i j
  | sub ind mp h i => exact .sub ind mp i

/-- C102.  For all programs, states and element functions: a program in which operands of mirrored operations are exchanged in any
number of statements leads to exactly the same state as the original one, if the original one succeeds.  Missing: which of two errors is
reported when both operands fail, which depends on the order of evaluation that C++ leaves open. -/
theorem C102_partial {V : Type} (zero : V) {cs cs' : List (Cmd V)} (h : List.Forall₂ Spec.SwapCmd cs cs') {s s' : Mach V}
    (hs : Spec.AllOk zero cs s s') : Spec.AllOk zero cs' s s' ∧ Mach.runAll zero cs' s = (none, s') := by
  induction h generalizing s with
  | nil => cases hs; exact ⟨.nil _, rfl⟩
  | cons hc _ ih =>
    cases hs with
    | cons h1 h2 =>
      have h3 := Mach.same_exec zero hc _ _ _ h1
      obtain ⟨i1, i2⟩ := ih h2
      refine ⟨.cons h3 i1, ?_⟩
      rw [Mach.runAll, h3]; exact i2

/-- C102 for the operators of the library and the element types `bool`, `int` and `double`: in `x = e;` the operands of `+`, `*`, `<`,
`>`, `<=` and `>=` can be exchanged anywhere in `e`, for a target of every element type. -/
theorem C102_typed_partial {e e' : TForm} (h : Spec.TSwap e e') (zero : Scal) (t : Ty) (x : Nat) {s s' : Mach Scal}
    (hs : Mach.exec zero (.assign (fun v => (e.conv v).to e.retTy >>= fun w => w.to t) x e.toExpr) s = (.ok (), s')) :
    Mach.exec zero (.assign (fun v => (e'.conv v).to e'.retTy >>= fun w => w.to t) x e'.toExpr) s = (.ok (), s') := by
  rw [← h.conv, ← h.retTy]
  exact Mach.same_exec zero (.assign _ x h.toExpr) _ _ _ hs

/-- C102 for `==` and `!=`: the operands can be exchanged unless both are integers. -/
theorem C102_equal_partial {a b : Scal} (h : a.int? = none ∨ b.int? = none) :
    BinO.f .eq a b = BinO.f .eq b a ∧ BinO.f .ne a b = BinO.f .ne b a := by
  have hd : ∃ z w, Trait.diff a b = .ok z ∧ Trait.diff b a = .ok w ∧ F64.abs z = F64.abs w := by
    refine ⟨F64.sub a.toD b.toD, F64.sub b.toD a.toD, ?_, ?_, F64.abs_sub_comm' _ _⟩
    · unfold Trait.diff; rcases h with h | h <;> rw [h]
      cases a.int? <;> rfl
    · unfold Trait.diff; rcases h with h | h <;> rw [h]
      cases b.int? <;> rfl
  obtain ⟨z, w, h1, h2, h3⟩ := hd
  constructor <;> simp [BinO.f, Trait.equal, Trait.unequal, h1, h2, h3]

/-- C102 for `==` and `!=` of integers, exactly: the operands can be exchanged unless they differ by `2^31`. -/
theorem C102_equal_characterised (a b : Int) :
    (BinO.f .eq (.i a) (.i b) = BinO.f .eq (.i b) (.i a) ↔ |a - b| ≠ 2 ^ 31) ∧
    (BinO.f .ne (.i a) (.i b) = BinO.f .ne (.i b) (.i a) ↔ |a - b| ≠ 2 ^ 31) := by
  have habs : F64.abs (F64.ofInt (b - a)) = F64.abs (F64.ofInt (a - b)) := by
    unfold F64.ofInt
    rw [show ((b - a : Int) : ℚ) = -((a - b : Int) : ℚ) by push_cast; ring, F64.abs_rnd_neg]
  have ok : ∀ x y : Int, InI32 (x - y) → Trait.diff (.i x) (.i y) = .ok (F64.ofInt (x - y)) := by
    intro x y h; show (ckI32 (x - y) >>= _) = _; unfold ckI32; rw [if_pos h]; rfl
  have bad : ∀ x y : Int, ¬ InI32 (x - y) → Trait.diff (.i x) (.i y) = .ub .intOverflow := by
    intro x y h; show (ckI32 (x - y) >>= _) = _; unfold ckI32; rw [if_neg h]; rfl
  have hiff : |a - b| ≠ 2 ^ 31 ↔ (InI32 (a - b) ↔ InI32 (b - a)) := by
    unfold InI32
    rcases abs_cases (a - b) with ⟨e, _⟩ | ⟨e, _⟩ <;> rw [e] <;> omega
  rw [hiff]
  by_cases h1 : InI32 (a - b) <;> by_cases h2 : InI32 (b - a)
  · simp [BinO.f, Trait.equal, Trait.unequal, ok a b h1, ok b a h2, habs, h1, h2]
  · simp [BinO.f, Trait.equal, Trait.unequal, ok a b h1, bad b a h2, h1, h2]
  · simp [BinO.f, Trait.equal, Trait.unequal, bad a b h1, ok b a h2, h1, h2]
  · simp [BinO.f, Trait.equal, Trait.unequal, bad a b h1, bad b a h2, h1, h2]

/-- C102 is false for `==` of integers: with the smallest `int` on the left the comparison with 0 is `false`, with the smallest `int` on
the right it overflows.  (The difference of the operands is formed in `int`.) -/
theorem C102_equal_false :
    BinO.f .eq (.i (-2147483648)) (.i 0) = .ok (.b false) ∧ BinO.f .eq (.i 0) (.i (-2147483648)) = .ub .intOverflow := by
  decide +kernel

/-- `x = a + b * 2` and `x = 2 * b + a` for a matrix `a` and a shorter vector `b`. -/
example :
    let two : Nat → Nat → Out Nat := fun a b => .ok (a + b)
    let mul : Nat → Nat → Out Nat := fun a b => .ok (a * b)
    let cs (e : Expr Nat) : List (Cmd Nat) := [.declMatVal 2 2 7, .declTemp [1, 2] {}, .declDefault, .assign .ok 3 e]
    let r (e : Expr Nat) := (Mach.runAll 0 (cs e) Mach.start).2
    let e1 := Expr.bin two (.leaf 0) (.bin mul (.leaf 2) (.scal 2))
    let e2 := Expr.bin two (.bin mul (.scal 2) (.leaf 2)) (.leaf 0)
    (List.range 4).map (fun i => (r e1).env.get 3 i) = [.ok 9, .ok 11, .ok 9, .ok 11] ∧
    (List.range 4).map (fun i => (r e2).env.get 3 i) = [.ok 9, .ok 11, .ok 9, .ok 11] ∧
    ((r e2).env.mp 3).nr = 2 := by
  decide +kernel

/-- `x = x + y` and `x = y + x`. -/
example : ∃ s', Mach.runAll 0 [.declTemp [1, 2] {}, .assign .ok 1 (.bin (fun a b => .ok (a + b)) (.scal 3) (.leaf 1))] Mach.start = (none, s') ∧
    (List.range 2).map (s'.env.get 1) = [.ok 4, .ok 5] := by
  have e1 : Mach.exec (0 : Nat) (.declTemp [1, 2] {}) Mach.start = (.ok (), _) := Prod.ext (by decide +kernel) rfl
  have e2 : Mach.exec (0 : Nat) (.assign .ok 1 (.bin (fun a b => .ok (a + b)) (.leaf 1) (.scal 3)))
    (Mach.exec (0 : Nat) (.declTemp [1, 2] {}) Mach.start).2 = (.ok (), _) := Prod.ext (by decide +kernel) rfl
  refine ⟨_, (C102_partial 0 (.cons (.refl _) (.cons (.assign .ok 1 (.swap ?_ _ _)) .nil)) (.cons e1 (.cons e2 (.nil _)))).2, by decide +kernel⟩
  intro a b v h
  cases h
  simp [Nat.add_comm]

/-- `x = x < 2` and `x = 2 > x` for the integers (1, 3). -/
example : ∃ s', Mach.exec (.i 0) (.assign (fun v => ((TForm.bin .gt (.scal (.i 2)) (.leaf .int 1)).conv v).to
      (TForm.bin .gt (.scal (.i 2)) (.leaf .int 1)).retTy >>= fun w => w.to .int) 1 (TForm.bin .gt (.scal (.i 2)) (.leaf .int 1)).toExpr)
      (Mach.exec (.i 0) (.declTemp [.i 1, .i 3] {}) Mach.start).2 = (.ok (), s') ∧ (List.range 2).map (s'.env.get 1) = [.ok (.i 1), .ok (.i 0)] :=
  ⟨_, C102_typed_partial (e := .bin .lt (.leaf .int 1) (.scal (.i 2))) (.swap .lt _ _) (.i 0) .int 1 (Prod.ext (by decide +kernel) rfl), by decide +kernel⟩

example : BinO.f .eq (.d (.fin 1)) (.i 2) = BinO.f .eq (.i 2) (.d (.fin 1)) := (C102_equal_partial (.inl rfl)).1

end ETR
