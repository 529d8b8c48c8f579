import Verif.Lemmas.DerivAssign

/-! Assignment of expressions over any arithmetic, and agreement of two states. -/

namespace ETR
open Spec
variable {T : Type}

namespace DExpr

theorem len_size {s : AV T} {E : Vals T} {D : DVar → List T} {e : DExpr} (h : Shows s E D e) : e.size s = E.len e := by
  induction e with
  | con c => exact (h (.con c) (by simp [leaves])).1
  | var x => exact (h (.var x) (by simp [leaves])).1.1
  | bin op l r hl hr =>
    rw [DExpr.size, Vals.len, hl (fun v hv => h v (by simp [leaves, hv])), hr (fun v hv => h v (by simp [leaves, hv]))]
    split <;> omega
  | sin e he => exact he h

theorem leaf_size {s : AV T} {E : Vals T} {D : DVar → List T} {e : DExpr} (h : Shows s E D e) {v : Leaf}
    (hv : v ∈ leaves e) : v.size s = (E.leaf v).length := by
  have := h v hv
  cases v with
  | con c => exact this.1
  | var x => exact this.1.1

/-- The operand elements at one index. -/
def ptOf (A : DArith T) (E : Vals T) (D : DVar → List T) (i : Nat) : Pt T where
  con c := (E.con c).getD (i % (E.con c).length) (A.lit 0)
  var x := (E.var x).getD (i % (E.var x).length) (A.lit 0)
  der x := (D x).getD (i % (D x).length) (A.lit 0)

theorem leaf_getD {b : Buf T} {l : List T} (h : b.Is l) (h0 : l.length ≠ 0) (i : Nat) (a : T) :
    leafVal b i = .ok (l.getD (i % l.length) a) := by
  rw [h.leaf h0, getD_lt _ _ (Nat.mod_lt _ (Nat.pos_of_ne_zero h0))]

theorem sees_shows {A : DArith T} {s : AV T} {E : Vals T} {D : DVar → List T} {e : DExpr} (h : Shows s E D e)
    (h0 : ∀ v ∈ leaves e, (E.leaf v).length ≠ 0) (i : Nat) : SeesAt s (ptOf A E D i) e i := by
  refine ⟨?_, ?_, ?_, ?_⟩
  · intro c hm
    exact leaf_getD (h _ hm) (h0 _ hm) i _
  · intro x hm
    exact leaf_getD (h _ hm).1 (h0 _ hm) i _
  · intro x hm
    obtain ⟨a, b, c⟩ := h _ hm
    rw [a.1, b.1, c]
  · intro x hm
    obtain ⟨a, b, c⟩ := h _ hm
    have := h0 _ hm
    exact leaf_getD b (by rw [c]; exact this) i _

theorem size_ne {s : AV T} {e : DExpr} (h0 : ∀ v ∈ leaves e, v.size s ≠ 0) : e.size s ≠ 0 := by
  obtain ⟨v, hv, ev⟩ := size_mem (s := s) (e := e)
  rw [ev]; exact h0 v hv

theorem elem_some {A : DArith T} {s : AV T} {E : Vals T} {D : DVar → List T} {e : DExpr} (h : Shows s E D e)
    (h0 : ∀ v ∈ leaves e, v.size s ≠ 0) : ∀ i, i < e.size s → ∃ v, e.elem A s i = .ok v := by
  induction e with
  | con c =>
    intro i hi
    have hc := h (.con c) (by simp [leaves])
    exact ⟨_, hc.2 i (by rw [size, hc.1] at hi; exact hi)⟩
  | var x =>
    intro i hi
    have hc := (h (.var x) (by simp [leaves])).1
    exact ⟨_, hc.2 i (by rw [size, hc.1] at hi; exact hi)⟩
  | bin op l r hl hr =>
    intro i _
    have hl0 : ∀ v ∈ leaves l, v.size s ≠ 0 := fun v hv => h0 v (by simp [leaves, hv])
    have hr0 : ∀ v ∈ leaves r, v.size s ≠ 0 := fun v hv => h0 v (by simp [leaves, hv])
    obtain ⟨x, ex⟩ := hl (fun v hv => h v (by simp [leaves, hv])) hl0 (i % l.size s)
      (Nat.mod_lt _ (Nat.pos_of_ne_zero (size_ne hl0)))
    obtain ⟨y, ey⟩ := hr (fun v hv => h v (by simp [leaves, hv])) hr0 (i % r.size s)
      (Nat.mod_lt _ (Nat.pos_of_ne_zero (size_ne hr0)))
    rw [elem, modIdx_ok (size_ne hl0), Out.ok_bind, ex, Out.ok_bind, modIdx_ok (size_ne hr0), Out.ok_bind, ey, Out.ok_bind]
    exact ⟨_, rfl⟩
  | sin e he =>
    intro i _
    have h0' : ∀ v ∈ leaves e, v.size s ≠ 0 := h0
    obtain ⟨x, ex⟩ := he h h0' (i % e.size s) (Nat.mod_lt _ (Nat.pos_of_ne_zero (size_ne h0')))
    rw [elem, modIdx_ok (size_ne h0'), Out.ok_bind, ex, Out.ok_bind]
    exact ⟨_, rfl⟩

theorem plain_bool {e : DExpr} (h : Plain e) : e.boolVal = false := by
  induction e with
  | con c => rfl
  | var x => rfl
  | bin op l r hl hr =>
    obtain ⟨ho, h1, h2⟩ := h
    rw [boolVal, hl h1]
    simp only [List.mem_cons, List.not_mem_nil, or_false] at ho
    rcases ho with rfl | rfl | rfl | rfl <;> rfl
  | sin e he => exact he h

theorem plain_boolDer {e : DExpr} (h : Plain e) : e.boolDer = false := by
  induction e with
  | con c => rfl
  | var x => rfl
  | bin op l r hl hr =>
    obtain ⟨ho, h1, h2⟩ := h
    simp only [List.mem_cons, List.not_mem_nil, or_false] at ho
    rcases ho with rfl | rfl | rfl | rfl
    · rw [boolDer, hl h1] <;> simp
    · rw [boolDer, hl h1] <;> simp
    · rw [boolDer, plain_bool h1]; rfl
    · rw [boolDer, plain_bool h1]; rfl
  | sin e he => exact he h

end DExpr

namespace AV

theorem assign_nonleaf {A : DArith T} {s : AV T} {x : DVar} {e : DExpr} (h : e.isLeaf = false) :
    assign A x e s = (do assignExpr A x e; setDims x e : M (AV T) Unit) s := by
  cases e <;> first | rfl | cases h

theorem im_congr {s s' : AV T} {e : DExpr} (hc : ∀ c, (s'.con c).mp = (s.con c).mp) (hv : ∀ x, (s'.val x).mp = (s.val x).mp) :
    e.im s' = e.im s := by
  induction e with
  | con c => rw [DExpr.im, DExpr.im, hc]
  | var x => rw [DExpr.im, DExpr.im, hv]
  | bin op l r hl hr => rw [DExpr.im, DExpr.im, hl, hr]
  | sin e _ => rfl

/-- Assignment of an expression that is not a single operand. -/
theorem assign_shows {A : DArith T} {s : AV T} {x : DVar} {E : Vals T} {D : DVar → List T} {e : DExpr}
    (hx : x.1 = .buffer) (hl : e.isLeaf = false) (h : Shows s E D e) (h0 : ∀ v ∈ leaves e, (E.leaf v).length ≠ 0)
    (h2 : E.len e ≤ 2 ^ 59) (hm : e.im s = false) (hself : Occurs x e → (E.var x).length = E.len e) :
    ∃ fv bv bd, (∀ i, i < E.len e → e.elem A s i = .ok (fv i)) ∧ assign A x e s = (.ok (), (s.putDer x bd).putVal x bv) ∧
      bv.Is ((List.range (E.len e)).map fv) ∧
      bd.Is ((List.range (E.len e)).map (fun i => e.gDer A (DExpr.ptOf A E D i))) := by
  have hs0 : ∀ v ∈ leaves e, v.size s ≠ 0 := fun v hv => by rw [DExpr.leaf_size h hv]; exact h0 v hv
  have hn := DExpr.len_size h
  have h1 : 1 ≤ E.len e := by have := DExpr.size_ne hs0; omega
  have hel := DExpr.elem_some (A := A) h hs0
  have : ∀ i, ∃ v, i < E.len e → e.elem A s i = .ok v := by
    intro i
    by_cases hi : i < E.len e
    · obtain ⟨v, hv⟩ := hel i (by rw [hn]; exact hi)
      exact ⟨v, fun _ => hv⟩
    · exact ⟨A.lit 0, fun h => absurd h hi⟩
  choose fv hfv using this
  obtain ⟨bv, bd, ea, hv, hmp, hd⟩ := assignExpr_ok (A := A) (p := DExpr.ptOf A E D) (fv := fv) hx hn h1 h2 hfv
    (fun i _ => DExpr.sees_shows h h0 i)
    (by
      intro ho
      obtain ⟨a, b, c⟩ := h _ ho
      have := b.room (by rw [c]; exact h0 _ ho)
      rw [c, hself ho] at this
      exact this)
  refine ⟨fv, bv, bd, hfv, ?_, hv, hd⟩
  rw [assign_nonleaf hl, M.bind_ok ea]
  refine setDims_no ?_
  rw [← hm]
  refine im_congr (fun _ => rfl) ?_
  intro y
  by_cases hy : y = x
  · subst hy; simpa using hmp
  · simp [val_putVal_ne, hy]

end AV

/-! ### Agreement of two states -/

/-- The same outcome in both states, which are kept. -/
def Agree {σ α : Type} (m : M σ α) (s s' : σ) : Prop := ∃ o, m s = (o, s) ∧ m s' = (o, s')

namespace Agree
variable {σ α β : Type} {s s' : σ}

theorem pure (a : α) : Agree (pure a : M σ α) s s' := ⟨_, rfl, rfl⟩

theorem bind {m : M σ α} {f : α → M σ β} (h : Agree m s s') (hf : ∀ a, Agree (f a) s s') : Agree (m >>= f) s s' := by
  obtain ⟨o, h1, h2⟩ := h
  cases o with
  | ok a =>
    obtain ⟨o, h3, h4⟩ := hf a
    exact ⟨o, by rw [M.bind_ok h1, h3], by rw [M.bind_ok h2, h4]⟩
  | thr e => exact ⟨.thr e, M.bind_thr h1, M.bind_thr h2⟩
  | ub k => exact ⟨.ub k, M.bind_ub h1, M.bind_ub h2⟩

theorem reads {f : σ → Out α} (h : f s = f s') : Agree (M.reads f) s s' :=
  ⟨f s, M.reads_apply _ _, by rw [M.reads_apply, h]⟩

end Agree

namespace DExpr

/-- The states agree on what the derivative at index `i` reads. -/
def LeafAgree (s s' : AV T) (e : DExpr) (i : Nat) : Prop :=
  ∀ v ∈ leaves e, match v with
    | .con c => leafVal (s.con c) i = leafVal (s'.con c) i
    | .var x => leafVal (s.val x) i = leafVal (s'.val x) i ∧ leafVal (s.der x) i = leafVal (s'.der x) i ∧
        (s.der x).sz = (s.val x).sz ∧ (s'.der x).sz = (s'.val x).sz

theorem getVal_agree {A : DArith T} {s s' : AV T} {e : DExpr} {i : Nat} (h : LeafAgree s s' e i) :
    e.getVal A s i = e.getVal A s' i := by
  induction e with
  | con c => exact h (.con c) (by simp [leaves])
  | var x => exact (h (.var x) (by simp [leaves])).1
  | bin op l r hl hr =>
    rw [getVal, getVal, hl (fun v hv => h v (by simp [leaves, hv])), hr (fun v hv => h v (by simp [leaves, hv]))]
  | sin e he => rw [getVal, getVal, he h]

theorem varDeriv_agree {A : DArith T} {s s' : AV T} {x : DVar} {i : Nat} (h : leafVal (s.der x) i = leafVal (s'.der x) i)
    (h1 : (s.der x).sz = (s.val x).sz) (h2 : (s'.der x).sz = (s'.val x).sz) : Agree (varDeriv A x i) s s' := by
  have key : ∀ t : AV T, (t.der x).sz = (t.val x).sz → varDeriv A x i t = (leafVal (t.der x) i, t) := by
    intro t ht
    unfold varDeriv
    rw [M.bind_ok (M.get_apply t), if_neg (by simpa using ht)]
    exact M.reads_apply _ _
  exact ⟨_, key s h1, by rw [key s' h2, h]⟩

theorem getDeriv_agree {A : DArith T} {s s' : AV T} {e : DExpr} {i : Nat} (h : LeafAgree s s' e i) :
    Agree (e.getDeriv A i) s s' := by
  induction e with
  | con c => exact Agree.pure _
  | var x =>
    obtain ⟨_, a, b, c⟩ := h (.var x) (by simp [leaves])
    exact varDeriv_agree a b c
  | bin op l r hl hr =>
    have al : LeafAgree s s' l i := fun v hv => h v (by simp [leaves, hv])
    have ar : LeafAgree s s' r i := fun v hv => h v (by simp [leaves, hv])
    have vl : Agree (M.reads (fun s => l.getVal A s i)) s s' := Agree.reads (getVal_agree al)
    have vr : Agree (M.reads (fun s => r.getVal A s i)) s s' := Agree.reads (getVal_agree ar)
    cases op
    case mul =>
      rw [getDeriv]
      exact vl.bind fun _ => vr.bind fun _ => (hl al).bind fun _ => (hr ar).bind fun _ => Agree.pure _
    case div =>
      rw [getDeriv]
      refine vl.bind fun _ => vr.bind fun _ => (hl al).bind fun _ => (hr ar).bind fun _ => ?_
      cases r <;> exact Agree.pure _
    case add => rw [getDeriv]; exact (hl al).bind fun _ => (hr ar).bind fun _ => Agree.pure _
    case sub => rw [getDeriv]; exact (hl al).bind fun _ => (hr ar).bind fun _ => Agree.pure _
    all_goals
      rw [getDeriv]
      · exact (hl al).bind fun _ => (hr ar).bind fun _ => Agree.pure _
      all_goals simp
  | sin e he =>
    rw [getDeriv]
    have ve : Agree (M.reads (fun s => e.getVal A s i)) s s' := Agree.reads (getVal_agree h)
    split
    · exact ve.bind fun _ => Agree.pure _
    · exact (he h).bind fun _ => Agree.pure _

theorem operand_mem {s : AV T} {e : DExpr} (h : Spec.Even s e) (h0 : ∀ v ∈ leaves e, v.size s ≠ 0) :
    ∀ i, i < e.size s → ∀ v ∈ leaves e, (v, i % v.size s) ∈ operands s e i := by
  induction e with
  | con c =>
    intro i hi v hv
    simp only [leaves, List.mem_singleton] at hv
    subst hv
    rw [operands, Nat.mod_eq_of_lt (show i < Leaf.size s (.con c) from hi)]
    simp
  | var x =>
    intro i hi v hv
    simp only [leaves, List.mem_singleton] at hv
    subst hv
    rw [operands, Nat.mod_eq_of_lt (show i < Leaf.size s (.var x) from hi)]
    simp
  | bin op l r hl hr =>
    intro i _ v hv
    obtain ⟨e1, e2, d1, d2⟩ := h
    have hl0 : ∀ v ∈ leaves l, v.size s ≠ 0 := fun v hv => h0 v (by simp [leaves, hv])
    have hr0 : ∀ v ∈ leaves r, v.size s ≠ 0 := fun v hv => h0 v (by simp [leaves, hv])
    rw [operands, List.mem_append]
    simp only [leaves, List.mem_append] at hv
    rcases hv with hv | hv
    · have := hl e1 hl0 (i % l.size s) (Nat.mod_lt _ (Nat.pos_of_ne_zero (size_ne hl0))) v hv
      rw [Nat.mod_mod_of_dvd _ (d1 v hv)] at this
      exact Or.inl this
    · have := hr e2 hr0 (i % r.size s) (Nat.mod_lt _ (Nat.pos_of_ne_zero (size_ne hr0))) v hv
      rw [Nat.mod_mod_of_dvd _ (d2 v hv)] at this
      exact Or.inr this
  | sin e he =>
    intro i _ v hv
    obtain ⟨e1, d1⟩ := h
    have h0' : ∀ v ∈ leaves e, v.size s ≠ 0 := h0
    have := he e1 h0' (i % e.size s) (Nat.mod_lt _ (Nat.pos_of_ne_zero (size_ne h0'))) v hv
    rw [Nat.mod_mod_of_dvd _ (d1 v hv)] at this
    exact this

theorem leafVal_get {b b' : Buf T} {i : Nat} (h : b.sz = b'.sz) (hg : b.get (i % b.sz) = b'.get (i % b.sz)) :
    leafVal b i = leafVal b' i := by
  unfold leafVal modIdx
  rw [← h]
  by_cases h0 : b.sz = 0
  · rw [if_pos h0]; rfl
  · rw [if_neg h0, Out.ok_bind, Out.ok_bind, hg]

/-- The value at index `i` depends on the operand elements only. -/
theorem elem_agree {A : DArith T} {s s' : AV T} (hz : SameSizes s s') {e : DExpr} : ∀ {i},
    (∀ v ∈ operands s e i, SameElem s s' v.1 v.2) → e.elem A s i = e.elem A s' i := by
  have sz : ∀ e : DExpr, e.size s = e.size s' := by
    intro e
    induction e with
    | con c => exact hz.1 c
    | var x => exact hz.2.1 x
    | bin op l r hl hr => rw [size, size, hl, hr]
    | sin e he => exact he
  induction e with
  | con c => intro i h; exact h (.con c, i) (by simp [operands])
  | var x => intro i h; exact (h (.var x, i) (by simp [operands])).1
  | bin op l r hl hr =>
    intro i h
    rw [elem, elem, ← sz l, ← sz r]
    unfold modIdx
    have h1 := hl (i := i % l.size s) (fun v hv => h v (by simp [operands, hv]))
    have h2 := hr (i := i % r.size s) (fun v hv => h v (by simp [operands, hv]))
    by_cases hl0 : l.size s = 0
    · simp [hl0]
    · by_cases hr0 : r.size s = 0
      · simp only [if_neg hl0, Out.ok_bind, hr0, if_true, Out.ub_bind, h1]
      · simp only [if_neg hl0, if_neg hr0, Out.ok_bind, h1, h2]
  | sin e he =>
    intro i h
    rw [elem, elem, ← sz e]
    unfold modIdx
    have h1 := he (i := i % e.size s) (fun v hv => h v (by simpa [operands] using hv))
    by_cases h0 : e.size s = 0
    · simp [h0]
    · simp only [if_neg h0, Out.ok_bind, h1]

end DExpr
end ETR
