import Verif.Lemmas.DerivAny

/-! Assignment to a variable whose own derivative is read, when its length changes. -/

namespace ETR
open Spec
variable {T : Type}

/-- Values are kept, the size of the derivative of `x` is kept or set to the size of the value. -/
def DStep (x : DVar) (s s' : AV T) : Prop :=
  s'.val = s.val ∧ ((s'.der x).sz = (s.der x).sz ∨ (s'.der x).sz = (s.val x).sz)

theorem DStep.refl (x : DVar) (s : AV T) : DStep x s s := ⟨rfl, Or.inl rfl⟩

theorem DStep.trans {x : DVar} {s s' s'' : AV T} (h : DStep x s s') (h' : DStep x s' s'') : DStep x s s'' := by
  obtain ⟨a, b⟩ := h
  obtain ⟨c, d⟩ := h'
  refine ⟨c.trans a, ?_⟩
  rcases d with d | d
  · rw [d]; exact b
  · rw [d, a]; exact Or.inr rfl

/-- All steps are of this kind. -/
def Keeps (x : DVar) {α : Type} (m : M (AV T) α) : Prop := ∀ s, DStep x s (m s).2

/-- Afterwards the derivative of `x` has the size of its value. -/
def Forces (x : DVar) {α : Type} (m : M (AV T) α) : Prop :=
  ∀ s a s', m s = (.ok a, s') → (s'.der x).sz = (s.val x).sz

namespace Keeps
variable {x : DVar} {α β : Type}

theorem pure (a : α) : Keeps x (pure a : M (AV T) α) := fun s => DStep.refl x s
theorem reads (f : AV T → Out α) : Keeps x (M.reads f) := fun s => by rw [M.reads_apply]; exact DStep.refl x s

theorem bind {m : M (AV T) α} {f : α → M (AV T) β} (h : Keeps x m) (hf : ∀ a, Keeps x (f a)) : Keeps x (m >>= f) := by
  intro s
  have h1 := h s
  rcases hm : m s with ⟨o, s'⟩
  rw [hm] at h1
  cases o with
  | ok a => rw [M.bind_ok hm]; exact h1.trans (hf a s')
  | thr e => rw [M.bind_thr hm]; exact h1
  | ub k => rw [M.bind_ub hm]; exact h1

end Keeps

theorem Keeps.ok {x : DVar} {α : Type} {m : M (AV T) α} (h : Keeps x m) {s s' : AV T} {a : α} (e : m s = (.ok a, s')) :
    DStep x s s' := by have := h s; rw [e] at this; exact this

namespace Forces
variable {x : DVar} {α β : Type}

theorem left {m : M (AV T) α} {f : α → M (AV T) β} (h : Forces x m) (hk : Keeps x m) (hf : ∀ a, Keeps x (f a)) :
    Forces x (m >>= f) := by
  intro s b s' e
  rcases hm : m s with ⟨o, s1⟩
  cases o with
  | ok a =>
    rw [M.bind_ok hm] at e
    have h1 := h s a s1 hm
    have h2 := (hf a).ok e
    rcases h2.2 with h2' | h2'
    · rw [h2', h1]
    · rw [h2', (hk.ok hm).1]
  | thr e' => rw [M.bind_thr hm] at e; cases e
  | ub k => rw [M.bind_ub hm] at e; cases e

theorem right {m : M (AV T) α} {f : α → M (AV T) β} (hk : Keeps x m) (hf : ∀ a, Forces x (f a)) :
    Forces x (m >>= f) := by
  intro s b s' e
  rcases hm : m s with ⟨o, s1⟩
  cases o with
  | ok a =>
    rw [M.bind_ok hm] at e
    rw [hf a s1 b s' e, (hk.ok hm).1]
  | thr e' => rw [M.bind_thr hm] at e; cases e
  | ub k => rw [M.bind_ub hm] at e; cases e

end Forces

theorem Buf.resize_sz {zero : T} {n : Nat} {b : Buf T} :
    ((resize zero n b).2.sz = b.sz ∨ (resize zero n b).2.sz = n) ∧ ∀ b', resize zero n b = (.ok (), b') → b'.sz = n := by
  unfold resize
  split
  · exact ⟨Or.inl rfl, fun b' e => by cases e⟩
  split
  · exact ⟨Or.inr rfl, fun b' e => by cases e; rfl⟩
  split
  · split
    · exact ⟨Or.inl rfl, fun b' e => by cases e⟩
    split
    · exact ⟨Or.inl rfl, fun b' e => by cases e⟩
    · exact ⟨Or.inr rfl, fun b' e => by cases e; rfl⟩
  · exact ⟨Or.inl rfl, fun b' e => by cases e⟩
  · exact ⟨Or.inl rfl, fun b' e => by cases e⟩

theorem Buf.fill_sz {v : T} {b : Buf T} : (fill v b).2.sz = b.sz := by
  unfold fill; split <;> rfl

theorem AV.onDer_apply {α : Type} (x : DVar) (m : M (Buf T) α) (s : AV T) :
    AV.onDer x m s = ((m (s.der x)).1, s.putDer x (m (s.der x)).2) := by
  have := onDer_put s x m (s.der x)
  rwa [putDer_self] at this

namespace DExpr

theorem keeps_onDer {x y : DVar} {α : Type} {m : M (Buf T) α} (h : ∀ b, (m b).2.sz = b.sz) : Keeps x (AV.onDer y m) := by
  intro s
  rw [AV.onDer_apply]
  refine ⟨rfl, Or.inl ?_⟩
  by_cases hx : x = y
  · subst hx; simpa using h _
  · simp [AV.der_putDer_ne, hx]

/-- The part of `varDeriv` after the resize. -/
theorem keeps_rest {A : DArith T} {x y : DVar} {i : Nat} {t : AV T} : Keeps x (do
      if y.2 = t.indep ∧ t.derivInit = false then
        AV.onDer y (Buf.fill (A.lit 1))
        M.modify (fun s => { s with derivInit := true })
      M.reads (fun s => leafVal (s.der y) i)) := by
  split
  · refine Keeps.bind (keeps_onDer fun b => Buf.fill_sz) fun _ => Keeps.bind ?_ fun _ => Keeps.reads _
    intro s; exact ⟨rfl, Or.inl rfl⟩
  · exact Keeps.reads _

theorem varDeriv_step {A : DArith T} {x y : DVar} {i : Nat} : Keeps x (varDeriv A y i) ∧ (y = x → Forces x (varDeriv A y i)) := by
  have key : ∀ s : AV T, DStep x s (varDeriv A y i s).2 ∧
      (y = x → ∀ a s', varDeriv A y i s = (.ok a, s') → (s'.der x).sz = (s.val x).sz) := by
    intro s
    unfold varDeriv
    rw [M.bind_ok (M.get_apply s)]
    by_cases hz : (s.der y).sz ≠ (s.val y).sz
    · rw [if_pos hz]
      rcases hr : Buf.resize (A.lit 0) (s.val y).sz (s.der y) with ⟨o, b⟩
      obtain ⟨r1, r2⟩ := Buf.resize_sz (zero := A.lit 0) (n := (s.val y).sz) (b := s.der y)
      rw [hr] at r1 r2
      have e1 : AV.onDer y (Buf.resize (A.lit 0) (s.val y).sz) s = (o, s.putDer y b) := by rw [AV.onDer_apply, hr]
      have st : DStep x s (s.putDer y b) := by
        refine ⟨rfl, ?_⟩
        by_cases hx : x = y
        · subst hx; simpa using r1
        · rw [AV.der_putDer_ne _ _ hx]; exact Or.inl rfl
      cases o with
      | ok u =>
        rw [M.bind_ok e1]
        have hk := keeps_rest (A := A) (x := x) (y := y) (i := i) (t := s)
        have hb : b.sz = (s.val y).sz := r2 b rfl
        refine ⟨st.trans (hk (s.putDer y b)), ?_⟩
        intro hy a s' e
        subst hy
        have hk := hk.ok e
        rcases hk.2 with h | h
        · rw [h]; simpa using hb
        · rw [h]; rfl
      | thr m =>
        rw [M.bind_thr e1]
        exact ⟨st, fun _ a s' e => by cases e⟩
      | ub k =>
        rw [M.bind_ub e1]
        exact ⟨st, fun _ a s' e => by cases e⟩
    · rw [if_neg hz]
      refine ⟨?_, ?_⟩
      · exact (Keeps.reads (x := x) (fun s => leafVal (s.der y) i)) s
      · intro hy a s' e
        subst hy
        have e' : (M.reads (fun s => leafVal (s.der y) i) : M (AV T) T) s = (.ok a, s') := e
        rw [M.reads_apply] at e'
        have : s' = s := (congrArg Prod.snd e').symm
        rw [this]
        simpa using hz
  exact ⟨fun s => (key s).1, fun hy s => (key s).2 hy⟩

theorem getDeriv_step {A : DArith T} {x : DVar} {e : DExpr} {i : Nat} :
    Keeps x (e.getDeriv A i) ∧ (ReadsDer x e → Forces x (e.getDeriv A i)) := by
  induction e with
  | con c => exact ⟨Keeps.pure _, fun h => h.elim⟩
  | var y => exact varDeriv_step
  | bin op l r hl hr =>
    have two : ∀ f : T → T → M (AV T) T, (∀ a b, Keeps x (f a b)) →
        Keeps x (do let a ← l.getDeriv A i; let b ← r.getDeriv A i; f a b) ∧
        (ReadsDer x (bin op l r) → Forces x (do let a ← l.getDeriv A i; let b ← r.getDeriv A i; f a b)) := by
      intro f hf
      refine ⟨hl.1.bind fun a => hr.1.bind fun b => hf a b, ?_⟩
      rintro (h | h)
      · exact (hl.2 h).left hl.1 fun a => hr.1.bind fun b => hf a b
      · exact Forces.right hl.1 fun a => (hr.2 h).left hr.1 fun b => hf a b
    have four : ∀ f : T → T → T → T → M (AV T) T, (∀ a b c d, Keeps x (f a b c d)) →
        Keeps x (do
          let u ← M.reads (fun s => l.getVal A s i)
          let v ← M.reads (fun s => r.getVal A s i)
          let a ← l.getDeriv A i
          let b ← r.getDeriv A i
          f u v a b) ∧
        (ReadsDer x (bin op l r) → Forces x (do
          let u ← M.reads (fun s => l.getVal A s i)
          let v ← M.reads (fun s => r.getVal A s i)
          let a ← l.getDeriv A i
          let b ← r.getDeriv A i
          f u v a b)) := by
      intro f hf
      refine ⟨(Keeps.reads _).bind fun u => (Keeps.reads _).bind fun v => (two (f u v) (hf u v)).1, ?_⟩
      intro h
      exact Forces.right (Keeps.reads _) fun u => Forces.right (Keeps.reads _) fun v => (two (f u v) (hf u v)).2 h
    cases op
    case mul => rw [getDeriv]; exact four _ fun _ _ _ _ => Keeps.pure _
    case div =>
      rw [getDeriv]
      cases r
      all_goals exact four _ fun _ _ _ _ => Keeps.pure _
    case add => rw [getDeriv]; exact two _ fun _ _ => Keeps.pure _
    case sub => rw [getDeriv]; exact two _ fun _ _ => Keeps.pure _
    all_goals
      rw [getDeriv]
      · exact two (fun _ _ => pure (A.lit 0)) fun _ _ => Keeps.pure _
      all_goals simp
  | sin e he =>
    rw [getDeriv]
    by_cases hl : e.isLeaf = true
    · rw [if_pos hl]
      exact ⟨(Keeps.reads _).bind fun _ => Keeps.pure _, fun h => by have := h.1; rw [hl] at this; exact absurd this (by simp)⟩
    · rw [if_neg hl]
      exact ⟨he.1.bind fun _ => Keeps.pure _, fun h => (he.2 h.2).left he.1 fun _ => Keeps.pure _⟩

end DExpr

namespace AV

/-- All iterations of a loop that returned have returned. -/
theorem forN_inv {σ : Type} {f : Nat → M σ Unit} {n i : Nat} (hi : i < n) {s s' : σ} (h : M.forN n f s = (.ok (), s')) :
    ∃ s1 s2, M.forN i f s = (.ok (), s1) ∧ f i s1 = (.ok (), s2) := by
  induction n generalizing s' with
  | zero => omega
  | succ n ih =>
    rw [M.forN_succ] at h
    rcases hm : M.forN n f s with ⟨o, s1⟩
    cases o with
    | ok a =>
      by_cases hin : i < n
      · exact ih hin hm
      · have : i = n := by omega
        subst this
        rw [M.bind_ok hm] at h
        exact ⟨s1, s', hm, h⟩
    | thr e => rw [M.bind_thr hm] at h; cases h
    | ub k => rw [M.bind_ub hm] at h; cases h

theorem keeps_set {x y : DVar} {i : Nat} {v : T} : Keeps x (onDer y (Buf.set i v)) := by
  refine DExpr.keeps_onDer fun b => ?_
  unfold Buf.set
  split
  · split <;> rfl
  · rfl
  · rfl

theorem keeps_forN {x : DVar} {f : Nat → M (AV T) Unit} (h : ∀ i, Keeps x (f i)) : ∀ n, Keeps x (M.forN n f)
  | 0 => Keeps.pure _
  | n + 1 => (keeps_forN h n).bind fun _ => h n

/-- If the own derivative is read and the length grows, the assignment does not succeed. -/
theorem assign_self {A : DArith T} {s : AV T} {x : DVar} {e : DExpr} (hl : e.isLeaf = false) (hr : ReadsDer x e)
    (hs : (s.val x).sz < e.size s) {s' : AV T} : assign A x e s ≠ (.ok (), s') := by
  intro h
  rw [assign_nonleaf hl] at h
  rcases ha : assignExpr A x e s with ⟨o, s1⟩
  cases o with
  | thr m => rw [M.bind_thr ha] at h; cases h
  | ub m => rw [M.bind_ub ha] at h; cases h
  | ok u =>
    clear h
    unfold assignExpr at ha
    have hass : (M.ass (e.size s ≥ 1) "Size has to be larger than 0" : M (AV T) Unit) s = (.ok (), s) := by
      unfold M.ass
      rw [M.lift_apply, Out.ass_pos (by omega)]
    rw [M.bind_ok (M.get_apply s), M.bind_ok hass] at ha
    rcases hel : Out.all ((List.range (e.size s)).map (fun i => e.elem A s i)) with temp | m | k
    · rw [M.bind_ok (a := temp) (s' := s) (by rw [M.lift_apply, hel])] at ha
      rcases hz : resizeDerivs A x (e.size s) s with ⟨o, s2⟩
      have hv2 : s2.val = s.val := by
        unfold resizeDerivs at hz
        rw [onDer_apply] at hz
        cases hz
        rfl
      cases o with
      | thr m => rw [M.bind_thr hz] at ha; cases ha
      | ub k => rw [M.bind_ub hz] at ha; cases ha
      | ok u =>
        rw [M.bind_ok hz] at ha
        rcases hf : M.forN (e.size s) (fun i => do
          let d ← e.getDeriv A i
          onDer x (Buf.set i d)) s2 with ⟨o, s3⟩
        cases o with
        | thr m => rw [M.bind_thr hf] at ha; cases ha
        | ub k => rw [M.bind_ub hf] at ha; cases ha
        | ok u =>
          obtain ⟨t1, t2, e1, e2⟩ := forN_inv hs hf
          have k1 : DStep x s2 t1 := (keeps_forN (fun i => (DExpr.getDeriv_step (x := x)).1.bind fun d => keeps_set) _).ok e1
          rcases hg : e.getDeriv A (s.val x).sz t1 with ⟨o, t3⟩
          cases o with
          | thr m => rw [M.bind_thr hg] at e2; cases e2
          | ub k => rw [M.bind_ub hg] at e2; cases e2
          | ok d =>
            rw [M.bind_ok hg] at e2
            have := DExpr.getDeriv_step.2 hr t1 d t3 hg
            rw [k1.1, hv2] at this
            rw [onDer_apply] at e2
            unfold Buf.set Buf.check at e2
            rw [this] at e2
            by_cases hal : (t3.der x).allocated = true
            · rw [Out.ass_pos hal, Out.ok_bind, Out.ass_neg (by omega)] at e2
              cases e2
            · rw [Out.ass_neg hal] at e2
              cases e2
    · rw [M.bind_thr (s' := s) (by rw [M.lift_apply, hel])] at ha; cases ha
    · rw [M.bind_ub (s' := s) (by rw [M.lift_apply, hel])] at ha; cases ha

end AV
end ETR
