import Verif.Props.Deriv

/-! # C88: dimensions of matrices in programs with derivatives -/

namespace ETR.Deriv
open Spec DExpr
variable {T : Type}

/-! ## What an operation leaves unchanged -/

/-- The operation does not change `g`, however it ends. -/
def Pres {σ γ : Type} (g : σ → γ) {α : Type} (m : M σ α) : Prop := ∀ s, g (m s).2 = g s

namespace Pres
variable {σ γ α β : Type} {g : σ → γ}

theorem bind {m : M σ α} {f : α → M σ β} (h : Pres g m) (hf : ∀ a, Pres g (f a)) : Pres g (m >>= f) := by
  intro s
  have h1 := h s
  rcases hm : m s with ⟨o, s'⟩
  rw [hm] at h1
  cases o with
  | ok a => rw [M.bind_ok hm]; exact (hf a s').trans h1
  | thr e => rw [M.bind_thr hm]; exact h1
  | ub k => rw [M.bind_ub hm]; exact h1

theorem pure (a : α) : Pres g (pure a : M σ α) := fun _ => rfl
theorem get : Pres g (M.get : M σ σ) := fun _ => rfl
theorem lift (o : Out α) : Pres g (M.lift o : M σ α) := fun s => by rw [M.lift_apply]
theorem reads (f : σ → Out α) : Pres g (M.reads f) := fun s => by rw [M.reads_apply]
theorem ass (c : Prop) [Decidable c] (m : String) : Pres g (M.ass c m : M σ Unit) := by
  exact fun s => rfl

theorem forN {f : Nat → M σ Unit} (h : ∀ i, Pres g (f i)) : ∀ n, Pres g (M.forN n f)
  | 0 => pure _
  | n + 1 => (forN h n).bind fun _ => h n

theorem ok {m : M σ α} (h : Pres g m) {s s' : σ} {a : α} (e : m s = (.ok a, s')) : g s' = g s := by
  have := h s; rw [e] at this; exact this

end Pres

/-- The dimensions of all variables and constants. -/
def dims (s : AV T) : (DVar → MP) × (Nat → MP) := (fun y => (s.val y).mp, fun c => (s.con c).mp)

/-- The lengths of all variables. -/
def lens (s : AV T) : DVar → Nat := fun y => (s.val y).sz

theorem onVal_apply {α : Type} (x : DVar) (m : M (Buf T) α) (s : AV T) :
    AV.onVal x m s = ((m (s.val x)).1, s.putVal x (m (s.val x)).2) := by
  have := AV.onVal_put s x m (s.val x)
  rwa [AV.putVal_self] at this

theorem onCon_apply {α : Type} (x : Nat) (m : M (Buf T) α) (s : AV T) :
    AV.onCon x m s = ((m (s.con x)).1, s.putCon x (m (s.con x)).2) := by
  have := AV.onCon_put s x m (s.con x)
  rwa [AV.putCon_self] at this

theorem dims_val {α : Type} {x : DVar} {m : M (Buf T) α} (h : Pres Buf.mp m) : Pres dims (AV.onVal x m) := by
  intro s
  rw [onVal_apply]
  refine Prod.ext ?_ rfl
  funext y
  by_cases hy : y = x
  · subst hy; simpa [dims] using h _
  · simp [dims, AV.val_putVal_ne, hy]

theorem dims_con {α : Type} {x : Nat} {m : M (Buf T) α} (h : Pres Buf.mp m) : Pres dims (AV.onCon x m) := by
  intro s
  rw [onCon_apply]
  refine Prod.ext rfl ?_
  funext y
  by_cases hy : y = x
  · subst hy; simpa [dims] using h _
  · simp [dims, AV.con_putCon_ne, hy]

theorem dims_der {α : Type} {x : DVar} {m : M (Buf T) α} : Pres dims (AV.onDer x m) := by
  intro s; rw [AV.onDer_apply]; rfl

theorem lens_val {α : Type} {x : DVar} {m : M (Buf T) α} (h : Pres Buf.sz m) : Pres lens (AV.onVal x m) := by
  intro s
  rw [onVal_apply]
  funext y
  by_cases hy : y = x
  · subst hy; simpa [lens] using h _
  · simp [lens, AV.val_putVal_ne, hy]

theorem lens_con {α : Type} {x : Nat} {m : M (Buf T) α} : Pres lens (AV.onCon x m) := by
  intro s; rw [onCon_apply]; rfl

theorem lens_der {α : Type} {x : DVar} {m : M (Buf T) α} : Pres lens (AV.onDer x m) := by
  intro s; rw [AV.onDer_apply]; rfl

theorem mp_resize (zero : T) (n : Nat) : Pres Buf.mp (Buf.resize zero n) := by
  intro b; unfold Buf.resize; split
  · rfl
  · split
    · rfl
    · split
      · split
        · rfl
        · split <;> rfl
      · rfl
      · rfl

theorem mp_resizeBorrow (n : Nat) : Pres (σ := Buf T) Buf.mp (Buf.resizeBorrow n) := by
  intro b; unfold Buf.resizeBorrow; split
  · rfl
  · split <;> rfl

theorem mp_set (i : Nat) (v : T) : Pres Buf.mp (Buf.set i v) := by
  intro b; unfold Buf.set; split
  · split <;> rfl
  · rfl
  · rfl

theorem sz_set (i : Nat) (v : T) : Pres Buf.sz (Buf.set i v) := by
  intro b; unfold Buf.set; split
  · split <;> rfl
  · rfl
  · rfl

theorem varDeriv_pres {γ : Type} {g : AV T → γ} (hd : ∀ x (m : M (Buf T) Unit), Pres g (AV.onDer x m))
    (hi : ∀ s, g { s with derivInit := true } = g s) (A : DArith T) (x : DVar) (i : Nat) : Pres g (varDeriv A x i) := by
  unfold varDeriv
  refine Pres.get.bind fun s => ?_
  by_cases h1 : (s.der x).sz ≠ (s.val x).sz
  · rw [if_pos h1]
    by_cases h2 : x.2 = s.indep ∧ s.derivInit = false
    · rw [if_pos h2]
      exact (hd _ _).bind fun _ => (hd _ _).bind fun _ => Pres.bind (fun s => hi s) fun _ => Pres.reads _
    · rw [if_neg h2]
      exact (hd _ _).bind fun _ => Pres.reads _
  · rw [if_neg h1]
    exact Pres.reads _

theorem getDeriv_pres {γ : Type} {g : AV T → γ} (hd : ∀ x (m : M (Buf T) Unit), Pres g (AV.onDer x m))
    (hi : ∀ s, g { s with derivInit := true } = g s) (A : DArith T) (e : DExpr) (i : Nat) : Pres g (e.getDeriv A i) := by
  induction e with
  | con c => exact Pres.pure _
  | var x => exact varDeriv_pres hd hi A x i
  | bin op l r hl hr =>
    cases op
    case mul =>
      rw [getDeriv]
      exact (Pres.reads _).bind fun _ => (Pres.reads _).bind fun _ => hl.bind fun _ => hr.bind fun _ => Pres.pure _
    case div =>
      rw [getDeriv]
      cases r
      all_goals exact (Pres.reads _).bind fun _ => (Pres.reads _).bind fun _ => hl.bind fun _ => hr.bind fun _ => Pres.pure _
    case add => rw [getDeriv]; exact hl.bind fun _ => hr.bind fun _ => Pres.pure _
    case sub => rw [getDeriv]; exact hl.bind fun _ => hr.bind fun _ => Pres.pure _
    all_goals
      rw [getDeriv]
      · exact hl.bind fun _ => hr.bind fun _ => Pres.pure _
      all_goals simp
  | sin e he =>
    rw [getDeriv]
    by_cases hl : e.isLeaf = true
    · rw [if_pos hl]; exact (Pres.reads _).bind fun _ => Pres.pure _
    · rw [if_neg hl]; exact he.bind fun _ => Pres.pure _

theorem dims_resize (A : DArith T) (x : DVar) (n : Nat) : Pres dims (AV.resize A x n) := by
  unfold AV.resize
  split
  · exact dims_val (mp_resize _ _)
  · exact dims_val (mp_resizeBorrow _)
  · exact dims_val (mp_resize _ _)

/-- The part of an assignment that writes the elements. -/
def assignElems (A : DArith T) (x : DVar) (e : DExpr) : M (AV T) Unit :=
  match e with
  | .con c => AV.assignCon A x c
  | .var y => AV.assignVar A x y
  | e => AV.assignExpr A x e

theorem assign_split (A : DArith T) (x : DVar) (e : DExpr) :
    AV.assign A x e = (do assignElems A x e; AV.setDims x e) := by
  cases e <;> rfl

theorem dims_getDeriv (A : DArith T) (e : DExpr) (i : Nat) : Pres dims (e.getDeriv A i) :=
  getDeriv_pres (fun _ _ => dims_der) (fun _ => rfl) A e i

theorem dims_assignElems (A : DArith T) (x : DVar) (e : DExpr) : Pres dims (assignElems A x e) := by
  have hE : ∀ e, Pres dims (AV.assignExpr A x e) := by
    intro e
    unfold AV.assignExpr
    refine Pres.get.bind fun s => (Pres.ass _ _).bind fun _ => (Pres.lift _).bind fun t => dims_der.bind fun _ =>
      (Pres.forN (fun i => (dims_getDeriv A e i).bind fun _ => dims_der) _).bind fun _ =>
      (dims_resize A x _).bind fun _ => Pres.forN (fun i => ?_) _
    split
    · exact dims_val (mp_set _ _)
    · exact Pres.lift _
  unfold assignElems
  split
  · unfold AV.assignCon
    exact Pres.get.bind fun s => (dims_resize A x _).bind fun _ =>
      (Pres.forN (fun i => (Pres.reads _).bind fun _ => dims_val (mp_set _ _)) _).bind fun _ =>
      dims_der.bind fun _ => Pres.forN (fun i => dims_der) _
  · unfold AV.assignVar
    exact Pres.get.bind fun s => (dims_resize A x _).bind fun _ =>
      (Pres.forN (fun i => (Pres.reads _).bind fun _ => dims_val (mp_set _ _)) _).bind fun _ =>
      dims_der.bind fun _ => Pres.forN (fun i => (varDeriv_pres (fun _ _ => dims_der) (fun _ => rfl) A _ i).bind fun _ => dims_der) _
  · exact hE _

/-! ## Lengths -/

/-- If the operation succeeds, `x` has length `n` and the other lengths are unchanged. -/
def Sets (x : DVar) (n : Nat) {α : Type} (m : M (AV T) α) : Prop :=
  ∀ s a s', m s = (.ok a, s') → lens s' = fun y => if y = x then n else lens s y

theorem Sets.after {x : DVar} {n : Nat} {α β : Type} {m : M (AV T) α} {f : α → M (AV T) β} (h : Pres lens m) (hf : ∀ a, Sets x n (f a)) :
    Sets x n (m >>= f) := by
  intro s b s' e
  have h1 := h s
  rcases hm : m s with ⟨o, s1⟩
  rw [hm] at h1
  cases o with
  | ok a => rw [M.bind_ok hm] at e; rw [hf a s1 b s' e, h1]
  | thr e' => rw [M.bind_thr hm] at e; cases e
  | ub k => rw [M.bind_ub hm] at e; cases e

theorem Sets.before {x : DVar} {n : Nat} {α β : Type} {m : M (AV T) α} {f : α → M (AV T) β} (h : Sets x n m) (hf : ∀ a, Pres lens (f a)) :
    Sets x n (m >>= f) := by
  intro s b s' e
  rcases hm : m s with ⟨o, s1⟩
  cases o with
  | ok a => rw [M.bind_ok hm] at e; rw [(hf a).ok e, h s a s1 hm]
  | thr e' => rw [M.bind_thr hm] at e; cases e
  | ub k => rw [M.bind_ub hm] at e; cases e

theorem sets_resize (A : DArith T) (x : DVar) (n : Nat) : Sets x n (AV.resize A x n) := by
  intro s a s' e
  have key : ∀ m : M (Buf T) Unit, (∀ b b', m b = (.ok (), b') → b'.sz = n) → AV.onVal x m s = (.ok a, s') →
      lens s' = fun y => if y = x then n else lens s y := by
    intro m hm e
    rw [onVal_apply] at e
    rcases hb : m (s.val x) with ⟨o, b⟩
    rw [hb] at e
    simp only [Prod.mk.injEq] at e
    obtain ⟨rfl, rfl⟩ := e
    funext y
    by_cases hy : y = x
    · subst hy; simpa [lens] using hm _ _ hb
    · simp [lens, AV.val_putVal_ne, hy]
  obtain ⟨k, i⟩ := x
  cases k with
  | buffer =>
    refine key _ (fun b b' hb => ?_) e
    have := (Buf.resize_sz (zero := A.lit 0) (n := n) (b := b)).2 b'
    rw [hb] at this
    exact this rfl
  | sexp =>
    refine key _ (fun b b' hb => ?_) e
    have := (Buf.resize_sz (zero := A.lit 0) (n := n) (b := b)).2 b'
    rw [hb] at this
    exact this rfl
  | borrow =>
    refine key _ (fun b b' hb => ?_) e
    unfold Buf.resizeBorrow at hb
    split at hb
    · cases hb
    · split at hb
      · simp only [Prod.mk.injEq, true_and] at hb; subst hb; rfl
      · cases hb

theorem lens_assignElems (A : DArith T) {s s' : AV T} {x : DVar} {e : DExpr} (h : assignElems A x e s = (.ok (), s')) :
    lens s' = fun y => if y = x then e.size s else lens s y := by
  have hE : ∀ e, AV.assignExpr A x e s = (.ok (), s') → lens s' = fun y => if y = x then e.size s else lens s y := by
    intro e h
    unfold AV.assignExpr at h
    rw [M.bind_ok (M.get_apply s)] at h
    refine Sets.after (n := e.size s) (Pres.ass _ _) (fun _ => Sets.after (Pres.lift _) fun t => Sets.after lens_der fun _ =>
      Sets.after (Pres.forN (fun i => (getDeriv_pres (fun _ _ => lens_der) (fun _ => rfl) A e i).bind fun _ => lens_der) _) fun _ =>
      Sets.before (sets_resize A x _) fun _ => Pres.forN (fun i => ?_) _) s () s' h
    split
    · exact lens_val (sz_set _ _)
    · exact Pres.lift _
  cases e with
  | con c =>
    replace h : AV.assignCon A x c s = (.ok (), s') := h
    unfold AV.assignCon at h
    rw [M.bind_ok (M.get_apply s)] at h
    exact Sets.before (sets_resize A x _) (fun _ =>
      (Pres.forN (fun i => (Pres.reads _).bind fun _ => lens_val (sz_set _ _)) _).bind fun _ =>
      lens_der.bind fun _ => Pres.forN (fun i => lens_der) _) s () s' h
  | var y =>
    replace h : AV.assignVar A x y s = (.ok (), s') := h
    unfold AV.assignVar at h
    rw [M.bind_ok (M.get_apply s)] at h
    exact Sets.before (sets_resize A x _) (fun _ =>
      (Pres.forN (fun i => (Pres.reads _).bind fun _ => lens_val (sz_set _ _)) _).bind fun _ =>
      lens_der.bind fun _ => Pres.forN (fun i => (varDeriv_pres (fun _ _ => lens_der) (fun _ => rfl) A _ i).bind fun _ => lens_der) _)
      s () s' h
  | bin op l r => exact hE _ h
  | sin e => exact hE _ h

/-! ## Dimensions of an expression -/

theorem largest_append (a b : List Nat) : largest (a ++ b) = max (largest a) (largest b) := by
  induction a with
  | nil => simp [largest]
  | cons x t ih => simp only [largest, List.cons_append, List.foldr_cons] at ih ⊢; rw [ih, max_assoc]

theorem mats_im {s : AV T} (e : DExpr) : e.im s = true ↔ mats s e ≠ [] := by
  induction e with
  | con c => simp [im, mats]
  | var x => simp [im, mats]
  | bin op l r hl hr => simp only [im, mats, Bool.or_eq_true, hl, hr, ne_eq, List.append_eq_nil_iff]; tauto
  | sin e _ => simp [im, mats]

theorem mats_dim {s : AV T} (hc : VectorCons s) (f : MP → Nat) (e : DExpr) (h : e.im s = true) :
    e.dimOf f s = .ok (largest ((mats s e).map f)) := by
  induction e with
  | con c => simp [im, hc c] at h
  | var x => simp only [im] at h; simp [dimOf, mats, h, largest]
  | sin e _ => simp [im] at h
  | bin op l r hl hr =>
    simp only [dimOf, mats, List.map_append, largest_append]
    cases h1 : l.im s with
    | true =>
      cases h2 : r.im s with
      | true =>
        simp only [Bool.and_self, if_true, hl h1, hr h2, Out.ok_bind]
        show Out.ok _ = _
        congr 1
        split <;> omega
      | false =>
        have : mats s r = [] := by
          by_contra hn; rw [(mats_im r).mpr hn] at h2; cases h2
        simp [hl h1, this, largest]
    | false =>
      have : mats s l = [] := by
        by_contra hn; rw [(mats_im l).mpr hn] at h1; cases h1
      cases h2 : r.im s with
      | true => simp [hr h2, this, largest]
      | false => simp [im, h1, h2] at h

theorem mats_congr {s s' : AV T} (h : dims s' = dims s) (e : DExpr) : mats s' e = mats s e := by
  have hv : ∀ y, (s'.val y).mp = (s.val y).mp := fun y => congrFun (congrArg Prod.fst h) y
  have hc : ∀ c, (s'.con c).mp = (s.con c).mp := fun c => congrFun (congrArg Prod.snd h) c
  induction e with
  | con c => simp [mats, hc]
  | var x => simp [mats, hv]
  | bin op l r hl hr => simp [mats, hl, hr]
  | sin e _ => rfl

/-- What an assignment does to lengths and dimensions, for every state and expression: `x` gets the length of `e`; if there is a matrix
among the operands (outside of `sin`), the largest numbers of rows and columns, otherwise `x` keeps its dimensions.  Other variables are
not changed. -/
theorem C88_assign_characterised (A : DArith T) {s s' : AV T} {x : DVar} {e : DExpr} (hc : VectorCons s)
    (h : AV.assign A x e s = (.ok (), s')) :
    (s'.val x).sz = e.size s ∧
    (s'.val x).mp = (if mats s e = [] then (s.val x).mp else
      ⟨true, largest ((mats s e).map MP.nr), largest ((mats s e).map MP.nc)⟩) ∧
    ∀ y, y ≠ x → (s'.val y).sz = (s.val y).sz ∧ (s'.val y).mp = (s.val y).mp := by
  rw [assign_split] at h
  rcases hm : assignElems A x e s with ⟨o, s1⟩
  cases o with
  | thr m => rw [M.bind_thr hm] at h; cases h
  | ub k => rw [M.bind_ub hm] at h; cases h
  | ok u =>
    rw [M.bind_ok hm] at h
    have hd := (dims_assignElems A x e).ok hm
    have hl := lens_assignElems A hm
    have hv : ∀ y, (s1.val y).mp = (s.val y).mp := fun y => congrFun (congrArg Prod.fst hd) y
    have hc1 : VectorCons s1 := fun c => by
      rw [show (s1.con c).mp = (s.con c).mp from congrFun (congrArg Prod.snd hd) c]; exact hc c
    have hz : ∀ y, (s1.val y).sz = if y = x then e.size s else (s.val y).sz := fun y => congrFun hl y
    unfold AV.setDims at h
    rw [M.bind_ok (M.get_apply s1)] at h
    cases him : e.im s1 with
    | false =>
      have hn : mats s e = [] := by
        by_contra hn
        rw [← mats_congr hd] at hn
        rw [(mats_im e).mpr hn] at him; cases him
      rw [if_neg (by rw [him]; simp)] at h
      cases h
      refine ⟨by simp [hz], by simp [hn, hv], fun y hy => ⟨by simp [hz, hy], hv y⟩⟩
    | true =>
      have hn : mats s e ≠ [] := by rw [← mats_congr hd]; exact (mats_im e).mp him
      rw [if_pos him, mats_dim hc1 _ _ him, mats_dim hc1 _ _ him, mats_congr hd] at h
      rw [M.bind_ok (m := M.lift (.ok _)) rfl, M.bind_ok (m := M.lift (.ok _)) rfl, onVal_apply] at h
      simp only [Prod.mk.injEq] at h
      obtain ⟨_, rfl⟩ := h
      refine ⟨?_, ?_, fun y hy => ?_⟩
      · rw [AV.val_putVal, ← (by simpa using hz x : (s1.val x).sz = e.size s)]; rfl
      · rw [AV.val_putVal, if_neg hn]; rfl
      · rw [AV.val_putVal_ne _ _ hy]; exact ⟨by simp [hz, hy], hv y⟩

/-- C88 for expressions with matrices and for variables that are not matrices: afterwards `x` has the dimensions of `e`. -/
theorem C88_partial (A : DArith T) {s s' : AV T} {x : DVar} {e : DExpr} (hc : VectorCons s)
    (hm : mats s e ≠ [] ∨ (s.val x).mp.im = false) (h : AV.assign A x e s = (.ok (), s')) :
    ((s'.val x).mp.im = true ↔ mats s e ≠ []) ∧
    (mats s e ≠ [] → (s'.val x).mp.nr = largest ((mats s e).map MP.nr) ∧ (s'.val x).mp.nc = largest ((mats s e).map MP.nc)) := by
  obtain ⟨_, h2, _⟩ := C88_assign_characterised A hc h
  rw [h2]
  by_cases hn : mats s e = []
  · rcases hm with hm | hm
    · exact absurd hn hm
    · simp [hn, hm]
  · simp [hn]

theorem assign_dims_con (A : DArith T) (x : DVar) (e : DExpr) : Pres (fun s : AV T => fun c => (s.con c).mp) (AV.assign A x e) := by
  rw [assign_split]
  refine Pres.bind (fun s => congrArg Prod.snd (dims_assignElems A x e s)) fun _ => ?_
  unfold AV.setDims
  refine Pres.get.bind fun s => ?_
  split
  · exact (Pres.lift _).bind fun _ => (Pres.lift _).bind fun _ => fun s => by rw [onVal_apply]; rfl
  · exact Pres.pure _

theorem setCon_dims (A : DArith T) (c : Nat) (l : List T) : Pres dims (AV.setCon A c l) := by
  unfold AV.setCon
  refine (dims_con (mp_resize _ _)).bind fun _ => Pres.forN (fun i => ?_) _
  split
  · exact dims_con (mp_set _ _)
  · exact Pres.lift _

theorem setCon_lens (A : DArith T) (c : Nat) (l : List T) : Pres lens (AV.setCon A c l) := by
  unfold AV.setCon
  refine lens_con.bind fun _ => Pres.forN (fun i => ?_) _
  split
  · exact lens_con
  · exact Pres.lift _

/-- No program makes a matrix of a constant. -/
theorem C88_constants (A : DArith T) (prog : List (AV.Stmt T)) {s : AV T} (hc : VectorCons s) : VectorCons (AV.run A prog s).2 := by
  have hp : Pres (fun s : AV T => fun c => (s.con c).mp) (AV.run A prog) := by
    induction prog with
    | nil => exact Pres.pure _
    | cons p ps ih =>
      refine Pres.bind ?_ fun _ => ih
      cases p with
      | setCon c l => exact fun s => congrArg Prod.snd (setCon_dims A c l s)
      | assign x e => exact assign_dims_con A x e
  intro c
  rw [show ((AV.run A prog s).2.con c).mp = (s.con c).mp from congrFun (hp s) c]
  exact hc c

theorem mats_shaped {s : AV T} (hc : VectorCons s) (hw : WellShaped s) (e : DExpr) {m : MP} (hm : m ∈ mats s e) :
    ∃ v ∈ leaves e, v.size s = m.nr * m.nc := by
  induction e with
  | con c => simp [mats, hc c] at hm
  | var x =>
    simp only [mats] at hm
    split at hm
    · rename_i h
      simp only [List.mem_singleton] at hm
      subst hm
      exact ⟨.var x, by simp [leaves], by simp [Leaf.size, hw x h]⟩
    · cases hm
  | bin op l r hl hr =>
    simp only [mats, List.mem_append] at hm
    rcases hm with hm | hm
    · obtain ⟨v, h1, h2⟩ := hl hm; exact ⟨v, by simp [leaves, h1], h2⟩
    · obtain ⟨v, h1, h2⟩ := hr hm; exact ⟨v, by simp [leaves, h1], h2⟩
  | sin e _ => cases hm

theorem largest_const {l : List Nat} {n : Nat} (h0 : l ≠ []) (h : ∀ m ∈ l, m = n) : largest l = n := by
  induction l with
  | nil => exact absurd rfl h0
  | cons a t ih =>
    by_cases ht : t = []
    · subst ht; simp [largest, h a]
    · have := ih ht fun m hm => h m (by simp [hm])
      simp only [largest, List.foldr_cons] at this ⊢
      rw [this, h a (by simp), max_self]

theorem assign_shaped (A : DArith T) {s s' : AV T} {x : DVar} {e : DExpr} (hc : VectorCons s) (hw : WellShaped s)
    (hf : DimsFit s x e) (h : AV.assign A x e s = (.ok (), s')) : WellShaped s' := by
  obtain ⟨h1, h2, h3⟩ := C88_assign_characterised A hc h
  intro y hy
  by_cases hyx : y = x
  · subst hyx
    by_cases hn : mats s e = []
    · rw [if_pos hn] at h2
      rw [h2] at hy ⊢
      rw [h1, hf.2 hn hy, hw y hy]
    · rw [if_neg hn] at h2
      obtain ⟨r, c, k1, k2⟩ := hf.1 hn
      have l1 : largest ((mats s e).map MP.nr) = r := largest_const (by simpa using hn) fun m hm => by
        obtain ⟨p, hp, rfl⟩ := List.mem_map.mp hm; exact (k1 p hp).1
      have l2 : largest ((mats s e).map MP.nc) = c := largest_const (by simpa using hn) fun m hm => by
        obtain ⟨p, hp, rfl⟩ := List.mem_map.mp hm; exact (k1 p hp).2
      rw [h1, h2, l1, l2]
      obtain ⟨m, hm⟩ := List.exists_mem_of_ne_nil _ hn
      obtain ⟨v, v1, v2⟩ := mats_shaped hc hw e hm
      rw [(k1 m hm).1, (k1 m hm).2] at v2
      obtain ⟨w, w1, w2⟩ := size_mem (s := s) (e := e)
      have := leaf_le_size (s := s) v1
      have := k2 w w1
      simp only
      omega
  · obtain ⟨a, b⟩ := h3 y hyx
    rw [b] at hy
    rw [a, b]
    exact hw y hy

/-- C88, programs: if every matrix has as many elements as its dimensions say, this holds again after every program whose operands fit
together.

Missing: an expression without a matrix, assigned to a matrix, leaves the old dimensions (`C88_false`). -/
theorem C88_shape_partial (A : DArith T) (prog : List (AV.Stmt T)) {s s' : AV T} (hc : VectorCons s) (hw : WellShaped s)
    (hf : DimsFitAll A prog s) (h : AV.run A prog s = (.ok (), s')) : WellShaped s' := by
  induction prog generalizing s with
  | nil => cases h; exact hw
  | cons p ps ih =>
    rw [AV.run] at h
    rcases hm : AV.exec A p s with ⟨o, s1⟩
    cases o with
    | thr m => rw [M.bind_thr hm] at h; cases h
    | ub k => rw [M.bind_ub hm] at h; cases h
    | ok u =>
      rw [M.bind_ok hm] at h
      have hc1 : VectorCons s1 := by
        have := C88_constants A [p] hc
        rw [AV.run, M.bind_ok hm] at this
        exact this
      refine ih hc1 ?_ (hf.2 s1 hm) h
      cases p with
      | setCon c l =>
        have k1 : ∀ y, (s1.val y).mp = (s.val y).mp := fun y => congrFun (congrArg Prod.fst ((setCon_dims A c l).ok hm)) y
        have k2 : ∀ y, (s1.val y).sz = (s.val y).sz := fun y => congrFun ((setCon_lens A c l).ok hm) y
        intro y hy
        rw [k1] at hy
        rw [k1, k2, hw y hy]
      | assign x e => exact assign_shaped A hc hw hf.1 hm

/-! ## Examples -/

/-- `a` and `b` are 2x3 matrices, `v` a vector with two elements. -/
def matProg (rest : List (AV.Stmt ℚ)) : M (AV ℚ) Unit := do
  AV.initMatrix ratA 0 [1, 2, 3, 4, 5, 6] ⟨true, 2, 3⟩
  AV.initMatrix ratA 1 [6, 5, 4, 3, 2, 1] ⟨true, 2, 3⟩
  AV.initMatrix ratA 2 [10, 20] {}
  AV.run ratA rest

/-- `v = a * b + a` makes `v` a 2x3 matrix. -/
example : let r := matProg [.assign (B 2) (.bin .add (.bin .mul (.var (B 0)) (.var (B 1))) (.var (B 0)))] (AV.start 0 .buffer)
    r.1 = .ok () ∧ (r.2.val (B 2)).mp = ⟨true, 2, 3⟩ ∧ (r.2.val (B 2)).sz = 6 := by decide +kernel

/-- A table with a 2x3 matrix and a vector with two elements. -/
def shaped : AV ℚ :=
  { AV.start 0 .buffer with
    val := fun y => if y = B 0 then ⟨[some 1, some 2, some 3, some 4, some 5, some 6], 6, true, ⟨true, 2, 3⟩⟩
      else if y = B 1 then ⟨[some 10, some 20], 2, true, {}⟩ else {} }

example : VectorCons shaped ∧ WellShaped shaped ∧
    DimsFitAll ratA [.assign (B 2) (.bin .add (.var (B 0)) (.bin .mul (.var (B 1)) (.var (B 0))))] shaped ∧
    (AV.run ratA [.assign (B 2) (.bin .add (.var (B 0)) (.bin .mul (.var (B 1)) (.var (B 0))))] shaped).1 = .ok () := by
  refine ⟨fun c => rfl, fun y hy => ?_, ⟨⟨fun _ => ⟨2, 3, ?_⟩, fun h => absurd h (by decide +kernel)⟩, fun _ _ => trivial⟩, by decide +kernel⟩
  · by_cases h0 : y = B 0
    · subst h0; rfl
    · by_cases h1 : y = B 1
      · subst h1; cases hy
      · simp [shaped, h0, h1] at hy
  · decide +kernel

/-- C88 is false for a matrix that is assigned a vector: `a = v` leaves a vector of two elements with the dimensions 2x3. -/
theorem C88_false : let r := matProg [.assign (B 0) (.var (B 2))] (AV.start 0 .buffer)
    r.1 = .ok () ∧ (r.2.val (B 2)).mp.im = false ∧ (r.2.val (B 0)).mp = ⟨true, 2, 3⟩ ∧ (r.2.val (B 0)).sz = 2 := by decide +kernel

/-- C88 is false for `sin`: the sinus of a matrix is not a matrix. -/
theorem C88_sin_false : let r := matProg [.assign (B 2) (.sin (.var (B 0)))] (AV.start 0 .buffer)
    r.1 = .ok () ∧ (r.2.val (B 0)).mp = ⟨true, 2, 3⟩ ∧ (r.2.val (B 2)).mp.im = false ∧ (r.2.val (B 2)).sz = 6 := by decide +kernel

/-- `C88_assign_characterised`, `C88_partial` and `C88_constants` applied: `v = a + b` with a 2x3 matrix `a`. -/
example : ∃ s', AV.assign ratA (B 2) (.bin .add (.var (B 0)) (.var (B 1))) shaped = (.ok (), s') ∧ (s'.val (B 2)).sz = 6 ∧
    (s'.val (B 2)).mp = ⟨true, 2, 3⟩ ∧ (s'.val (B 2)).mp.im = true := by
  have e : AV.assign ratA (B 2) (.bin .add (.var (B 0)) (.var (B 1))) shaped = (.ok (), _) := Prod.ext (by decide +kernel) rfl
  obtain ⟨h1, h2, _⟩ := C88_assign_characterised ratA (fun _ => rfl) e
  obtain ⟨h3, _⟩ := C88_partial ratA (fun _ => rfl) (.inl (by decide +kernel)) e
  exact ⟨_, e, h1.trans (by decide +kernel), h2.trans (by decide +kernel), h3.mpr (by decide +kernel)⟩

example : VectorCons (AV.run ratA [.setCon 0 [1, 2], .assign (B 1) (.con 0)] shaped).2 := C88_constants ratA _ (fun _ => rfl)

end ETR.Deriv
