import Verif.Lemmas.DerivReal
import Verif.Props.Deriv

/-! # Derivatives of functions of given vectors (C95) -/

namespace ETR.Deriv
open Spec

/-- The variables that `initBuffer` with `n` arguments gives a value. -/
def Given (n : Nat) (y : DVar) : Prop := y.1 = .buffer ∧ y.2 < n

theorem initFrom_ok {A : DArith ℝ} (ls : List (List ℝ)) : ∀ (n : Nat) (s : AV ℝ),
    (∀ l ∈ ls, 1 ≤ l.length ∧ l.length ≤ 2 ^ 59) →
    ∃ v : DVar → Buf ℝ, AV.initFrom A n ls s = (.ok (), { s with val := v }) ∧
      (∀ x, (v x).mp = (s.val x).mp) ∧
      (∀ i (hi : i < ls.length), (v (B (n + i))).Is ls[i]) ∧
      ∀ x, (x.1 ≠ .buffer ∨ x.2 < n ∨ n + ls.length ≤ x.2) → v x = s.val x := by
  induction ls with
  | nil => intro n s _; exact ⟨s.val, rfl, fun _ => rfl, fun i hi => absurd hi (by simp), fun _ _ => rfl⟩
  | cons l ls ih =>
    intro n s h
    obtain ⟨b, e, hb, hm⟩ := AV.initBuffer_ok (A := A) (s := s) (x := n) (h l (by simp)).1 (h l (by simp)).2
    obtain ⟨v, e', h1, h2, h3⟩ := ih (n + 1) (s.putVal (B n) b) (fun l hl => h l (by simp [hl]))
    refine ⟨v, ?_, ?_, ?_, ?_⟩
    · rw [AV.initFrom, M.bind_ok e, e']; rfl
    · intro x
      rw [h1 x]
      by_cases hx : x = B n
      · subst hx; simpa using hm
      · rw [AV.val_putVal_ne _ _ hx]
    · intro i hi
      cases i with
      | zero =>
        rw [Nat.add_zero, h3 (B n) (Or.inr (Or.inl (Nat.lt_succ_self n)))]
        simpa using hb
      | succ i =>
        have := h2 i (by simpa using hi)
        rw [show n + 1 + i = n + (i + 1) by omega] at this
        simpa using this
    · intro x hx
      have hne : x ≠ B n := by
        rintro rfl
        rcases hx with hx | hx | hx
        · exact hx rfl
        · exact absurd hx (Nat.lt_irrefl n)
        · simp at hx
      rw [h3 x ?_, AV.val_putVal_ne _ _ hne]
      rcases hx with hx | hx | hx
      · exact Or.inl hx
      · exact Or.inr (Or.inl (by omega))
      · exact Or.inr (Or.inr (by simp only [List.length_cons] at hx; omega))

theorem initFrom_inv (k : Nat) (kind : VKind) (ls : List (List ℝ)) (h : ∀ l ∈ ls, 1 ≤ l.length ∧ l.length ≤ 2 ^ 59) :
    ∃ s D, AV.initFrom DArith.real 0 ls (AV.start k kind) = (.ok (), s) ∧
      DInv (B k) s (fun t => Vals.args (B k) t ls) D (Given ls.length) := by
  obtain ⟨v, e, h1, h2, h3⟩ := initFrom_ok (A := DArith.real) ls 0 (AV.start k kind) h
  have hlen : ∀ t x, ((Vals.args (B k) t ls).var x).length = if x.1 = .buffer then ((ls[x.2]?).getD []).length else 0 := by
    intro t x
    simp only [Vals.args]
    split <;> simp
  have hout : ∀ t x, ¬ Given ls.length x → (Vals.args (B k) t ls).var x = [] := by
    intro t x hx
    simp only [Vals.args]
    by_cases hb : x.1 = .buffer
    · rw [if_pos hb, List.getElem?_eq_none (Nat.not_lt.1 fun h => hx ⟨hb, h⟩)]; rfl
    · rw [if_neg hb]
  have hin : ∀ t x (hx : Given ls.length x), (Vals.args (B k) t ls).var x
      = (ls[x.2]'hx.2).map (fun a => a + if x = B k then t else 0) := by
    intro t x hx
    simp only [Vals.args]
    rw [if_pos hx.1, List.getElem?_eq_getElem hx.2]; rfl
  refine ⟨_, fun x => List.replicate ((Vals.args (B k) 0 ls).var x).length (if x = B k then 1 else 0), e,
    ⟨rfl, fun _ => Buf.is_nil, fun _ _ => rfl, fun _ => rfl, ?_, ?_, ?_, ?_, ?_, fun _ => rfl, fun _ => by simp, ?_⟩⟩
  · intro x
    show (v x).Is _
    by_cases hx : Given ls.length x
    · have h := h2 x.2 hx.2
      rw [hin 0 x hx]
      have e1 : x = B (0 + x.2) := Prod.ext hx.1 (Nat.zero_add _).symm
      rw [← e1] at h
      simpa using h
    · rw [hout 0 x hx, h3 x]
      · exact Buf.is_nil
      · by_cases hb : x.1 = .buffer
        · exact Or.inr (Or.inr (by rw [Nat.zero_add]; exact Nat.not_lt.1 fun h => hx ⟨hb, h⟩))
        · exact Or.inl hb
  · intro t x; rw [hlen, hlen]
  · intro x; show (v x).mp.im = false; rw [h1 x]; rfl
  · intro x hx
    show Buf.Is {} _
    rw [hout 0 x hx]; exact Buf.is_nil
  · intro x hx
    have hl := h _ (List.getElem_mem hx.2)
    refine ⟨rfl, fun e => Prod.ext hx.1 e, rfl, ?_, ?_⟩
    · rw [hin 0 x hx, List.length_map]; exact hl.1
    · rw [hin 0 x hx, List.length_map]; exact hl.2
  · intro x i
    by_cases hx : Given ls.length x
    · by_cases hi : i < (ls[x.2]'hx.2).length
      · have e1 : (fun t => ((Vals.args (B k) t ls).var x).getD i 0) = fun t => (ls[x.2]'hx.2)[i] + if x = B k then t else 0 := by
          funext t
          rw [hin t x hx, getD_lt _ _ (by simpa using hi)]
          simp
        rw [e1, getD_lt _ _ (by rw [List.length_replicate, hin 0 x hx, List.length_map]; exact hi), List.getElem_replicate]
        by_cases hk : x = B k
        · simp only [if_pos hk]
          exact (hasDerivAt_id' (0 : ℝ)).const_add _
        · simp only [if_neg hk]
          exact hasDerivAt_const _ _
      · exact hasDerivAt_out (n := (ls[x.2]'hx.2).length) (fun t => by rw [hin t x hx, List.length_map])
          (by rw [List.length_replicate, hin 0 x hx, List.length_map]) (by omega)
    · exact hasDerivAt_out (n := 0) (fun t => by rw [hout t x hx]; rfl)
        (by rw [List.length_replicate, hout 0 x hx]; rfl) (by omega)

/-- C95 when no statement assigns to a given variable that it is the first one to read.  After `initBuffer` with any vectors and any
program, the values are those over the real numbers, and `get_derivs` of any variable that is not empty returns the derivatives
with respect to the given independent variable.

Missing: statements such as `x = x * x` as the first use of a given variable `x` (`C95_false`); matrices, `initBorrow` (which never
succeeds, `C95_borrow_false`), assignments that change the length of a variable they read (`C58_false`). -/
theorem C95_partial (k : Nat) (kind : VKind) (ls : List (List ℝ)) (hls : ∀ l ∈ ls, 1 ≤ l.length ∧ l.length ≤ 2 ^ 59)
    (prog : List (AV.Stmt ℝ)) (h : FitsPieceAll (B k) prog (Vals.args (B k) 0 ls)) (hm : ∀ p ∈ prog, StmtMixed p)
    (hn : FirstUses (Given ls.length) prog) :
    ∃ s, (AV.initFrom DArith.real 0 ls >>= fun _ => AV.run DArith.real prog) (AV.start k kind) = (.ok (), s) ∧
      ∀ x : DVar, ∃ d : List ℝ, (s.val x).Is ((devals (B k) 0 prog (Vals.args (B k) 0 ls)).var x) ∧
      d.length = ((devals (B k) 0 prog (Vals.args (B k) 0 ls)).var x).length ∧
      (∀ i, HasDerivAt (fun t => ((devals (B k) t prog (Vals.args (B k) t ls)).var x).getD i 0) (d.getD i 0) 0) ∧
      ((devals (B k) 0 prog (Vals.args (B k) 0 ls)).var x ≠ [] → ∃ s', AV.getDerivs DArith.real x s = (.ok d, s')) := by
  obtain ⟨s0, D0, e0, h0⟩ := initFrom_inv k kind ls hls
  obtain ⟨s, D, Q, e, hi, _⟩ := h0.runNew rfl (ps := prog) h hm hn
  exact ⟨s, by rw [M.bind_ok e0, e], fun x => ⟨D x, hi.val x, hi.derL x, hi.derD x, fun hx => ⟨_, hi.getDerivs hx⟩⟩⟩

/-- `b = a * a; a = b + a` after `initBuffer` of `a = (3, 4)`: a given variable is read, then assigned. -/
noncomputable def prog95 : List (AV.Stmt ℝ) :=
  [.assign (B 1) (.bin .mul (.var (B 0)) (.var (B 0))), .assign (B 0) (.bin .add (.var (B 1)) (.var (B 0)))]

example : ∃ s s' d, (AV.initFrom DArith.real 0 [[3, 4]] >>= fun _ => AV.run DArith.real prog95) (AV.start 0 .buffer) = (.ok (), s) ∧
    (s.val (B 0)).Is [12, 20] ∧ AV.getDerivs DArith.real (B 0) s = (.ok d, s') ∧ d.getD 1 0 = 9 := by
  obtain ⟨s, e, h⟩ := C95_partial 0 .buffer [[3, 4]] (by simp) prog95
    (by simp [prog95, FitsPieceAll, FitsPiece, deval, Vals.args, Conform, leaves, Vals.leaf, Vals.len, Piece, Nonzero, Occurs, Steady])
    (by simp [prog95, StmtMixed, Mixed, Truth])
    (by simp [prog95, FirstUses, FirstUse, stillNew, Given, Occurs, leaves])
  obtain ⟨d, h1, h2, h3, h4⟩ := h (B 0)
  obtain ⟨s', h5⟩ := h4 (by simp [prog95, devals, deval, Vals.args, Vals.len])
  refine ⟨s, s', d, e, ?_, h5, ?_⟩
  · convert h1 using 1
    simp [prog95, devals, deval, Vals.args, Vals.len, Vals.elem, pick, List.range_succ]
    norm_num
  · have e1 : (fun t => ((devals (B 0) t prog95 (Vals.args (B 0) t [[3, 4]])).var (B 0)).getD 1 0)
        = fun t : ℝ => (4 + t) * (4 + t) + (4 + t) := by
      funext t
      simp [prog95, devals, deval, Vals.args, Vals.len, Vals.elem, pick, List.range_succ]
    have h6 := h3 1
    rw [e1] at h6
    have h7 : HasDerivAt (fun t : ℝ => (4 + t) * (4 + t) + (4 + t)) (1 * (4 + 0) + (4 + 0) * 1 + 1) 0 :=
      (((hasDerivAt_id' (0 : ℝ)).const_add 4).mul ((hasDerivAt_id' (0 : ℝ)).const_add 4)).add
        ((hasDerivAt_id' (0 : ℝ)).const_add 4)
    rw [h6.unique h7]
    norm_num

/-- C95 is false when the first use of the independent variable is its own new value: after `initBuffer` of `x = 3`, `x = x * x`
stores the value 9 and the derivative 0. -/
theorem C95_false : let r := (AV.initFrom ratA 0 [[3]] >>= fun _ =>
      AV.run ratA [.assign (B 0) (.bin .mul (.var (B 0)) (.var (B 0)))]) (AV.start 0 .buffer)
    r.1 = .ok () ∧ (r.2.val (B 0)).get 0 = .ok 9 ∧ (AV.getDerivs ratA (B 0) r.2).1 = .ok [0] := by decide +kernel

/-- The same product assigned to another variable has the derivative 6. -/
example : let r := (AV.initFrom ratA 0 [[3]] >>= fun _ =>
      AV.run ratA [.assign (B 1) (.bin .mul (.var (B 0)) (.var (B 0)))]) (AV.start 0 .buffer)
    r.1 = .ok () ∧ (AV.getDerivs ratA (B 1) r.2).1 = .ok [6] := by decide +kernel

/-- `initBorrow` never gives a variable a value: for every vector it throws and the variable stays empty. -/
theorem C95_borrow_false {T : Type} (k : Nat) (kind : VKind) (x : Nat) (l : List T) :
    ∃ m, AV.initBorrow x l (AV.start k kind) = (.thr m, AV.start k kind) := by
  unfold AV.initBorrow
  rw [M.bind_ok (M.get_apply _)]
  cases l with
  | nil => exact ⟨_, rfl⟩
  | cons a l => exact ⟨_, rfl⟩

example : (AV.initBorrow 0 [(1 : ℚ), 2] (AV.start 0 .borrow)).1 =
    .thr "number of items to replace is not a multiple of replacement length" := by decide +kernel

/-! ## Variables of the kind that holds R objects -/

theorem initSEXPFrom_ok {A : DArith ℝ} (ls : List (List ℝ)) : ∀ (n : Nat) (s : AV ℝ),
    (∀ l ∈ ls, 1 ≤ l.length ∧ l.length ≤ 2 ^ 59) →
    ∃ v : DVar → Buf ℝ, AV.initSEXPFrom A n ls s = (.ok (), { s with val := v }) ∧
      (∀ x, (v x).mp = (s.val x).mp) ∧
      (∀ i (hi : i < ls.length), (v (.sexp, n + i)).Is ls[i]) ∧
      ∀ x, (x.1 ≠ .sexp ∨ x.2 < n ∨ n + ls.length ≤ x.2) → v x = s.val x := by
  induction ls with
  | nil => intro n s _; exact ⟨s.val, rfl, fun _ => rfl, fun i hi => absurd hi (by simp), fun _ _ => rfl⟩
  | cons l ls ih =>
    intro n s h
    obtain ⟨b, e, hb, hm⟩ := AV.initSEXP_ok (A := A) (s := s) (x := n) (h l (by simp)).1 (h l (by simp)).2
    obtain ⟨v, e', h1, h2, h3⟩ := ih (n + 1) (s.putVal (.sexp, n) b) (fun l hl => h l (by simp [hl]))
    refine ⟨v, ?_, ?_, ?_, ?_⟩
    · rw [AV.initSEXPFrom, M.bind_ok e, e']; rfl
    · intro x
      rw [h1 x]
      by_cases hx : x = (.sexp, n)
      · subst hx; simpa using hm
      · rw [AV.val_putVal_ne _ _ hx]
    · intro i hi
      cases i with
      | zero =>
        rw [Nat.add_zero, h3 (.sexp, n) (Or.inr (Or.inl (Nat.lt_succ_self n)))]
        simpa using hb
      | succ i =>
        have := h2 i (by simpa using hi)
        rw [show n + 1 + i = n + (i + 1) by omega] at this
        simpa using this
    · intro x hx
      have hne : x ≠ (.sexp, n) := by
        rintro rfl
        rcases hx with hx | hx | hx
        · exact hx rfl
        · exact absurd hx (Nat.lt_irrefl n)
        · simp at hx
      rw [h3 x ?_, AV.val_putVal_ne _ _ hne]
      rcases hx with hx | hx | hx
      · exact Or.inl hx
      · exact Or.inr (Or.inl (by omega))
      · exact Or.inr (Or.inr (by simp only [List.length_cons] at hx; omega))

/-- `initBuffer(lb...)` and `initBorrowSEXP(ls...)`. -/
noncomputable def initBoth (lb ls : List (List ℝ)) : M (AV ℝ) Unit := do
  AV.initFrom DArith.real 0 lb
  AV.initSEXPFrom DArith.real 0 ls

theorem handed_mem {lb ls : List (List ℝ)} {x : DVar} (h : handed lb ls x ≠ []) : handed lb ls x ∈ lb ∨ handed lb ls x ∈ ls := by
  obtain ⟨k, i⟩ := x
  cases k with
  | borrow => exact absurd rfl h
  | buffer =>
    by_cases hi : i < lb.length
    · left
      show (lb[i]?).getD [] ∈ lb
      rw [List.getElem?_eq_getElem hi]; exact List.getElem_mem hi
    · exact absurd (show (lb[i]?).getD [] = [] by rw [List.getElem?_eq_none (by omega)]; rfl) h
  | sexp =>
    by_cases hi : i < ls.length
    · right
      show (ls[i]?).getD [] ∈ ls
      rw [List.getElem?_eq_getElem hi]; exact List.getElem_mem hi
    · exact absurd (show (ls[i]?).getD [] = [] by rw [List.getElem?_eq_none (by omega)]; rfl) h

theorem initBoth_inv (k : DVar) (kind : VKind) (lb ls : List (List ℝ)) (hb : ∀ l ∈ lb, 1 ≤ l.length ∧ l.length ≤ 2 ^ 59)
    (hs : ∀ l ∈ ls, 1 ≤ l.length ∧ l.length ≤ 2 ^ 59) (hone : ∀ y, handed lb ls y ≠ [] → y.2 = k.2 → y = k) :
    ∃ s D, initBoth lb ls (AV.start k.2 kind) = (.ok (), s) ∧
      DInv k s (fun t => Vals.given k t (handed lb ls)) D (fun y => handed lb ls y ≠ []) := by
  obtain ⟨v, e, h1, h2, h3⟩ := initFrom_ok (A := DArith.real) lb 0 (AV.start k.2 kind) hb
  obtain ⟨w, e', g1, g2, g3⟩ := initSEXPFrom_ok (A := DArith.real) ls 0 { (AV.start k.2 kind : AV ℝ) with val := v } hs
  have hlen : ∀ t x, ((Vals.given k t (handed lb ls)).var x).length = (handed lb ls x).length := fun t x => by simp [Vals.given]
  have hin : ∀ t x, (Vals.given k t (handed lb ls)).var x = (handed lb ls x).map (fun a => a + if x = k then t else 0) :=
    fun _ _ => rfl
  have h0 : ∀ x, (Vals.given k 0 (handed lb ls)).var x = handed lb ls x := fun x => by rw [hin]; simp
  have hw : ∀ x, (w x).Is (handed lb ls x) := by
    rintro ⟨c, i⟩
    cases c with
    | buffer =>
      rw [g3 _ (Or.inl (by simp))]
      show (v (B i)).Is ((lb[i]?).getD [])
      by_cases hi : i < lb.length
      · have := h2 i hi
        rw [Nat.zero_add] at this
        rwa [List.getElem?_eq_getElem hi]
      · rw [List.getElem?_eq_none (by omega), h3 (B i) (Or.inr (Or.inr (by show 0 + lb.length ≤ i; omega)))]
        exact Buf.is_nil
    | sexp =>
      show (w (.sexp, i)).Is ((ls[i]?).getD [])
      by_cases hi : i < ls.length
      · have := g2 i hi
        rw [Nat.zero_add] at this
        rwa [List.getElem?_eq_getElem hi]
      · rw [List.getElem?_eq_none (by omega), g3 (.sexp, i) (Or.inr (Or.inr (by show 0 + ls.length ≤ i; omega))),
          show (({ (AV.start k.2 kind : AV ℝ) with val := v } : AV ℝ).val (.sexp, i)) = v (.sexp, i) from rfl,
          h3 (.sexp, i) (Or.inl (by simp))]
        exact Buf.is_nil
    | borrow =>
      rw [g3 _ (Or.inl (by simp)), show (({ (AV.start k.2 kind : AV ℝ) with val := v } : AV ℝ).val (.borrow, i)) = v (.borrow, i) from rfl,
        h3 _ (Or.inl (by simp))]
      exact Buf.is_nil
  refine ⟨_, fun x => List.replicate (handed lb ls x).length (if x = k then 1 else 0), by rw [initBoth, M.bind_ok e, e'],
    ⟨rfl, fun _ => Buf.is_nil, fun _ _ => rfl, fun _ => rfl, ?_, ?_, ?_, ?_, ?_, fun _ => rfl, fun x => by rw [hlen]; simp, ?_⟩⟩
  · intro x; rw [h0]; exact hw x
  · intro t x; rw [hlen, hlen]
  · intro x
    show (w x).mp.im = false
    rw [g1 x, show (({ (AV.start k.2 kind : AV ℝ) with val := v } : AV ℝ).val x) = v x from rfl, h1 x]; rfl
  · intro x hx
    have e : handed lb ls x = [] := by simpa using hx
    show Buf.Is {} _
    rw [e]; exact Buf.is_nil
  · intro x hx
    have hl : 1 ≤ (handed lb ls x).length ∧ (handed lb ls x).length ≤ 2 ^ 59 := by
      rcases handed_mem hx with h | h
      · exact hb _ h
      · exact hs _ h
    exact ⟨rfl, hone x hx, by rw [hlen], by rw [hlen]; exact hl.1, by rw [hlen]; exact hl.2⟩
  · intro x i
    by_cases hi : i < (handed lb ls x).length
    · have e1 : (fun t => ((Vals.given k t (handed lb ls)).var x).getD i 0) = fun t => (handed lb ls x)[i] + if x = k then t else 0 := by
        funext t
        rw [hin t x, getD_lt _ _ (by simpa using hi)]
        simp
      rw [e1, getD_lt _ _ (by simpa using hi), List.getElem_replicate]
      by_cases hk : x = k
      · simp only [if_pos hk]
        exact (hasDerivAt_id' (0 : ℝ)).const_add _
      · simp only [if_neg hk]
        exact hasDerivAt_const _ _
    · exact hasDerivAt_out (n := (handed lb ls x).length) (fun t => hlen t x) (by simp) (by omega)

/-- C95 for variables that hold R objects: after `initBuffer` and `initBorrowSEXP` with any vectors and any program that reads variables
of these kinds, the values are those over the real numbers, and `get_derivs` of any variable that is not empty returns the derivatives
with respect to the given independent variable, of either kind.

Missing: as for `C95_partial`; a variable of the other kind with the index of the independent one that is also given a value or is assigned
a constant (`C95_kind_false`, `C62_kind_false`); new values for variables that hold R objects, except copies (`C62_sexp_false`). -/
theorem C95_sexp_partial (k : DVar) (kind : VKind) (lb ls : List (List ℝ)) (hb : ∀ l ∈ lb, 1 ≤ l.length ∧ l.length ≤ 2 ^ 59)
    (hs : ∀ l ∈ ls, 1 ≤ l.length ∧ l.length ≤ 2 ^ 59) (hone : ∀ y, handed lb ls y ≠ [] → y.2 = k.2 → y = k)
    (prog : List (AV.Stmt ℝ)) (h : FitsKindsAll k prog (Vals.given k 0 (handed lb ls))) (hm : ∀ p ∈ prog, StmtMixed p)
    (hn : FirstUses (fun y => handed lb ls y ≠ []) prog) :
    ∃ s, (initBoth lb ls >>= fun _ => AV.run DArith.real prog) (AV.start k.2 kind) = (.ok (), s) ∧
      ∀ x : DVar, ∃ d : List ℝ, (s.val x).Is ((devals k 0 prog (Vals.given k 0 (handed lb ls))).var x) ∧
      d.length = ((devals k 0 prog (Vals.given k 0 (handed lb ls))).var x).length ∧
      (∀ i, HasDerivAt (fun t => ((devals k t prog (Vals.given k t (handed lb ls))).var x).getD i 0) (d.getD i 0) 0) ∧
      ((devals k 0 prog (Vals.given k 0 (handed lb ls))).var x ≠ [] → ∃ s', AV.getDerivs DArith.real x s = (.ok d, s')) := by
  obtain ⟨s0, D0, e0, h0⟩ := initBoth_inv k kind lb ls hb hs hone
  obtain ⟨s, D, Q, e, hi, _⟩ := h0.runKinds (ps := prog) h hm hn
  exact ⟨s, by rw [M.bind_ok e0, e], fun x => ⟨D x, hi.val x, hi.derL x, hi.derD x, fun hx => ⟨_, hi.getDerivs hx⟩⟩⟩

/-- `b = s * s; s = b` for an argument `s = (3, 4)` from R and a buffer `b` with another index. -/
noncomputable def progS : List (AV.Stmt ℝ) :=
  [.assign (B 1) (.bin .mul (.var (.sexp, 0)) (.var (.sexp, 0))), .assign (.sexp, 0) (.var (B 1))]

example : ∃ s s' d, (initBoth [] [[3, 4]] >>= fun _ => AV.run DArith.real progS) (AV.start 0 .sexp) = (.ok (), s) ∧
    (s.val (.sexp, 0)).Is [9, 16] ∧ AV.getDerivs DArith.real (.sexp, 0) s = (.ok d, s') ∧ d.getD 1 0 = 8 := by
  obtain ⟨s, e, h⟩ := C95_sexp_partial (.sexp, 0) .sexp [] [[3, 4]] (by simp) (by simp)
    (by
      rintro ⟨c, i⟩ hy hi
      cases c
      · exact absurd (by simp [handed]) hy
      · exact absurd (by simp [handed]) hy
      · exact Prod.ext rfl hi) progS
    (by simp [progS, FitsKindsAll, FitsKinds, deval, Vals.given, handed, Conform, leaves, Vals.leaf, Vals.len, Piece, Nonzero, Occurs, Steady])
    (by simp [progS, StmtMixed, Mixed, Truth])
    (by simp [progS, FirstUses, FirstUse, stillNew, handed, Occurs, leaves])
  obtain ⟨d, h1, h2, h3, h4⟩ := h (.sexp, 0)
  obtain ⟨s', h5⟩ := h4 (by simp [progS, devals, deval, Vals.given, handed, Vals.len])
  refine ⟨s, s', d, e, ?_, h5, ?_⟩
  · convert h1 using 1
    simp [progS, devals, deval, Vals.given, handed, Vals.len, Vals.elem, pick, List.range_succ]
    norm_num
  · have e1 : (fun t => ((devals (.sexp, 0) t progS (Vals.given (.sexp, 0) t (handed [] [[3, 4]]))).var (.sexp, 0)).getD 1 0)
        = fun t : ℝ => (4 + t) * (4 + t) := by
      funext t
      simp [progS, devals, deval, Vals.given, handed, Vals.len, Vals.elem, pick, List.range_succ]
    have h6 := h3 1
    rw [e1] at h6
    have h7 : HasDerivAt (fun t : ℝ => (4 + t) * (4 + t)) (1 * (4 + 0) + (4 + 0) * 1) 0 :=
      ((hasDerivAt_id' (0 : ℝ)).const_add 4).mul ((hasDerivAt_id' (0 : ℝ)).const_add 4)
    rw [h6.unique h7]
    norm_num

/-- C95 is false when variables of both kinds have the index of the independent variable: for `a = 2` in a buffer and `s = 3` from R, the
independent variable, `b = a * s` has the derivative 3 instead of 2, and `b = s * a` has the derivative 2. -/
theorem C95_kind_false : let st := (AV.initFrom ratA 0 [[2]] >>= fun _ => AV.initSEXPFrom ratA 0 [[3]]) (AV.start 0 .sexp)
    let r := AV.run ratA [.assign (B 1) (.bin .mul (.var (B 0)) (.var (.sexp, 0)))] st.2
    let r' := AV.run ratA [.assign (B 1) (.bin .mul (.var (.sexp, 0)) (.var (B 0)))] st.2
    st.1 = .ok () ∧ r.1 = .ok () ∧ (AV.getDerivs ratA (B 1) r.2).1 = .ok [3] ∧ r'.1 = .ok () ∧
      (AV.getDerivs ratA (B 1) r'.2).1 = .ok [2] := by decide +kernel

/-- Without the buffer of the same index, the derivative is right whatever the order of the operands. -/
example : let st := (AV.initFrom ratA 0 [] >>= fun _ => AV.initSEXPFrom ratA 0 [[3], [2]]) (AV.start 0 .sexp)
    let r := AV.run ratA [.assign (B 1) (.bin .mul (.var (.sexp, 1)) (.var (.sexp, 0)))] st.2
    st.1 = .ok () ∧ r.1 = .ok () ∧ (AV.getDerivs ratA (B 1) r.2).1 = .ok [2] := by decide +kernel

/-- C62 for variables that hold R objects: a constant and a sum that are assigned to one go to the buffer with the same index, which throws
when it is empty; the variable keeps its value although its derivative is new. -/
theorem C62_sexp_false : let st := (AV.setCon ratA 0 [5] >>= fun _ => AV.initSEXPFrom ratA 0 [[3]]) (AV.start 0 .sexp)
    let r := AV.assign ratA (.sexp, 0) (.con 0) st.2
    let r' := (AV.initFrom ratA 0 [[7]] >>= fun _ => AV.assign ratA (.sexp, 0) (.con 0)) st.2
    st.1 = .ok () ∧ r.1 = .thr "No memory was allocated" ∧ r'.1 = .ok () ∧ (r'.2.val (.sexp, 0)).get 0 = .ok 3 ∧
      (r'.2.val (B 0)).get 0 = .ok 5 := by decide +kernel

end ETR.Deriv
