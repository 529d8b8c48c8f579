import Verif.Lemmas.Deriv

/-! Lemmas on assignments to derivative variables. -/

namespace ETR
open Spec
variable {T : Type}

theorem getD_lt (l : List T) (a : T) {i : Nat} (h : i < l.length) : l.getD i a = l[i] := by simp [List.getD, h]

namespace Buf

theorem is_of_fun {b : Buf T} {n : Nat} {f : Nat → T} (hr : b.Room n)
    (h : ∀ i, i < n → b.cells[i]? = some (some (f i))) : b.Is ((List.range n).map f) := by
  refine is_of_cells (by simpa using hr) ?_
  intro i hi
  rw [h i (by simpa using hi)]
  simp

theorem Is.leaf {b : Buf T} {l : List T} (h : b.Is l) (h0 : l.length ≠ 0) (i : Nat) :
    DExpr.leafVal b i = .ok (l[i % l.length]'(Nat.mod_lt _ (Nat.pos_of_ne_zero h0))) := by
  unfold DExpr.leafVal
  rw [h.1, DExpr.modIdx_ok h0, Out.ok_bind, h.2 _ (Nat.mod_lt _ (Nat.pos_of_ne_zero h0))]

theorem Is.inj {b : Buf T} {l l' : List T} (h : b.Is l) (h' : b.Is l') : l = l' := by
  refine List.ext_getElem (by rw [← h.1, ← h'.1]) ?_
  intro i hi hi'
  have := (h.2 i hi).symm.trans (h'.2 i hi')
  exact Out.ok.inj this

end Buf

namespace AV

theorem resize_val {A : DArith T} {s : AV T} {x : DVar} {n : Nat} (hx : x.1 ≠ .borrow) (h1 : 1 ≤ n) (h2 : n ≤ 2 ^ 59) :
    ∃ b, resize A x n s = (.ok (), s.putVal x b) ∧ b.Room n ∧ b.mp = (s.val x).mp := by
  obtain ⟨b, e, hr, hm, _⟩ := Buf.resize_ok (A.lit 0) (s.val x) h1 h2
  obtain ⟨k, i⟩ := x
  cases k with
  | borrow => exact absurd rfl hx
  | buffer => exact ⟨b, onVal_ok e, hr, hm⟩
  | sexp => exact ⟨b, onVal_ok e, hr, hm⟩

theorem resize_der {A : DArith T} {s : AV T} {x : DVar} {n : Nat} (h1 : 1 ≤ n) (h2 : n ≤ 2 ^ 59) :
    ∃ b, resizeDerivs A x n s = (.ok (), s.putDer x b) ∧ b.Room n ∧ b.mp = (s.der x).mp ∧
      ((s.der x).Room n → b = s.der x) := by
  obtain ⟨b, e, hr, hm, hk⟩ := Buf.resize_ok (A.lit 0) (s.der x) h1 h2
  exact ⟨b, onDer_ok e, hr, hm, hk⟩

theorem setDims_no {s : AV T} {x : DVar} {e : DExpr} (h : e.im s = false) : setDims x e s = (.ok (), s) := by
  unfold setDims
  rw [M.bind_ok (M.get_apply s), if_neg (by simp [h])]
  rfl

/-- Writing a list of values element by element. -/
theorem loop_list {σ : Type} {put : Buf T → σ} {on : M (Buf T) Unit → M σ Unit}
    (hon : ∀ m b, on m (put b) = ((m b).1, put (m b).2)) {l : List T} {b0 : Buf T} (hr : b0.Room l.length) :
    ∃ b', M.forN l.length (fun i => match l[i]? with
        | some v => on (Buf.set i v)
        | none => M.lift (.ub .oob)) (put b0) = (.ok (), put b') ∧ b'.Is l ∧ b'.mp = b0.mp := by
  rcases l with _ | ⟨a, t⟩
  · exact ⟨b0, rfl, ⟨hr.sz, fun _ hi => absurd hi (by simp)⟩, rfl⟩
  obtain ⟨b', e, h1, h2, h3⟩ := loop_set hon (m := fun i => M.lift (.ok ((a :: t).getD i a)))
    (f := fun i => (a :: t).getD i a) hr (fun i _ b _ _ _ => rfl)
  refine ⟨b', ?_, ?_, h2⟩
  · rw [← e]
    refine congrArg (fun m => m (put b0)) (M.forN_congr ?_)
    intro i hi
    rw [List.getElem?_eq_getElem hi]
    have : M.lift (.ok ((a :: t).getD i a)) = (pure ((a :: t)[i]) : M σ T) := by
      rw [getD_lt _ _ hi]; rfl
    rw [this, pure_bind]
  · refine Buf.is_of_cells h1 ?_
    intro i hi
    rw [h3 i hi, getD_lt _ _ hi]

theorem setCon_ok {A : DArith T} {s : AV T} {c : Nat} {l : List T} (h1 : 1 ≤ l.length) (h2 : l.length ≤ 2 ^ 59) :
    ∃ b, setCon A c l s = (.ok (), s.putCon c b) ∧ b.Is l ∧ b.mp = (s.con c).mp := by
  obtain ⟨b, e, hr, hm, _⟩ := Buf.resize_ok (A.lit 0) (s.con c) h1 h2
  obtain ⟨b', e', hi, hm'⟩ := loop_list (put := s.putCon c) (on := onCon c) (fun m b => onCon_put s c m b) hr
  exact ⟨b', by unfold setCon; rw [M.bind_ok (onCon_ok e)]; exact e', hi, hm'.trans hm⟩

theorem initBuffer_ok {A : DArith T} {s : AV T} {x : Nat} {l : List T} (h1 : 1 ≤ l.length) (h2 : l.length ≤ 2 ^ 59) :
    ∃ b, initBuffer A x l s = (.ok (), s.putVal (.buffer, x) b) ∧ b.Is l ∧ b.mp = (s.val (.buffer, x)).mp := by
  obtain ⟨b, e, hr, hm, _⟩ := Buf.resize_ok (A.lit 0) (s.val (.buffer, x)) h1 h2
  obtain ⟨b', e', hi, hm'⟩ := loop_list (put := s.putVal (.buffer, x)) (on := onVal (.buffer, x))
    (fun m b => onVal_put s (.buffer, x) m b) hr
  exact ⟨b', by unfold initBuffer; rw [M.bind_ok (onVal_ok e)]; exact e', hi, hm'.trans hm⟩

theorem initSEXP_ok {A : DArith T} {s : AV T} {x : Nat} {l : List T} (h1 : 1 ≤ l.length) (h2 : l.length ≤ 2 ^ 59) :
    ∃ b, initSEXP A x l s = (.ok (), s.putVal (.sexp, x) b) ∧ b.Is l ∧ b.mp = (s.val (.sexp, x)).mp := by
  obtain ⟨b, e, hr, hm, _⟩ := Buf.resize_ok (A.lit 0) (s.val (.sexp, x)) h1 h2
  obtain ⟨b', e', hi, hm'⟩ := loop_list (put := s.putVal (.sexp, x)) (on := onVal (.sexp, x))
    (fun m b => onVal_put s (.sexp, x) m b) hr
  exact ⟨b', by unfold initSEXP; rw [M.bind_ok (onVal_ok e)]; exact e', hi, hm'.trans hm⟩

theorem assignCon_ok {A : DArith T} {s : AV T} {x : DVar} {c : Nat} {l : List T} (hx : x.1 = .buffer)
    (hc : (s.con c).Is l) (h1 : 1 ≤ l.length) (h2 : l.length ≤ 2 ^ 59) :
    ∃ bv bd, assignCon A x c s = (.ok (), (s.putVal x bv).putDer x bd) ∧ bv.Is l ∧ bv.mp = (s.val x).mp ∧
      bd.Is (List.replicate l.length (if s.indep = x.2 then A.lit 1 else A.lit 0)) := by
  obtain ⟨k, j⟩ := x
  simp only at hx
  subst hx
  obtain ⟨b, e, hr, hm⟩ := resize_val (A := A) (s := s) (x := (.buffer, j)) (by simp) h1 h2
  obtain ⟨bv, ev, rv, mv, hv⟩ := loop_set (put := s.putVal (.buffer, j)) (on := onVal (.buffer, j))
    (fun m b => onVal_put s (.buffer, j) m b) (m := fun i => M.reads (fun s => (s.con c).get i))
    (f := fun i => l.getD i (A.lit 0)) hr (by
      intro i hi b _ _ _
      rw [M.reads_apply, con_putVal, hc.2 i hi, getD_lt _ _ hi])
  obtain ⟨b2, e2, hr2, hm2, _⟩ := resize_der (A := A) (s := s.putVal (.buffer, j) bv) (x := (.buffer, j)) h1 h2
  obtain ⟨bd, ed, rd, md, hd⟩ := loop_set (put := (s.putVal (.buffer, j) bv).putDer (.buffer, j))
    (on := onDer (.buffer, j)) (fun m b => onDer_put _ (.buffer, j) m b)
    (m := fun i => (pure (if s.indep = j then A.lit 1 else A.lit 0) : M (AV T) T))
    (f := fun i => if s.indep = j then A.lit 1 else A.lit 0) hr2 (fun i _ b _ _ _ => rfl)
  refine ⟨bv, bd, ?_, ?_, mv.trans hm, ?_⟩
  · unfold assignCon
    rw [M.bind_ok (M.get_apply s), hc.1, M.bind_ok e, M.bind_ok ev, M.bind_ok e2]
    simpa using ed
  · refine Buf.is_of_cells rv ?_
    intro i hi
    rw [hv i hi, getD_lt _ _ hi]
  · refine Buf.is_of_cells (by simpa using rd) ?_
    intro i hi
    rw [hd i (by simpa using hi), List.getElem_replicate]

theorem assignVar_ok {A : DArith T} {s : AV T} {x y : DVar} {l d : List T} (hx : x.1 ≠ .borrow) (hne : y ≠ x)
    (hy : (s.val y).Is l) (hd : (s.der y).Is d) (hld : d.length = l.length) (h1 : 1 ≤ l.length) (h2 : l.length ≤ 2 ^ 59) :
    ∃ bv bd, assignVar A x y s = (.ok (), (s.putVal x bv).putDer x bd) ∧ bv.Is l ∧ bv.mp = (s.val x).mp ∧
      bd.Is d := by
  obtain ⟨b, e, hr, hm⟩ := resize_val (A := A) (s := s) (x := x) hx h1 h2
  obtain ⟨bv, ev, rv, mv, hv⟩ := loop_set (put := s.putVal x) (on := onVal x)
    (fun m b => onVal_put s x m b) (m := fun i => M.reads (fun s => DExpr.leafVal (s.val y) i))
    (f := fun i => l.getD i (A.lit 0)) hr (by
      intro i hi b _ _ _
      rw [M.reads_apply, val_putVal_ne _ _ hne, hy.leaf (by omega), getD_lt _ _ hi]
      simp only [Nat.mod_eq_of_lt hi])
  obtain ⟨b2, e2, hr2, hm2, _⟩ := resize_der (A := A) (s := s.putVal x bv) (x := x) h1 h2
  obtain ⟨bd, ed, rd, md, hd'⟩ := loop_set (put := (s.putVal x bv).putDer x)
    (on := onDer x) (fun m b => onDer_put _ x m b)
    (m := fun i => DExpr.varDeriv A y i)
    (f := fun i => d.getD i (A.lit 0)) hr2 (by
      intro i hi b _ _ _
      refine DExpr.varDeriv_ok ?_ ?_
      · rw [der_putDer_ne _ _ hne, val_putDer, der_putVal, val_putVal_ne _ _ hne, hd.1, hy.1, hld]
      · rw [der_putDer_ne _ _ hne, der_putVal, hd.leaf (by omega), getD_lt _ _ (by omega)]
        simp only [hld, Nat.mod_eq_of_lt hi])
  refine ⟨bv, bd, ?_, ?_, mv.trans hm, ?_⟩
  · unfold assignVar
    rw [M.bind_ok (M.get_apply s), hy.1, M.bind_ok e, M.bind_ok ev, M.bind_ok e2]
    exact ed
  · refine Buf.is_of_cells rv ?_
    intro i hi
    rw [hv i hi, getD_lt _ _ hi]
  · refine Buf.is_of_cells (by rw [hld]; exact rd) ?_
    intro i hi
    rw [hd' i (by omega), getD_lt _ _ hi]

/-- Assignment of an expression that sees the points `p i`. -/
theorem assignExpr_ok {A : DArith T} {s : AV T} {x : DVar} {e : DExpr} {n : Nat} {p : Nat → Pt T} {fv : Nat → T}
    (hx : x.1 = .buffer) (hn : e.size s = n) (h1 : 1 ≤ n) (h2 : n ≤ 2 ^ 59)
    (hv : ∀ i, i < n → e.elem A s i = .ok (fv i)) (hs : ∀ i, i < n → DExpr.SeesAt s (p i) e i)
    (hself : Occurs x e → (s.der x).Room n) :
    ∃ bv bd, assignExpr A x e s = (.ok (), (s.putDer x bd).putVal x bv) ∧ bv.Is ((List.range n).map fv) ∧
      bv.mp = (s.val x).mp ∧ bd.Is ((List.range n).map (fun i => e.gDer A (p i))) := by
  obtain ⟨b0, e0, hr0, hm0, hk0⟩ := resize_der (A := A) (s := s) (x := x) h1 h2
  have sees : ∀ i, i < n → ∀ b : Buf T, b.Room n → (∀ j, i ≤ j → b.cells[j]? = b0.cells[j]?) →
      DExpr.SeesAt (s.putDer x b) (p i) e i := by
    intro i hi b hb hc
    refine ⟨(hs i hi).con, (hs i hi).var, ?_, ?_⟩
    · intro y hy
      by_cases h : y = x
      · subst h
        have hroom := hself hy
        rw [der_putDer, val_putDer, hb.sz, ← (hs i hi).sz y hy, hroom.sz]
      · rw [der_putDer_ne _ _ h, val_putDer]; exact (hs i hi).sz y hy
    · intro y hy
      by_cases h : y = x
      · subst h
        have hroom := hself hy
        have hd := (hs i hi).der y hy
        have hb0 := hk0 hroom
        rw [der_putDer]
        unfold DExpr.leafVal at hd ⊢
        rw [hroom.sz, DExpr.modIdx_ok (by omega), Out.ok_bind, Nat.mod_eq_of_lt hi] at hd
        rw [hb.sz, DExpr.modIdx_ok (by omega), Out.ok_bind, Nat.mod_eq_of_lt hi]
        refine Buf.get_cell hb hi ?_
        rw [hc i (le_refl _), hb0]
        exact (Buf.get_inv hd).2.2
      · rw [der_putDer_ne _ _ h]; exact (hs i hi).der y hy
  obtain ⟨bd, ed, rd, md, hd⟩ := loop_set (put := s.putDer x) (on := onDer x) (fun m b => onDer_put _ x m b)
    (m := fun i => e.getDeriv A i) (f := fun i => e.gDer A (p i)) hr0 (by
      intro i hi b hb _ hc
      exact DExpr.getDeriv_ok (sees i hi b hb hc))
  obtain ⟨b1, e1, hr1, hm1⟩ := resize_val (A := A) (s := s.putDer x bd) (x := x) (by simp [hx]) h1 h2
  obtain ⟨k, j⟩ := x
  simp only at hx
  subst hx
  obtain ⟨bv, ev, hbv, mbv⟩ := loop_list (put := (s.putDer (.buffer, j) bd).putVal (.buffer, j))
    (on := onVal (.buffer, j)) (fun m b => onVal_put _ (.buffer, j) m b) (l := (List.range n).map fv) (b0 := b1)
    (by simpa using hr1)
  refine ⟨bv, bd, ?_, hbv, mbv.trans hm1, Buf.is_of_fun rd hd⟩
  have hall : Out.all ((List.range n).map (fun i => e.elem A s i)) = .ok ((List.range n).map fv) := by
    have : (List.range n).map (fun i => e.elem A s i) = (List.range n).map (fun i => Out.ok (fv i)) :=
      List.map_congr_left (fun i hi => hv i (List.mem_range.1 hi))
    rw [this, Out.all_map_ok]
  unfold assignExpr
  have ha : (M.ass (n ≥ 1) "Size has to be larger than 0" : M (AV T) Unit) s = (.ok (), s) := by
    unfold M.ass
    rw [M.lift_apply, Out.ass_pos h1]
  have hl : (M.lift (Out.all ((List.range n).map (fun i => e.elem A s i))) : M (AV T) (List T)) s
      = (.ok ((List.range n).map fv), s) := by rw [M.lift_apply, hall]
  rw [M.bind_ok (M.get_apply s), hn, M.bind_ok ha, M.bind_ok hl, M.bind_ok e0, M.bind_ok ed, M.bind_ok e1]
  have : ((List.range n).map fv).length = n := by simp
  rw [this] at ev
  exact ev

end AV
end ETR
