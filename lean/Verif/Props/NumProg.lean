import Verif.Props.RoundError
import Verif.Props.Control
import Verif.Spec.NumProg

/-! C109: the rounding error of numerical programs. -/

namespace ETR
open F64 Spec

/-- The naive state holds numbers that the numbers `η` describe. -/
structure NRel {α : Type} (R : α → ℚ → Prop) (p : PState Scal) (η : NState α) : Prop where
  next : p.next = η.next
  vars : ∀ x l, η.vars x = some l → ∃ (zs : List ℚ) (k : Kind), p.vars x = some ⟨zs.map dbl, k⟩ ∧ (k = .std ∨ k = .stolen) ∧
    List.Forall₂ R l zs

namespace NRel
variable {α : Type} {R : α → ℚ → Prop} {p : PState Scal} {η : NState α}

theorem lists (h : NRel R p η) (x : Nat) (l : List α) (hx : η.vars x = some l) :
    ∃ zs : List ℚ, p.lists x = some (zs.map dbl) ∧ List.Forall₂ R l zs := by
  obtain ⟨zs, k, e, _, r⟩ := h.vars x l hx
  exact ⟨zs, by simp only [PState.lists, e], r⟩

theorem new (h : NRel R p η) (n : Nat) {l : List α} {zs : List ℚ} (r : List.Forall₂ R l zs) {k : Kind}
    (hk : k = .std ∨ k = .stolen) : NRel R (p.new n ⟨zs.map dbl, k⟩) (η.new n l) where
  next := by simp only [PState.new, NState.new, h.next]
  vars x m hx := by
    simp only [NState.new] at hx
    simp only [PState.new, h.next]
    split at hx
    · rename_i h1
      cases hx
      exact ⟨zs, k, by rw [if_pos h1], hk, r⟩
    · rename_i h1
      rw [if_neg h1]
      exact h.vars x m hx

theorem put (h : NRel R p η) (x : Nat) {l : List α} {zs : List ℚ} (r : List.Forall₂ R l zs) {k : Kind}
    (hk : k = .std ∨ k = .stolen) : NRel R (p.put x (some ⟨zs.map dbl, k⟩)) (η.put x l) where
  next := h.next
  vars y m hy := by
    simp only [NState.put] at hy
    simp only [PState.put]
    split at hy
    · rename_i h1
      cases hy
      exact ⟨zs, k, by rw [if_pos h1], hk, r⟩
    · rename_i h1
      rw [if_neg h1]
      exact h.vars y m hy

theorem leave (h : NRel R p η) (lo : Nat) : NRel R (p.leave lo) (η.leave lo) where
  next := h.next
  vars y m hy := by
    simp only [NState.leave] at hy
    simp only [PState.leave]
    split at hy
    · rename_i h1
      rw [if_pos h1]
      exact h.vars y m hy
    · cases hy

end NRel

theorem lim_some {β : Type} {l m : List β} (h : lim l = some m) : m = l ∧ l ≠ [] ∧ l.length ≤ 2 ^ 30 := by
  unfold lim at h
  split at h
  · rename_i h1; cases h; exact ⟨rfl, h1⟩
  · cases h

theorem lim_of {β : Type} {l : List β} (h : l ≠ [] ∧ l.length ≤ 2 ^ 30) : lim l = some l := by
  unfold lim
  rw [if_pos h]

theorem lim_rel {α : Type} {R : α → ℚ → Prop} {l m : List α} {zs : List ℚ} (h : lim l = some m) (r : List.Forall₂ R l zs) :
    m = l ∧ lim (zs.map dbl) = some (zs.map dbl) := by
  obtain ⟨h1, h2, h3⟩ := lim_some h
  refine ⟨h1, lim_of ⟨?_, by rw [List.length_map, ← r.length_eq]; exact h3⟩⟩
  intro h0
  have := congrArg List.length h0
  rw [List.length_map, ← r.length_eq, List.length_nil, List.length_eq_zero_iff] at this
  exact h2 this

/-- The elements that are stored. -/
theorem mapM_toDouble {e : TForm} (he : e.retTy = .double) (zs : List ℚ) :
    (zs.map dbl).mapM (fun v => val (toDouble e v)) = some (zs.map dbl) := by
  apply mapM_intro rfl
  intro i h1 h2
  simp only [List.getElem_map, toDouble, conv_d, he]
  rfl

theorem allSome_rel {α : Type} {N : Numbers α} {R : α → ℚ → Prop} (D : Describes N R) {l : List ℚ} {m : List α}
    (h : allSome (l.map N.num) = some m) : List.Forall₂ R m l := by
  rw [List.forall₂_iff_get]
  obtain ⟨h2, h3⟩ := allSome_get h
  rw [List.length_map] at h2
  refine ⟨h2.symm, fun i h4 h5 => D.num _ _ ?_⟩
  have := h3 i h4
  simp only [List.getElem?_map, List.getElem?_eq_getElem h5, Option.map_some, Option.some.injEq] at this
  exact this

theorem step_of_own {V : Type} {zero : V} {p q : PState V} {c : Cmd V} (h : stepOwn zero p c = some q) : step zero p c = some q := by
  unfold step
  rw [h]

/-- The comparisons that are certain are those of the computed numbers. -/
def Decides {α : Type} (N : Numbers α) (R : α → ℚ → Prop) : Prop :=
  ∀ o a b t u v, N.cmp o a b = some t → R a u → R b v → o.f (.d (fin u)) (.d (fin v)) = .ok (.b t)

theorem sign_ok {v d w : ℚ} {t : Bool} (h : sign v d = some t) (hw : |w - v| ≤ d) : t = decide (0 < w) ∧ t = decide (0 ≤ w) := by
  obtain ⟨h1, h2⟩ := abs_le.1 hw
  unfold sign at h
  split at h
  · rename_i h3
    cases h
    have : 0 < w := by linarith [h3.2]
    simp [this, this.le]
  · split at h
    · rename_i h3
      cases h
      have : w < 0 := by linarith [h3.2]
      simp [this, this.le]
    · cases h

theorem sign_exact {v d : ℚ} {t : Bool} (h : sign v d = some t) : t = decide (0 < v) ∧ t = decide (0 ≤ v) := by
  unfold sign at h
  split at h
  · rename_i h3
    cases h
    simp [h3.1, h3.1.le]
  · split at h
    · rename_i h3
      cases h
      simp [h3.1, h3.1.le]
    · cases h

theorem c001_near : ∃ c, Trait.c001 = fin c ∧ |c - 1 / 1000| ≤ 1 / 2 ^ 60 := by
  refine ⟨_, rnd_fin_of_le (t := 1 / 1000) ?_, (rndQ_bound _).trans ?_⟩
  · rw [abs_of_pos (by norm_num)]
    exact le_trans (by norm_num : (1 / 1000 : ℚ) ≤ 1) (one_le_pow₀ (by norm_num))
  · have : (1 : ℚ) / 2 ^ 1075 ≤ 1 / 2 ^ 70 := one_div_le_one_div_of_le (by positivity) (pow_le_pow_right₀ (by norm_num) (by norm_num))
    refine le_trans (add_le_add_right this _) ?_
    rw [abs_of_pos (by norm_num)]
    norm_num

theorem equal_fin {u v z c : ℚ} (h : rnd (u - v) = fin z) (hc : Trait.c001 = fin c) :
    BinO.eq.f (.d (fin u)) (.d (fin v)) = .ok (.b (decide (|z| < c))) ∧ BinO.ne.f (.d (fin u)) (.d (fin v)) = .ok (.b (decide (c < |z|))) := by
  have e : F64.sub (fin u) (fin v) = fin z := by
    rw [← h, sub_eq_add_neg]
    rfl
  constructor
  · simp only [BinO.f, Trait.equal, Trait.diff, Scal.int?, Scal.toD, e, hc]; rfl
  · simp only [BinO.f, Trait.unequal, Trait.diff, Scal.int?, Scal.toD, e, hc]; rfl

theorem equal_near {p d u v z : ℚ} {t : Bool} (h : rnd (u - v) = fin z) (hz : |z - p| ≤ d) :
    (sign (1 / 1000 - |p|) (d + 1 / 2 ^ 60) = some t → BinO.eq.f (.d (fin u)) (.d (fin v)) = .ok (.b t)) ∧
    (sign (|p| - 1 / 1000) (d + 1 / 2 ^ 60) = some t → BinO.ne.f (.d (fin u)) (.d (fin v)) = .ok (.b t)) := by
  obtain ⟨c, hc, hn⟩ := c001_near
  have ha := (abs_abs_sub_abs_le z p).trans hz
  constructor
  · intro hs
    rw [(equal_fin h hc).1, (sign_ok (w := c - |z|) hs ?_).1]
    · simp only [sub_pos]
    rw [show c - |z| - (1 / 1000 - |p|) = (c - 1 / 1000) - (|z| - |p|) by ring]
    exact (abs_sub _ _).trans (by linarith)
  · intro hs
    rw [(equal_fin h hc).2, (sign_ok (w := |z| - c) hs ?_).1]
    · simp only [sub_pos]
    rw [show |z| - c - (|p| - 1 / 1000) = (|z| - |p|) - (c - 1 / 1000) by ring]
    exact (abs_sub _ _).trans (by linarith)

theorem compare_near {x y a b u v : ℚ} {t : Bool} (hu : |u - x| ≤ a) (hv : |v - y| ≤ b) (h : sign (y - x) (a + b) = some t) :
    t = decide (u < v) ∧ t = decide (u ≤ v) := by
  have := sign_ok (w := v - u) h (by
    rw [show v - u - (y - x) = (v - y) - (u - x) by ring]
    exact (abs_sub _ _).trans (by linarith))
  simpa [sub_pos, sub_nonneg] using this

theorem decides_withError : Decides withError (fun a z => |z - a.1| ≤ a.2) := by
  intro o a b t u v h hu hv
  have near : ∀ {c}, settle (a.1 - b.1) (a.2 + b.2) = some c → rnd (u - v) = fin (rndQ (u - v)) ∧ |rndQ (u - v) - c.1| ≤ c.2 :=
    fun h => settle_ok h (by
      rw [show u - v - (a.1 - b.1) = (u - a.1) - (v - b.1) by ring]
      exact (abs_sub _ _).trans (add_le_add hu hv))
  cases o <;> simp only [withError] at h
  case lt => rw [(compare_near hu hv h).1]; rfl
  case le => rw [(compare_near hu hv h).2]; rfl
  case gt => rw [(compare_near (t := t) hv hu (by rwa [add_comm])).1]; rfl
  case ge => rw [(compare_near (t := t) hv hu (by rwa [add_comm])).2]; rfl
  case eq =>
    simp only [Option.bind_eq_bind, Option.bind_eq_some_iff] at h
    obtain ⟨c, h1, h2⟩ := h
    exact (equal_near (near h1).1 (near h1).2).1 h2
  case ne =>
    simp only [Option.bind_eq_bind, Option.bind_eq_some_iff] at h
    obtain ⟨c, h1, h2⟩ := h
    exact (equal_near (near h1).1 (near h1).2).2 h2
  all_goals cases h

theorem withError_cmp {o : BinO} {a b : ℚ × ℚ} {t : Bool} (h : withError.cmp o a b = some t) : cmpQ o a.1 b.1 = some t := by
  cases o <;> simp only [withError] at h
  case lt => rw [(sign_exact h).1]; simp [cmpQ]
  case le => rw [(sign_exact h).2]; simp [cmpQ]
  case gt => rw [(sign_exact h).1]; simp [cmpQ]
  case ge => rw [(sign_exact h).2]; simp [cmpQ]
  case eq =>
    simp only [Option.bind_eq_bind, Option.bind_eq_some_iff] at h
    obtain ⟨c, h1, h2⟩ := h
    rw [(sign_exact h2).1, settle_fst h1]; simp [cmpQ]
  case ne =>
    simp only [Option.bind_eq_bind, Option.bind_eq_some_iff] at h
    obtain ⟨c, h1, h2⟩ := h
    rw [(sign_exact h2).1, settle_fst h1]; simp [cmpQ]
  all_goals cases h

theorem decides_counted : Decides counted (fun a z => 0 < a.1 ∧ a.2 ≤ 2 ^ 40 ∧ Near a.1 a.2 z) := by
  intro o a b t u v h hu hv
  have hu := near_err hu.2.1 hu.1 hu.2.2
  have hv := near_err hv.2.1 hv.1 hv.2.2
  cases o <;> simp only [counted] at h
  case lt => rw [(compare_near hu hv h).1]; rfl
  case le => rw [(compare_near hu hv h).2]; rfl
  case gt => rw [(compare_near (t := t) hv hu (by rwa [add_comm])).1]; rfl
  case ge => rw [(compare_near (t := t) hv hu (by rwa [add_comm])).2]; rfl
  all_goals cases h

theorem counted_cmp {o : BinO} {a b : ℚ × Nat} {t : Bool} (h : counted.cmp o a b = some t) : cmpQ o a.1 b.1 = some t := by
  cases o <;> simp only [counted] at h
  case lt => rw [(sign_exact h).1]; simp [cmpQ]
  case le => rw [(sign_exact h).2]; simp [cmpQ]
  case gt => rw [(sign_exact h).1]; simp [cmpQ]
  case ge => rw [(sign_exact h).2]; simp [cmpQ]
  all_goals cases h

theorem decides_representable : Decides representable (fun a z => z = a) := by
  intro o a b t u v h hu hv
  subst hu hv
  cases o <;> simp only [representable, cmpQ] at h
  case lt => cases h; rfl
  case le => cases h; rfl
  case gt => cases h; rfl
  case ge => cases h; rfl
  case eq =>
    split at h
    · rename_i h1
      exact (equal_near ((rnd_fin_iff _).2 h1) (p := u - v) (d := 0) (by simp)).1 (by rwa [zero_add])
    · cases h
  case ne =>
    split at h
    · rename_i h1
      exact (equal_near ((rnd_fin_iff _).2 h1) (p := u - v) (d := 0) (by simp)).2 (by rwa [zero_add])
    · cases h
  all_goals cases h

theorem representable_cmp {o : BinO} {a b : ℚ} {t : Bool} (h : representable.cmp o a b = some t) : cmpQ o a b = some t := by
  cases o <;> simp only [representable] at h
  case eq =>
    split at h
    · rw [(sign_exact h).1]; simp [cmpQ]
    · cases h
  case ne =>
    split at h
    · rw [(sign_exact h).1]; simp [cmpQ]
    · cases h
  all_goals exact h

/-- The condition of the C++ program. -/
theorem Describes.compares {α : Type} {N : Numbers α} {R : α → ℚ → Prop} (D : Describes N R) (C : Decides N R) {p : PState Scal}
    {η : NState α} (r : NRel R p η) {o : BinO} {l m : TForm} {t : Bool} (h : Spec.compares N o l m η = some t) :
    first p (TForm.bin o l m).toExpr = some (.b t) := by
  simp only [Spec.compares, Option.bind_eq_bind, Option.bind_eq_some_iff] at h
  obtain ⟨a, h1, b, h2, u, hu, v, hv, h3⟩ := h
  obtain ⟨_, zs, e1, r1⟩ := D.eval r.lists l a h1
  obtain ⟨_, ys, e2, r2⟩ := D.eval r.lists m b h2
  cases r1 with
  | nil => cases hu
  | cons ra _ =>
    cases r2 with
    | nil => cases hv
    | cons rb _ =>
      cases hu
      cases hv
      have := C o _ _ _ _ _ h3 ra rb
      unfold first
      simp only [TForm.toExpr, cellsOf, cells_eval _ e1, cells_eval _ e2, Option.bind_eq_bind, Option.bind_some, Option.pure_def]
      generalize hk : max (List.length _) (List.length _) = k
      rcases k with _ | k
      · simp at hk
      rw [List.range_succ_eq_map]
      simp [conv_d, this, val]

theorem isTrue_bin (o : BinO) (l r : TForm) (t : Bool) : isTrue (.bin o l r) (.b t) = t := by
  show F64.toBool (Scal.b t).toD = t
  cases t <;> decide +kernel

/-- A program over a kind of numbers that describes the operations describes the naive result. -/
theorem Describes.exec {α : Type} {N : Numbers α} {R : α → ℚ → Prop} (D : Describes N R) (C : Decides N R) (fuel : Nat) (c : NProg) :
    ∀ {p : PState Scal} {η η' : NState α}, NRel R p η → c.over N fuel η = some η' →
    ∃ p', Spec.exec (dbl 0) fuel c.toProg p = .done p' ∧ NRel R p' η' := by
  induction c with
  | skip => intro p η η' r h; cases h; exact ⟨p, rfl, r⟩
  | zeros n =>
    intro p η η' r h
    simp only [NProg.over, Option.bind_eq_bind, Option.bind_eq_some_iff, Option.some.injEq] at h
    obtain ⟨l, h1, m, h2, rfl⟩ := h
    obtain ⟨rfl, h3, h4⟩ := lim_some h1
    have e : List.replicate n (dbl 0) = (List.replicate n (0 : ℚ)).map dbl := by rw [List.map_replicate]
    refine ⟨_, ?_, r.new 0 (allSome_rel D h2) (.inl rfl)⟩
    simp only [NProg.toProg, Spec.exec]
    rw [step_of_own (q := p.new 0 ⟨(List.replicate n (0 : ℚ)).map dbl, .std⟩)]
    · rfl
    · simp only [stepOwn, e]
      rw [lim_of ⟨by simpa using h3, by simpa using h4⟩]
      rfl
  | lit l =>
    intro p η η' r h
    simp only [NProg.over, Option.bind_eq_bind, Option.bind_eq_some_iff, Option.some.injEq] at h
    obtain ⟨l', h1, m, h2, rfl⟩ := h
    obtain ⟨rfl, h3, h4⟩ := lim_some h1
    refine ⟨_, ?_, r.new 1 (allSome_rel D h2) (.inr rfl)⟩
    simp only [NProg.toProg, Spec.exec]
    rw [step_of_own (q := p.new 1 ⟨l'.map dbl, .stolen⟩)]
    · rfl
    · simp only [stepOwn]
      rw [lim_of ⟨by simpa using h3, by simpa using h4⟩]
      rfl
  | decl e =>
    intro p η η' r h
    simp only [NProg.over, Option.bind_eq_bind, Option.bind_eq_some_iff, Option.some.injEq] at h
    obtain ⟨l, h1, m, h2, rfl⟩ := h
    obtain ⟨_, zs, e1, r1⟩ := D.eval r.lists e l h1
    obtain ⟨rfl, h3⟩ := lim_rel h2 r1
    refine ⟨_, ?_, r.new 0 r1 (.inl rfl)⟩
    simp only [NProg.toProg, Spec.exec]
    rw [step_of_own (q := p.new 0 ⟨zs.map dbl, .std⟩)]
    · rfl
    · simp only [stepOwn, e1, mapM_toDouble (overL_retTy h1), h3, Option.bind_eq_bind, Option.bind_some, Option.pure_def]
  | assign x e =>
    intro p η η' r h
    simp only [NProg.over, Option.bind_eq_bind, Option.bind_eq_some_iff, Option.some.injEq] at h
    obtain ⟨w, h0, l, h1, m, h2, rfl⟩ := h
    obtain ⟨_, zs, e1, r1⟩ := D.eval r.lists e l h1
    obtain ⟨rfl, h3⟩ := lim_rel h2 r1
    obtain ⟨ws, k, e2, hk, _⟩ := r.vars x w h0
    refine ⟨_, ?_, r.put x r1 (.inl rfl)⟩
    simp only [NProg.toProg, Spec.exec]
    rw [step_of_own (q := p.put x (some ⟨zs.map dbl, .std⟩))]
    · rfl
    · have ha : k.assigned = some .std := by rcases hk with rfl | rfl <;> rfl
      simp only [stepOwn, e2, e1, mapM_toDouble (overL_retTy h1), h3, ha, Option.bind_eq_bind, Option.bind_some, Option.pure_def]
  | put x i e =>
    intro p η η' r h
    simp only [NProg.over, Option.bind_eq_bind, Option.bind_eq_some_iff] at h
    obtain ⟨w, h0, l, h1, v, hv, h2⟩ := h
    split at h2
    · rename_i hi
      cases h2
      obtain ⟨-, zs, e1, r1⟩ := D.eval r.lists e l h1
      obtain ⟨ws, k, e2, hk, r2⟩ := r.vars x w h0
      cases r1 with
      | nil => cases hv
      | cons ra rl =>
        cases hv
        rename_i z _ _
        have hset : List.Forall₂ R (w.set i v) (ws.set i z) := by
          rw [List.forall₂_iff_get] at r2 ⊢
          refine ⟨by simp [r2.1], fun j h3 h4 => ?_⟩
          simp only [List.get_eq_getElem, List.getElem_set]
          split
          · exact ra
          · exact r2.2 j (by simpa using h3) (by simpa using h4)
        refine ⟨_, ?_, r.put x hset hk⟩
        have hf : first p e.toExpr = some (dbl z) := by
          unfold first
          rw [cells_eval _ e1]
          rfl
        simp only [NProg.toProg, Spec.exec]
        rw [hf]
        simp only [withVal]
        rw [step_of_own (q := p.put x (some ⟨(ws.set i z).map dbl, k⟩))]
        have hi' : i < ws.length := by rw [← r2.length_eq]; exact hi
        simp only [stepOwn, e2, Option.bind_eq_bind, Option.bind_some, Option.pure_def, List.length_map, if_pos hi', List.map_set]
    · cases h2
  | seq a b iha ihb =>
    intro p η η' r h
    simp only [NProg.over, Option.bind_eq_bind, Option.bind_eq_some_iff] at h
    obtain ⟨η1, h1, h2⟩ := h
    obtain ⟨p1, e1, r1⟩ := iha r h1
    obtain ⟨p2, e2, r2⟩ := ihb r1 h2
    exact ⟨p2, by simp only [NProg.toProg, Spec.exec, e1, Res.andThen, e2], r2⟩
  | forInt a b body ih =>
    intro p η η' r h
    simp only [NProg.over] at h
    split at h
    · rename_i hb
      simp only [NProg.toProg, Spec.exec]
      rw [if_pos hb]
      clear hb
      generalize intSeq a b = is at h
      induction is generalizing p η with
      | nil => cases h; exact ⟨p, rfl, r⟩
      | cons i is ihl =>
        simp only [List.foldlM_cons, Option.bind_eq_bind, Option.bind_eq_some_iff] at h
        obtain ⟨η1, h1, h2⟩ := h
        obtain ⟨p1, e1, r1⟩ := ih i r h1
        obtain ⟨p2, e2, r2⟩ := ihl r1 h2
        exact ⟨p2, by simp only [each, e1, Res.andThen, e2], r2⟩
    · cases h
  | block body ih =>
    intro p η η' r h
    simp only [NProg.over, Option.map_eq_some_iff] at h
    obtain ⟨η1, h1, rfl⟩ := h
    obtain ⟨p1, e1, r1⟩ := ih r h1
    refine ⟨p1.leave p.next, by simp only [NProg.toProg, Spec.exec, e1, Res.leave], ?_⟩
    rw [r.next]
    exact r1.leave _
  | ite o l m a b iha ihb =>
    intro p η η' r h
    simp only [NProg.over, Option.bind_eq_bind, Option.bind_eq_some_iff] at h
    obtain ⟨t, h1, h2⟩ := h
    have e := D.compares C r h1
    simp only [NProg.toProg, Prog.ite, Spec.exec]
    rw [e]
    simp only [withVal, isTrue_bin]
    cases t with
    | true => exact iha r h2
    | false => exact ihb r h2
  | loop o l m body ih =>
    intro p η η' r h
    simp only [NProg.over] at h
    simp only [NProg.toProg, Spec.exec]
    suffices H : ∀ n {p : PState Scal} {η : NState α}, NRel R p η → repeats (Spec.compares N o l m) (body.over N fuel) n η = some η' →
        ∃ p', rounds (fun p => (first p (TForm.bin o l m).toExpr).map (isTrue (.bin o l m)))
          (fun p => readRejects p (TForm.bin o l m).toExpr) (Spec.exec (dbl 0) fuel body.toProg) n p = .done p' ∧ NRel R p' η' from
      H fuel r h
    intro n
    induction n with
    | zero => intro p η r h; cases h
    | succ n ihn =>
      intro p η r h
      simp only [repeats, Option.bind_eq_bind, Option.bind_eq_some_iff] at h
      obtain ⟨t, h1, h2⟩ := h
      simp only [rounds, D.compares C r h1, Option.map_some, withVal, isTrue_bin]
      cases t with
      | false => cases h2; exact ⟨p, rfl, r⟩
      | true =>
        simp only [if_true, Option.bind_eq_some_iff] at h2 ⊢
        obtain ⟨η1, h3, h4⟩ := h2
        obtain ⟨p1, e1, r1⟩ := ih r h3
        obtain ⟨p2, e2, r2⟩ := ihn r1 h4
        exact ⟨p2, by rw [e1]; exact e2, r2⟩

theorem Spec.NProg.wellFormed (c : NProg) : WellFormed c.toProg := by
  induction c with
  | seq a b iha ihb => exact ⟨iha, ihb⟩
  | forInt a b body ih => exact ih
  | block body ih => exact ih
  | put x i e => exact fun _ => trivial
  | ite o l r a b iha ihb => intro v; dsimp only; split <;> assumption
  | loop o l r body ih => exact ih
  | _ => trivial

/-- The exact values are the values over the rational numbers. -/
theorem Spec.NProg.over_fst {α : Type} {N : Numbers α} {f : α → ℚ} (hnum : ∀ q a, N.num q = some a → f a = q)
    (hneg : ∀ a b, N.neg a = some b → f b = - f a) (hop : ∀ o a b c, N.op o a b = some c → opQ o (f a) (f b) = some (f c))
    (hcmp : ∀ o a b t, N.cmp o a b = some t → cmpQ o (f a) (f b) = some t) {fuel : Nat} (c : NProg) : ∀ {η : NState α} {θ : NState ℚ} {η' : NState α}, θ.next = η.next →
    (∀ x l, η.vars x = some l → θ.vars x = some (l.map f)) → c.over N fuel η = some η' →
    ∃ θ', c.over rational fuel θ = some θ' ∧ θ'.next = η'.next ∧ ∀ x l, η'.vars x = some l → θ'.vars x = some (l.map f) := by
  have num : ∀ (l : List ℚ) (m : List α), allSome (l.map N.num) = some m → allSome (l.map rational.num) = some (m.map f) :=
    fun l m h => allSome_fst _ _ _ _ (fun q _ a ha => by rw [hnum q a ha]; rfl) h
  have new : ∀ {η : NState α} {θ : NState ℚ} (k : Nat) (m : List α), θ.next = η.next →
      (∀ x l, η.vars x = some l → θ.vars x = some (l.map f)) →
      ∀ x l, (η.new k m).vars x = some l → (θ.new k (m.map f)).vars x = some (l.map f) := by
    intro η θ k m h1 h2 x l hl
    simp only [NState.new] at hl ⊢
    rw [h1]
    split at hl
    · rename_i h3; cases hl; rw [if_pos h3]
    · rename_i h3; rw [if_neg h3]; exact h2 x l hl
  have put : ∀ {η : NState α} {θ : NState ℚ} (y : Nat) (m : List α),
      (∀ x l, η.vars x = some l → θ.vars x = some (l.map f)) →
      ∀ x l, (η.put y m).vars x = some l → (θ.put y (m.map f)).vars x = some (l.map f) := by
    intro η θ y m h2 x l hl
    simp only [NState.put] at hl ⊢
    split at hl
    · rename_i h3; cases hl; rw [if_pos h3]
    · rename_i h3; rw [if_neg h3]; exact h2 x l hl
  have limf : ∀ {l m : List α}, lim l = some m → m = l ∧ lim (l.map f) = some (l.map f) := by
    intro l m h
    obtain ⟨h1, h2, h3⟩ := lim_some h
    exact ⟨h1, lim_of ⟨by simpa using h2, by simpa using h3⟩⟩
  have test : ∀ {η : NState α} {θ : NState ℚ} {o : BinO} {l m : TForm} {t : Bool},
      (∀ x l, η.vars x = some l → θ.vars x = some (l.map f)) → Spec.compares N o l m η = some t →
      Spec.compares rational o l m θ = some t := by
    intro η θ o l m t h2 h
    simp only [Spec.compares, Option.bind_eq_bind, Option.bind_eq_some_iff] at h ⊢
    obtain ⟨a, h3, b, h4, u, hu, v, hv, h5⟩ := h
    exact ⟨_, overL_fst hnum hneg hop h2 l a h3, _, overL_fst hnum hneg hop h2 m b h4, f u, by rw [List.head?_map, hu]; rfl, f v,
      by rw [List.head?_map, hv]; rfl, hcmp _ _ _ _ h5⟩
  induction c with
  | skip => intro η θ η' h1 h2 h; cases h; exact ⟨θ, rfl, h1, h2⟩
  | zeros n =>
    intro η θ η' h1 h2 h
    simp only [NProg.over, Option.bind_eq_bind, Option.bind_eq_some_iff, Option.some.injEq] at h ⊢
    obtain ⟨l, h3, m, h4, rfl⟩ := h
    exact ⟨_, ⟨l, h3, _, num _ _ h4, rfl⟩, by simp [NState.new, h1], new 0 m h1 h2⟩
  | lit l =>
    intro η θ η' h1 h2 h
    simp only [NProg.over, Option.bind_eq_bind, Option.bind_eq_some_iff, Option.some.injEq] at h ⊢
    obtain ⟨l, h3, m, h4, rfl⟩ := h
    exact ⟨_, ⟨l, h3, _, num _ _ h4, rfl⟩, by simp [NState.new, h1], new 1 m h1 h2⟩
  | decl e =>
    intro η θ η' h1 h2 h
    simp only [NProg.over, Option.bind_eq_bind, Option.bind_eq_some_iff, Option.some.injEq] at h ⊢
    obtain ⟨l, h3, m, h4, rfl⟩ := h
    obtain ⟨rfl, h5⟩ := limf h4
    exact ⟨_, ⟨_, overL_fst hnum hneg hop h2 e _ h3, _, h5, rfl⟩, by simp [NState.new, h1], new 0 _ h1 h2⟩
  | assign x e =>
    intro η θ η' h1 h2 h
    simp only [NProg.over, Option.bind_eq_bind, Option.bind_eq_some_iff, Option.some.injEq] at h ⊢
    obtain ⟨w, h0, l, h3, m, h4, rfl⟩ := h
    obtain ⟨rfl, h5⟩ := limf h4
    exact ⟨_, ⟨_, h2 x w h0, _, overL_fst hnum hneg hop h2 e _ h3, _, h5, rfl⟩, by simp [NState.put, h1], put x _ h2⟩
  | put x i e =>
    intro η θ η' h1 h2 h
    simp only [NProg.over, Option.bind_eq_bind, Option.bind_eq_some_iff] at h ⊢
    obtain ⟨w, h0, l, h3, v, hv, h4⟩ := h
    split at h4
    · rename_i hi
      cases h4
      refine ⟨θ.put x ((w.set i v).map f), ⟨_, h2 x w h0, _, overL_fst hnum hneg hop h2 e _ h3, f v, ?_, ?_⟩, by simp [NState.put, h1],
        put x _ h2⟩
      · rw [List.head?_map, hv]; rfl
      · rw [List.length_map, if_pos hi, List.map_set]
    · cases h4
  | seq a b iha ihb =>
    intro η θ η' h1 h2 h
    simp only [NProg.over, Option.bind_eq_bind, Option.bind_eq_some_iff] at h ⊢
    obtain ⟨η1, h3, h4⟩ := h
    obtain ⟨θ1, k1, k2, k3⟩ := iha h1 h2 h3
    obtain ⟨θ2, k4, k5, k6⟩ := ihb k2 k3 h4
    exact ⟨θ2, ⟨θ1, k1, k4⟩, k5, k6⟩
  | forInt a b body ih =>
    intro η θ η' h1 h2 h
    simp only [NProg.over] at h ⊢
    split at h
    · rename_i hb
      rw [if_pos hb]
      clear hb
      generalize intSeq a b = is at h
      induction is generalizing η θ with
      | nil => cases h; exact ⟨θ, rfl, h1, h2⟩
      | cons i is ihl =>
        simp only [List.foldlM_cons, Option.bind_eq_bind, Option.bind_eq_some_iff] at h ⊢
        obtain ⟨η1, h3, h4⟩ := h
        obtain ⟨θ1, k1, k2, k3⟩ := ih i h1 h2 h3
        obtain ⟨θ2, k4, k5, k6⟩ := ihl k2 k3 h4
        exact ⟨θ2, ⟨θ1, k1, k4⟩, k5, k6⟩
    · cases h
  | block body ih =>
    intro η θ η' h1 h2 h
    simp only [NProg.over, Option.map_eq_some_iff] at h ⊢
    obtain ⟨η1, h3, rfl⟩ := h
    obtain ⟨θ1, k1, k2, k3⟩ := ih h1 h2 h3
    refine ⟨_, ⟨θ1, k1, rfl⟩, k2, fun x l hl => ?_⟩
    simp only [NState.leave] at hl ⊢
    rw [h1]
    split at hl
    · rename_i h5; rw [if_pos h5]; exact k3 x l hl
    · cases hl
  | ite o l m a b iha ihb =>
    intro η θ η' h1 h2 h
    simp only [NProg.over, Option.bind_eq_bind, Option.bind_eq_some_iff] at h
    obtain ⟨t, h3, h4⟩ := h
    simp only [NProg.over, test h2 h3, Option.bind_eq_bind, Option.bind_some]
    cases t with
    | true => exact iha h1 h2 h4
    | false => exact ihb h1 h2 h4
  | loop o l m body ih =>
    intro η θ η' h1 h2 h
    simp only [NProg.over] at h ⊢
    suffices H : ∀ n {η : NState α} {θ : NState ℚ}, θ.next = η.next → (∀ x l, η.vars x = some l → θ.vars x = some (l.map f)) →
        repeats (Spec.compares N o l m) (body.over N fuel) n η = some η' →
        ∃ θ', repeats (Spec.compares rational o l m) (body.over rational fuel) n θ = some θ' ∧ θ'.next = η'.next ∧
          ∀ x l, η'.vars x = some l → θ'.vars x = some (l.map f) from H fuel h1 h2 h
    intro n
    induction n with
    | zero => intro η θ _ _ h; cases h
    | succ n ihn =>
      intro η θ h1 h2 h
      simp only [repeats, Option.bind_eq_bind, Option.bind_eq_some_iff] at h
      obtain ⟨t, h3, h4⟩ := h
      simp only [repeats, test h2 h3, Option.bind_eq_bind, Option.bind_some]
      cases t with
      | false => cases h4; exact ⟨θ, rfl, h1, h2⟩
      | true =>
        simp only [if_true, Option.bind_eq_some_iff] at h4 ⊢
        obtain ⟨η1, h5, h6⟩ := h4
        obtain ⟨θ1, k1, k2, k3⟩ := ih h1 h2 h5
        obtain ⟨θ2, k4, k5, k6⟩ := ihn k2 k3 h6
        exact ⟨θ2, ⟨θ1, k1, k4⟩, k5, k6⟩

/-- The library's run of the program. -/
theorem Describes.run {α : Type} {N : Numbers α} {R : α → ℚ → Prop} (D : Describes N R) (C : Decides N R) (fuel : Nat) (c : NProg) {η : NState α}
    (h : c.over N fuel .empty = some η) (ws : List String) :
    ∃ ws' s, c.toProg.run (dbl 0) fuel (ws, Mach.start) = some (.ok (), (ws', s)) ∧
    ∀ x l, η.vars x = some l → ∃ zs : List ℚ, Mach.ShowsVar s x (zs.map dbl) ∧ List.Forall₂ R l zs := by
  obtain ⟨p, e, r⟩ := D.exec C fuel c (p := PState.empty) ⟨rfl, fun x l hx => by cases hx⟩ h
  obtain ⟨ws', s, e', sh⟩ := run_empty (dbl 0) fuel c.toProg c.wellFormed e ws
  refine ⟨ws', s, e', fun x l hx => ?_⟩
  obtain ⟨zs, e2, r2⟩ := r.lists x l hx
  exact ⟨zs, sh x _ e2, r2⟩

/-- C109 (partial: declarations, assignments of formulas of `+`, `-`, `*`, `/`, unary minus and subsets, writes to elements, blocks,
loops over a range of integers, `if` and `while` with comparisons that the errors cannot change).  Let exact values and error bounds be computed along the program, by the rule that each operation passes
on the errors of its operands and adds half a unit in the last place.  The program finishes, the first components are what the program
computes over the rational numbers, and every element of every vector is off by at most the bound. -/
theorem C109_error_partial (fuel : Nat) (c : NProg) (η : NState (ℚ × ℚ)) (h : c.over withError fuel .empty = some η) (ws : List String) :
    ∃ ws' s θ, c.toProg.run (.d (fin 0)) fuel (ws, Mach.start) = some (.ok (), (ws', s)) ∧ c.over rational fuel .empty = some θ ∧
    ∀ x l, η.vars x = some l → θ.vars x = some (l.map (·.1)) ∧ s.env.size x = l.length ∧
      ∀ i (hi : i < l.length), ∃ z, s.env.get x i = .ok (.d (fin z)) ∧ |z - l[i].1| ≤ l[i].2 := by
  obtain ⟨ws', s, e, sh⟩ := describes_withError.run decides_withError fuel c h ws
  obtain ⟨θ, k1, _, k2⟩ := c.over_fst (f := (·.1)) (θ := .empty) (fun q a h => by cases h; rfl) (fun a b h => by cases h; rfl)
    (fun _ _ _ _ h => withError_op h) (fun _ _ _ _ h => withError_cmp h) rfl (fun x l hx => by cases hx) h
  refine ⟨ws', s, θ, e, k1, fun x l hx => ⟨k2 x l hx, ?_⟩⟩
  obtain ⟨zs, ⟨h1, h2⟩, r⟩ := sh x l hx
  rw [List.length_map] at h1
  refine ⟨by rw [h1, r.length_eq], fun i hi => ?_⟩
  have hi' : i < zs.length := by rw [← r.length_eq]; exact hi
  exact ⟨zs[i], by rw [h2 i (by simpa using hi'), List.getElem_map], forall₂_get r i hi hi'⟩

/-- C109, relative (partial: formulas of `+`, `*`, `/` and subsets of positive doubles).  If no intermediate value is outside
`2^(-1000) … 2^1000` and an element goes through `n ≤ 2^40` roundings, its relative error is at most `n · 2^(-52)`. -/
theorem C109_relative_partial (fuel : Nat) (c : NProg) (η : NState (ℚ × Nat)) (h : c.over counted fuel .empty = some η) (ws : List String) :
    ∃ ws' s θ, c.toProg.run (.d (fin 0)) fuel (ws, Mach.start) = some (.ok (), (ws', s)) ∧ c.over rational fuel .empty = some θ ∧
    ∀ x l, η.vars x = some l → θ.vars x = some (l.map (·.1)) ∧ s.env.size x = l.length ∧
      ∀ i (hi : i < l.length), ∃ z, s.env.get x i = .ok (.d (fin z)) ∧ |z - l[i].1| ≤ l[i].1 * (l[i].2 / 2 ^ 52) := by
  obtain ⟨ws', s, e, sh⟩ := describes_counted.run decides_counted fuel c h ws
  obtain ⟨θ, k1, _, k2⟩ := c.over_fst (f := (·.1)) (θ := .empty) (fun q a h => moderate_fst h) (fun a b h => by cases h)
    (fun _ _ _ _ h => counted_op h) (fun _ _ _ _ h => counted_cmp h) rfl (fun x l hx => by cases hx) h
  refine ⟨ws', s, θ, e, k1, fun x l hx => ⟨k2 x l hx, ?_⟩⟩
  obtain ⟨zs, ⟨h1, h2⟩, r⟩ := sh x l hx
  rw [List.length_map] at h1
  refine ⟨by rw [h1, r.length_eq], fun i hi => ?_⟩
  have hi' : i < zs.length := by rw [← r.length_eq]; exact hi
  obtain ⟨g1, g2, g3⟩ := forall₂_get r i hi hi'
  exact ⟨zs[i], by rw [h2 i (by simpa using hi'), List.getElem_map], near_err g2 g1 g3⟩

/-- C109, exact (partial: as `C109_error_partial`).  If the exact result of every operation is a binary64 number, the vectors hold what
the program computes over the rational numbers. -/
theorem C109_exact_partial (fuel : Nat) (c : NProg) (η : NState ℚ) (h : c.over representable fuel .empty = some η) (ws : List String) :
    ∃ ws' s θ, c.toProg.run (.d (fin 0)) fuel (ws, Mach.start) = some (.ok (), (ws', s)) ∧ c.over rational fuel .empty = some θ ∧
    ∀ x l, η.vars x = some l → θ.vars x = some l ∧ s.env.size x = l.length ∧
      ∀ i (hi : i < l.length), s.env.get x i = .ok (.d (fin l[i])) := by
  obtain ⟨ws', s, e, sh⟩ := describes_representable.run decides_representable fuel c h ws
  obtain ⟨θ, k1, _, k2⟩ := c.over_fst (f := id) (θ := .empty) (fun q a h => by cases h; rfl) (fun a b h => by cases h; rfl)
    (fun _ _ _ _ h => representable_op h) (fun _ _ _ _ h => representable_cmp h) rfl (fun x l hx => by cases hx) h
  refine ⟨ws', s, θ, e, k1, fun x l hx => ⟨by simpa using k2 x l hx, ?_⟩⟩
  obtain ⟨zs, ⟨h1, h2⟩, r⟩ := sh x l hx
  rw [List.length_map] at h1
  refine ⟨by rw [h1, r.length_eq], fun i hi => ?_⟩
  have hi' : i < zs.length := by rw [← r.length_eq]; exact hi
  rw [h2 i (by simpa using hi'), List.getElem_map, forall₂_get r i hi hi']

theorem moderate_of {v : ℚ} {n : Nat} (h1 : 1 / 2 ^ 1000 ≤ v) (h2 : v ≤ 2 ^ 1000) (h3 : n ≤ 2 ^ 40) : moderate v n = some (v, n) := by
  unfold moderate
  rw [if_pos ⟨h1, h2, h3⟩]

/-- `1, …, n` and `2, …, n`. -/
theorem intSeq_up {a b : Int} (m : Nat) (h : b = a + m) : intSeq a b = (List.range (m + 1)).map (fun (i : Nat) => a + i) := by
  unfold intSeq
  rw [if_pos (by omega)]
  congr 2
  omega

/-- `x = coca(xs); s = x(1); for (auto i : colon(2, n)) s = s + x(i);`. -/
def sumProg (xs : List ℚ) : NProg :=
  .seq (.lit xs) <| .seq (.decl (.sub (.leaf .double 1) [0] {})) <|
    .forInt 2 xs.length (fun i => .assign 2 (.bin .plus (.leaf .double 2) (.sub (.leaf .double 1) [(i - 1).toNat] {})))

/-- After `k` elements. -/
def sumState (xs : List ℚ) (k : Nat) : NState (ℚ × Nat) :=
  ⟨3, fun y => if y = 2 then some [((xs.take k).sum, k - 1)] else if y = 1 then some (xs.map (·, 0)) else none⟩

theorem sum_counted (fuel : Nat) (xs : List ℚ) (hn : 2 ≤ xs.length) (hn' : xs.length ≤ 2 ^ 29) (hx : ∀ x ∈ xs, 1 / 2 ^ 1000 ≤ x)
    (hs : xs.sum ≤ 2 ^ 1000) : (sumProg xs).over counted fuel .empty = some (sumState xs xs.length) := by
  have hp : (0 : ℚ) < 1 / 2 ^ 1000 := by positivity
  have h0 : ∀ x ∈ xs, 0 ≤ x := fun x h => hp.le.trans (hx x h)
  have part : ∀ k, (xs.take k).sum ≤ xs.sum := by
    intro k
    conv_rhs => rw [← List.take_append_drop k xs, List.sum_append]
    exact le_add_of_nonneg_right (List.sum_nonneg (fun x h => h0 x (List.mem_of_mem_drop h)))
  have elem : ∀ i (hi : i < xs.length), (xs.take (i + 1)).sum = (xs.take i).sum + xs[i] := by
    intro i hi
    rw [List.take_succ_eq_append_getElem hi, List.sum_append, List.sum_singleton]
  have parts : ∀ k, 0 ≤ (xs.take k).sum := fun k => List.sum_nonneg (fun x h => h0 x (List.mem_of_mem_take h))
  have le : ∀ i (hi : i < xs.length), xs[i] ≤ 2 ^ 1000 := fun i hi => by
    have := (elem i hi) ▸ part (i + 1)
    have := parts i
    linarith
  have num : allSome (xs.map counted.num) = some (xs.map (·, 0)) := by
    have : ∀ l : List ℚ, (∀ x ∈ l, x ∈ xs) → allSome (l.map counted.num) = some (l.map (·, 0)) := by
      intro l
      induction l with
      | nil => intro _; rfl
      | cons x l ih =>
        intro h
        have hm := h x (by simp)
        obtain ⟨i, hi, rfl⟩ := List.getElem_of_mem hm
        have : counted.num xs[i] = some (xs[i], 0) := moderate_of (hx _ hm) (le i hi) (by norm_num)
        rw [List.map_cons, this, allSome, ih (fun y hy => h y (by simp [hy]))]
        rfl
    exact this xs (fun _ h => h)
  have hl : lim xs = some xs := lim_of ⟨by rintro rfl; simp at hn, by omega⟩
  have e0 : (0 : Nat) < xs.length := by omega
  have first : ((NProg.lit xs).over counted fuel .empty).bind ((NProg.decl (.sub (.leaf .double 1) [0] {})).over counted fuel)
      = some (sumState xs 1) := by
    have hne : xs.map (fun q : ℚ => (q, 0)) ≠ [] := by
      intro h
      have := congrArg List.length h
      simp at this
      subst this
      simp at hn
    simp only [NProg.over, hl, num, Option.bind_eq_bind, Option.bind_some, overL, NState.new, NState.empty, if_true, if_neg hne,
      List.length_map]
    rw [if_pos ⟨by simp, by simpa [Nat.succ_le_iff] using e0⟩]
    simp only [List.map_cons, List.map_nil, List.getElem?_map, List.getElem?_eq_getElem e0, Option.map_some, allSome, Option.bind_some,
      lim, ne_eq, reduceCtorEq, not_false_eq_true, List.length_cons, List.length_nil, true_and]
    rw [if_pos (by norm_num)]
    simp only [Option.bind_some, Option.some.injEq, sumState, NState.mk.injEq, true_and]
    refine funext fun y => ?_
    rw [elem 0 e0]
    simp
  have round : ∀ k, 1 ≤ k → k < xs.length →
      (NProg.assign 2 (.bin .plus (.leaf .double 2) (.sub (.leaf .double 1) [k] {}))).over counted fuel (sumState xs k)
        = some (sumState xs (k + 1)) := by
    intro k hk hk'
    have hm : moderate ((xs.take k).sum + xs[k]) (k - 1 + 1) = some ((xs.take (k + 1)).sum, k) := by
      rw [← elem k hk', Nat.sub_add_cancel hk]
      refine moderate_of ?_ ((part _).trans hs) (by omega)
      rw [elem k hk']
      exact (hx _ (List.getElem_mem hk')).trans (le_add_of_nonneg_left (parts k))
    have hne : xs.map (fun q : ℚ => (q, 0)) ≠ [] := by
      intro h
      have := congrArg List.length h
      simp at this
      subst this
      simp at hn
    have e : overL counted (sumState xs k).vars (.bin .plus (.leaf .double 2) (.sub (.leaf .double 1) [k] {}))
        = some [((xs.take (k + 1)).sum, k)] := by
      have e1 : overL counted (sumState xs k).vars (.leaf .double 2) = some [((xs.take k).sum, k - 1)] := by
        simp [overL, sumState]
      have e2 : overL counted (sumState xs k).vars (.sub (.leaf .double 1) [k] {}) = some [(xs[k], 0)] := by
        have e3 : overL counted (sumState xs k).vars (.leaf .double 1) = some (xs.map (·, 0)) := by
          simp only [overL, sumState, Option.bind_eq_bind]
          rw [if_neg (by norm_num), if_pos trivial, Option.bind_some, if_neg hne]
        simp only [overL, Option.bind_eq_bind] at e3 ⊢
        rw [e3]
        simp [allSome, hk', e0, Nat.succ_le_iff]
      rw [overL, e1, e2]
      have e4 : counted.op .plus ((xs.take k).sum, k - 1) (xs[k], 0) = some ((xs.take (k + 1)).sum, k) := by
        simp only [counted]
        rw [Nat.max_zero]
        exact hm
      simp [allSome, e4]
    simp only [NProg.over, Option.bind_eq_bind]
    rw [show (sumState xs k).vars 2 = some [((xs.take k).sum, k - 1)] from rfl, e]
    simp only [Option.bind_some, lim, ne_eq, reduceCtorEq, not_false_eq_true, List.length_cons, List.length_nil, true_and]
    rw [if_pos (by norm_num)]
    simp only [Option.bind_some, Option.some.injEq, sumState, NState.put, NState.mk.injEq, true_and]
    refine funext fun y => ?_
    split <;> simp_all
  have loop : ∀ m, m + 1 ≤ xs.length → ((List.range m).map (fun (i : Nat) => (2 : Int) + i)).foldlM
      (fun η i => (NProg.assign 2 (.bin .plus (.leaf .double 2) (.sub (.leaf .double 1) [(i - 1).toNat] {}))).over counted fuel η)
      (sumState xs 1) = some (sumState xs (m + 1)) := by
    intro m
    induction m with
    | zero => intro _; rfl
    | succ m ih =>
      intro h
      rw [List.range_succ, List.map_append, List.foldlM_append, ih (by omega)]
      have : ((2 : Int) + (m : Nat) - 1).toNat = m + 1 := by omega
      simp only [List.map_cons, List.map_nil, List.foldlM_cons, List.foldlM_nil, this, Option.bind_eq_bind, Option.bind_some]
      rw [round (m + 1) (by omega) (by omega)]
      rfl
  obtain ⟨m, hm⟩ : ∃ m, xs.length = m + 2 := ⟨xs.length - 2, by omega⟩
  have hs2 : intSeq 2 xs.length = (List.range (m + 1)).map (fun (i : Nat) => (2 : Int) + i) := intSeq_up m (by omega)
  unfold sumProg
  rw [NProg.over, Option.bind_eq_bind]
  simp only [show ∀ a b, (NProg.seq a b).over counted fuel = fun η => (a.over counted fuel η).bind (b.over counted fuel) from fun a b => rfl]
  rw [← Option.bind_assoc, first, Option.bind_some, NProg.over, if_pos (by omega), hs2, loop (m + 1) (by omega), hm]

/-- C109: a loop that adds up `n` positive numbers (`2 ≤ n ≤ 2^29`, each at least `2^(-1000)`, the sum at most `2^1000`) has a relative
error of at most `(n - 1) · 2^(-52)`. -/
theorem C109_sum (fuel : Nat) (xs : List ℚ) (hn : 2 ≤ xs.length) (hn' : xs.length ≤ 2 ^ 29) (hx : ∀ x ∈ xs, 1 / 2 ^ 1000 ≤ x)
    (hs : xs.sum ≤ 2 ^ 1000) (ws : List String) :
    ∃ ws' s z, (sumProg xs).toProg.run (.d (fin 0)) fuel (ws, Mach.start) = some (.ok (), (ws', s)) ∧ s.env.size 2 = 1 ∧
    s.env.get 2 0 = .ok (.d (fin z)) ∧ |z - xs.sum| ≤ xs.sum * (((xs.length - 1 : Nat) : ℚ) / 2 ^ 52) := by
  obtain ⟨ws', s, _, e, _, h⟩ := C109_relative_partial fuel _ _ (sum_counted fuel xs hn hn' hx hs) ws
  obtain ⟨_, h1, h2⟩ := h 2 _ rfl
  obtain ⟨z, z1, z2⟩ := h2 0 (by simp)
  simp only [List.take_length, List.getElem_cons_zero] at z2
  exact ⟨ws', s, z, e, h1, z1, z2⟩

/-- Ten times `0.1` (its binary64 value). -/
example : 2 ≤ (List.replicate 10 (3602879701896397 / 36028797018963968 : ℚ)).length ∧
    (List.replicate 10 (3602879701896397 / 36028797018963968 : ℚ)).length ≤ 2 ^ 29 ∧
    (∀ x ∈ List.replicate 10 (3602879701896397 / 36028797018963968 : ℚ), 1 / 2 ^ 1000 ≤ x) ∧
    (List.replicate 10 (3602879701896397 / 36028797018963968 : ℚ)).sum ≤ 2 ^ 1000 := by decide +kernel

/-- `y = coca(y0); for (auto i : colon(1, n)) y = y + h * y;`: the explicit Euler method for `y' = y` with steps of length `h`. -/
def eulerProg (y0 h : ℚ) (n : Nat) : NProg :=
  .seq (.lit [y0]) <|
    .forInt 1 n (fun _ => .assign 1 (.bin .plus (.leaf .double 1) (.bin .times (.scal (.d (fin h))) (.leaf .double 1))))

/-- After `k` steps. -/
def eulerState (y0 h : ℚ) (k : Nat) : NState (ℚ × Nat) :=
  ⟨2, fun y => if y = 1 then some [(y0 * (1 + h) ^ k, 2 * k)] else none⟩

theorem euler_counted (fuel : Nat) (y0 h : ℚ) (n : Nat) (hn : 1 ≤ n) (hn' : n ≤ 2 ^ 29) (hy : 1 / 2 ^ 1000 ≤ y0) (hh : 1 / 2 ^ 1000 ≤ h)
    (hh' : h ≤ 2 ^ 1000) (hhy : 1 / 2 ^ 1000 ≤ h * y0) (hb : y0 * (1 + h) ^ n ≤ 2 ^ 1000) :
    (eulerProg y0 h n).over counted fuel .empty = some (eulerState y0 h n) := by
  have hp : (0 : ℚ) < 1 / 2 ^ 1000 := by positivity
  have y1 : 0 < y0 := lt_of_lt_of_le hp hy
  have h1 : 0 < h := lt_of_lt_of_le hp hh
  have up : ∀ k, 1 ≤ (1 + h) ^ k := fun k => one_le_pow₀ (by linarith)
  have le : ∀ k, k ≤ n → y0 * (1 + h) ^ k ≤ 2 ^ 1000 := fun k hk => by
    refine le_trans ?_ hb
    exact mul_le_mul_of_nonneg_left (pow_le_pow_right₀ (by linarith) hk) y1.le
  have ge : ∀ k, y0 ≤ y0 * (1 + h) ^ k := fun k => le_mul_of_one_le_right y1.le (up k)
  have round : ∀ k, k < n →
      (NProg.assign 1 (.bin .plus (.leaf .double 1) (.bin .times (.scal (.d (fin h))) (.leaf .double 1)))).over counted fuel
        (eulerState y0 h k) = some (eulerState y0 h (k + 1)) := by
    intro k hk
    have e : overL counted (eulerState y0 h k).vars (.bin .plus (.leaf .double 1) (.bin .times (.scal (.d (fin h))) (.leaf .double 1)))
        = some [(y0 * (1 + h) ^ (k + 1), 2 * (k + 1))] := by
      have e1 : overL counted (eulerState y0 h k).vars (.leaf .double 1) = some [(y0 * (1 + h) ^ k, 2 * k)] := by
        simp [overL, eulerState]
      have e2 : overL counted (eulerState y0 h k).vars (.scal (.d (fin h))) = some [(h, 0)] := by
        have : counted.num h = some (h, 0) := moderate_of hh hh' (by norm_num)
        simp [overL, this, allSome]
      have s1 : y0 * (1 + h) ^ (k + 1) = y0 * (1 + h) ^ k + h * (y0 * (1 + h) ^ k) := by ring
      have g1 : h * (y0 * (1 + h) ^ k) ≤ y0 * (1 + h) ^ (k + 1) := by
        rw [s1]
        exact le_add_of_nonneg_left (y1.le.trans (ge k))
      have e3 : counted.op .times (h, 0) (y0 * (1 + h) ^ k, 2 * k) = some (h * (y0 * (1 + h) ^ k), 2 * k + 1) := by
        simp only [counted, Nat.zero_add]
        refine moderate_of (hhy.trans ?_) (g1.trans (le _ (by omega))) (by omega)
        exact mul_le_mul_of_nonneg_left (ge k) h1.le
      have e4 : counted.op .plus (y0 * (1 + h) ^ k, 2 * k) (h * (y0 * (1 + h) ^ k), 2 * k + 1)
          = some (y0 * (1 + h) ^ (k + 1), 2 * (k + 1)) := by
        simp only [counted]
        rw [← s1, show max (2 * k) (2 * k + 1) + 1 = 2 * (k + 1) by omega]
        exact moderate_of (hy.trans (ge _)) (le _ (by omega)) (by omega)
      rw [overL, e1, overL, e2, e1]
      simp [allSome, e3, e4]
    simp only [NProg.over, Option.bind_eq_bind]
    rw [show (eulerState y0 h k).vars 1 = some [(y0 * (1 + h) ^ k, 2 * k)] from rfl, e]
    simp only [Option.bind_some, lim, ne_eq, reduceCtorEq, not_false_eq_true, List.length_cons, List.length_nil, true_and]
    rw [if_pos (by norm_num)]
    simp only [Option.bind_some, Option.some.injEq, eulerState, NState.put, NState.mk.injEq, true_and]
    refine funext fun y => ?_
    split <;> simp_all
  have loop : ∀ m, m ≤ n → ((List.range m).map (fun (i : Nat) => (1 : Int) + i)).foldlM
      (fun η _ => (NProg.assign 1 (.bin .plus (.leaf .double 1) (.bin .times (.scal (.d (fin h))) (.leaf .double 1)))).over counted fuel η)
      (eulerState y0 h 0) = some (eulerState y0 h m) := by
    intro m
    induction m with
    | zero => intro _; rfl
    | succ m ih =>
      intro hm
      rw [List.range_succ, List.map_append, List.foldlM_append, ih (by omega)]
      simp only [List.map_cons, List.map_nil, List.foldlM_cons, List.foldlM_nil, Option.bind_eq_bind, Option.bind_some]
      rw [round m (by omega)]
      rfl
  obtain ⟨m, rfl⟩ : ∃ m, n = m + 1 := ⟨n - 1, by omega⟩
  have first : (NProg.lit [y0]).over counted fuel .empty = some (eulerState y0 h 0) := by
    have hm : counted.num y0 = some (y0, 0) := moderate_of hy (by simpa using le 0 (by omega)) (by norm_num)
    simp only [NProg.over, lim, ne_eq, reduceCtorEq, not_false_eq_true, List.length_cons, List.length_nil, true_and]
    rw [if_pos (by norm_num)]
    simp [hm, allSome, eulerState, NState.new, NState.empty]
  unfold eulerProg
  rw [NProg.over, first, Option.bind_eq_bind, Option.bind_some, NProg.over, if_pos (by omega),
    intSeq_up (a := 1) (b := (m + 1 : Nat)) m (by omega), loop (m + 1) le_rfl]

/-- C109: `n` steps of the explicit Euler method for `y' = y` give `y0 · (1 + h)^n` with a relative error of at most `2n · 2^(-52)`. -/
theorem C109_euler (fuel : Nat) (y0 h : ℚ) (n : Nat) (hn : 1 ≤ n) (hn' : n ≤ 2 ^ 29) (hy : 1 / 2 ^ 1000 ≤ y0) (hh : 1 / 2 ^ 1000 ≤ h)
    (hh' : h ≤ 2 ^ 1000) (hhy : 1 / 2 ^ 1000 ≤ h * y0) (hb : y0 * (1 + h) ^ n ≤ 2 ^ 1000) (ws : List String) :
    ∃ ws' s z, (eulerProg y0 h n).toProg.run (.d (fin 0)) fuel (ws, Mach.start) = some (.ok (), (ws', s)) ∧ s.env.size 1 = 1 ∧
    s.env.get 1 0 = .ok (.d (fin z)) ∧ |z - y0 * (1 + h) ^ n| ≤ y0 * (1 + h) ^ n * (((2 * n : Nat) : ℚ) / 2 ^ 52) := by
  obtain ⟨ws', s, _, e, _, k⟩ := C109_relative_partial fuel _ _ (euler_counted fuel y0 h n hn hn' hy hh hh' hhy hb) ws
  obtain ⟨_, h1, h2⟩ := k 1 _ rfl
  obtain ⟨z, z1, z2⟩ := h2 0 (by simp)
  exact ⟨ws', s, z, e, h1, z1, z2⟩

/-- Thousand steps of length `2^(-10)`. -/
example : (1 : Nat) ≤ 1000 ∧ 1000 ≤ 2 ^ 29 ∧ (1 / 2 ^ 1000 : ℚ) ≤ 1 ∧ (1 / 2 ^ 1000 : ℚ) ≤ 1 / 1024 ∧ (1 / 1024 : ℚ) ≤ 2 ^ 1000 ∧
    (1 / 2 ^ 1000 : ℚ) ≤ 1 / 1024 * 1 ∧ (1 : ℚ) * (1 + 1 / 1024) ^ 1000 ≤ 2 ^ 1000 := by decide +kernel

/-- Horner's rule for `a(1) + a(2) x + a(3) x^2` at two points, and the results in a vector: blocks, writes to elements and subtractions. -/
def hornerProg : NProg :=
  .seq (.lit [1, -3, 1 / 2]) <| .seq (.lit [1 / 3, 10]) <| .seq (.zeros 2) <| .forInt 0 1 fun j => .block <|
    .seq (.decl (.sub (.leaf .double 1) [2] {})) <| .seq
      (.forInt 1 0 fun i => .assign (5 + j.toNat)
        (.bin .plus (.bin .times (.leaf .double (5 + j.toNat)) (.sub (.leaf .double 3) [j.toNat] {})) (.sub (.leaf .double 1) [i.toNat] {})))
      (.put 4 j.toNat (.leaf .double (5 + j.toNat)))

/-- The hypothesis of `C109_error_partial`, the exact values and bounds that are small. -/
example : ((hornerProg.over withError 0 .empty).bind (fun η => η.vars 4)).map (·.map (·.1)) = some [1 / 18, 21] ∧
    (hornerProg.over withError 0 .empty).isSome = true ∧
    (((hornerProg.over withError 0 .empty).bind (fun η => η.vars 4)).getD []).all (fun a => 0 < a.2 ∧ a.2 < 1 / 2 ^ 45) = true ∧
    (hornerProg.over withError 0 .empty).map (fun η => (η.vars 5).isNone) = some true := by decide +kernel

/-- The hypothesis of `C109_relative_partial`. -/
example : ((sumProg [1, 2, 1 / 3]).over counted 0 .empty).bind (fun η => η.vars 2) = some [(10 / 3, 2)] ∧
    (hornerProg.over counted 0 .empty).isNone = true := by decide +kernel

/-- The hypothesis of `C109_exact_partial`: dyadic steps are exact, a third is not. -/
example : ((eulerProg 1 (1 / 4) 3).over representable 0 .empty).bind (fun η => η.vars 1) = some [125 / 64] ∧
    (hornerProg.over representable 0 .empty).isNone = true := by decide +kernel

/-- `y = 2^53; for (auto i : colon(1, 2)) y = y + 1; y = y - 2^53;`. -/
def cancelProg : NProg :=
  .seq (.lit [2 ^ 53]) <| .seq (.forInt 1 2 fun _ => .assign 1 (.bin .plus (.leaf .double 1) (.scal (.d (fin 1)))))
    (.assign 1 (.bin .minus (.leaf .double 1) (.scal (.d (fin (2 ^ 53))))))

/-- C109: no bound that is relative to the exact result holds when numbers are subtracted: the exact result of `cancelProg` is 2, and 0
is stored. -/
theorem C109_relative_false : ∃ c : NProg, (c.over rational 0 .empty).bind (fun θ => θ.vars 1) = some [2] ∧
    (c.toProg.run (.d (fin 0)) 0 ([], Mach.start)).map (fun r => (r.1, r.2.2.env.size 1, r.2.2.env.get 1 0))
      = some (.ok (), 1, .ok (.d (fin 0))) :=
  ⟨cancelProg, by decide +kernel, by decide +kernel⟩

/-- `y = coca(2^m); k = coca(0); while (y > 1) { y = y / 2; k = k + 1; }`. -/
def halveProg (m : Nat) : NProg :=
  .seq (.lit [2 ^ m]) <| .seq (.lit [0]) <| .loop .gt (.leaf .double 1) (.scal (.d (fin 1))) <|
    .seq (.assign 1 (.bin .divide (.leaf .double 1) (.scal (.d (fin 2))))) (.assign 3 (.bin .plus (.leaf .double 3) (.scal (.d (fin 1)))))

/-- After `k` rounds, when `j` are left. -/
def halveState (j k : Nat) : NState ℚ := ⟨4, fun y => if y = 3 then some [(k : ℚ)] else if y = 1 then some [2 ^ j] else none⟩

theorem binary64_pow {j : Nat} (h : j ≤ 1000) : Binary64 (2 ^ j) := by
  refine ⟨?_, ?_⟩
  · exact ⟨1, j, by norm_num, by omega, by simp⟩
  · rw [abs_of_pos (by positivity)]
    exact pow_lt_pow_right₀ (by norm_num) (by omega)

theorem halve_exact (m fuel : Nat) (hm : m ≤ 1000) (hf : m < fuel) :
    (halveProg m).over representable fuel .empty = some (halveState 0 m) := by
  have body : ∀ j k, j + 1 ≤ 1000 → k ≤ 1000 →
      (NProg.seq (.assign 1 (.bin .divide (.leaf .double 1) (.scal (.d (fin 2)))))
        (.assign 3 (.bin .plus (.leaf .double 3) (.scal (.d (fin 1)))))).over representable fuel (halveState (j + 1) k)
        = some (halveState j (k + 1)) := by
    intro j k hj hk
    have e1 : representable.op .divide (2 ^ (j + 1)) 2 = some (2 ^ j) := by
      have : (2 : ℚ) ^ (j + 1) / 2 = 2 ^ j := by rw [pow_succ]; ring
      simp only [representable, opQ, Option.bind_eq_bind]
      rw [if_neg (by norm_num), Option.bind_some, this, if_pos (binary64_pow (by omega))]
    have e2 : representable.op .plus (k : ℚ) 1 = some ((k + 1 : Nat) : ℚ) := by
      have := C107_whole ((k + 1 : Nat) : Int) (by rw [abs_of_nonneg (by omega)]; norm_cast; omega)
      simp only [representable, opQ, Option.bind_eq_bind, Option.bind_some]
      rw [← Nat.cast_succ, if_pos (by simpa using this)]
    have n1 : representable.num 1 = some 1 := rfl
    have n2 : representable.num 2 = some 2 := rfl
    simp only [NProg.over, overL, halveState, Option.bind_eq_bind, NState.put]
    simp [allSome, n1, n2, e1, e2, lim]
    refine funext fun y => ?_
    split <;> simp_all
  have test : ∀ j k, Spec.compares representable .gt (.leaf .double 1) (.scal (.d (fin 1))) (halveState j k) = some (decide (j ≠ 0)) := by
    intro j k
    have n1 : representable.num 1 = some 1 := rfl
    have e : representable.cmp .gt (2 ^ j) 1 = some (decide (j ≠ 0)) := by
      simp only [representable, cmpQ, Option.some.injEq, decide_eq_decide]
      constructor
      · rintro h rfl; simp at h
      · exact fun h => one_lt_pow₀ (by norm_num) h
    simp [Spec.compares, overL, halveState, allSome, n1, e]
  have loop : ∀ j k n, j < n → j + k ≤ 1000 → repeats (Spec.compares representable .gt (.leaf .double 1) (.scal (.d (fin 1))))
      ((NProg.seq (.assign 1 (.bin .divide (.leaf .double 1) (.scal (.d (fin 2)))))
        (.assign 3 (.bin .plus (.leaf .double 3) (.scal (.d (fin 1)))))).over representable fuel) n (halveState j k)
      = some (halveState 0 (k + j)) := by
    intro j
    induction j with
    | zero => intro k n hn _; obtain ⟨n, rfl⟩ : ∃ n', n = n' + 1 := ⟨n - 1, by omega⟩; simp [repeats, test]
    | succ j ih =>
      intro k n hn h
      obtain ⟨n, rfl⟩ : ∃ n', n = n' + 1 := ⟨n - 1, by omega⟩
      simp only [repeats, test, Option.bind_eq_bind, Option.bind_some, ne_eq, Nat.add_eq_zero_iff, one_ne_zero, and_false,
        not_false_eq_true, decide_true, if_true]
      rw [body j k (by omega) (by omega), Option.bind_some, ih (k + 1) n (by omega) (by omega)]
      congr 2; omega
  have start : ((NProg.lit [2 ^ m]).over representable fuel .empty).bind ((NProg.lit [0]).over representable fuel) = some (halveState m 0) := by
    have n0 : representable.num 0 = some 0 := rfl
    have n1 : representable.num (2 ^ m) = some (2 ^ m) := rfl
    simp [NProg.over, lim, allSome, n0, n1, halveState, NState.new, NState.empty]
  have := loop m 0 fuel hf (by omega)
  rw [Nat.zero_add] at this
  unfold halveProg
  rw [NProg.over, Option.bind_eq_bind]
  simp only [show ∀ a b, (NProg.seq a b).over representable fuel = fun η => (a.over representable fuel η).bind (b.over representable fuel)
    from fun a b => rfl] at this ⊢
  rw [← Option.bind_assoc, start, Option.bind_some, NProg.over]
  exact this

/-- C109: a loop that halves `2^m` until 1 is reached ends after `m` rounds: the number in `k` is `m`, without error. -/
theorem C109_log (m fuel : Nat) (hm : m ≤ 1000) (hf : m < fuel) (ws : List String) :
    ∃ ws' s, (halveProg m).toProg.run (.d (fin 0)) fuel (ws, Mach.start) = some (.ok (), (ws', s)) ∧ s.env.size 3 = 1 ∧
    s.env.get 3 0 = .ok (.d (fin m)) ∧ s.env.get 1 0 = .ok (.d (fin 1)) := by
  obtain ⟨ws', s, _, e, _, h⟩ := C109_exact_partial fuel _ _ (halve_exact m fuel hm hf) ws
  obtain ⟨_, h1, h2⟩ := h 3 _ rfl
  obtain ⟨_, _, h3⟩ := h 1 _ rfl
  exact ⟨ws', s, e, h1, h2 0 (by simp), by simpa using h3 0 (by simp)⟩

example : (1000 : Nat) ≤ 1000 ∧ 1000 < 1001 := by decide

/-- `a = coca(2); x = coca(2); while (x * x - a > 1/1000) x = (x + a / x) / 2;`: the square root by the method of Heron. -/
def heronProg : NProg :=
  .seq (.lit [2]) <| .seq (.lit [2]) <|
    .loop .gt (.bin .minus (.bin .times (.leaf .double 3) (.leaf .double 3)) (.leaf .double 1)) (.scal (.d (fin (1 / 1000)))) <|
      .assign 3 (.bin .divide (.bin .plus (.leaf .double 3) (.bin .divide (.leaf .double 1) (.leaf .double 3))) (.scal (.d (fin 2))))

/-- The hypothesis of `C109_error_partial` with a `while` loop: three rounds, and a small bound. -/
example : ((heronProg.over withError 4 .empty).bind (fun η => η.vars 3)).map (·.map (·.1)) = some [577 / 408] ∧
    (((heronProg.over withError 4 .empty).bind (fun η => η.vars 3)).getD []).all (fun a => 0 < a.2 ∧ a.2 < 1 / 2 ^ 47) = true ∧
    (heronProg.over withError 3 .empty).isNone = true := by decide +kernel

/-- `x = coca(0); k = coca(0); while (x < 1) { x = x + 0.1; k = k + 1; }`. -/
def tenthsProg : NProg :=
  .seq (.lit [0]) <| .seq (.lit [0]) <| .loop .lt (.leaf .double 1) (.scal (.d (fin 1))) <|
    .seq (.assign 1 (.bin .plus (.leaf .double 1) (.scal (.d (fin (3602879701896397 / 36028797018963968))))))
      (.assign 3 (.bin .plus (.leaf .double 3) (.scal (.d (fin 1)))))

/-- C109: decisions that rounding can change.  Over the rational numbers the loop of `tenthsProg` ends after ten rounds, the program
makes eleven, and no bound for the error is computed. -/
theorem C109_decision_false : ∃ c : NProg, (c.over rational 20 .empty).bind (fun θ => θ.vars 3) = some [10] ∧
    (c.toProg.run (.d (fin 0)) 20 ([], Mach.start)).map (fun r => (r.1, r.2.2.env.size 3, r.2.2.env.get 3 0))
      = some (.ok (), 1, .ok (.d (fin 11))) ∧ (c.over withError 20 .empty).isNone = true :=
  ⟨tenthsProg, by decide +kernel, by decide +kernel, by decide +kernel⟩

end ETR
