import Verif.Spec.Plug
import Verif.Props.Construct
import Verif.Props.Program
import Verif.Props.Assign

/-!
# C87: naming an intermediate result

`Vec t = f; Vec x = e;` and `Vec x = e'`, where `e'` is `e` with the operations of `f` written in place of `t`.
-/

namespace ETR
namespace Mach
variable {V : Type}
open Store Spec

theorem eval_plug {ρ ρ' : Nat → Option (List V)} {t : Nat} {f : Expr V} {l : List V} (hf : eval ρ f = some l) (hl : l ≠ [])
    (ht : ρ' t = some l) (hx : ∀ x, x ≠ t → ρ' x = ρ x) (e : Expr V) : eval ρ (e.plug t f) = eval ρ' e := by
  induction e with
  | leaf x =>
    simp only [Expr.plug]
    split
    · rename_i h; subst h; rw [hf]; simp [eval, ht, nonEmpty, hl]
    · rename_i h; simp [eval, hx x h]
  | rvec l mp => rfl
  | scal v => rfl
  | un g e ih => simp only [Expr.plug, eval, ih]
  | bin g a b iha ihb => simp only [Expr.plug, eval, iha, ihb]
  | sub e ind mp ih => simp only [Expr.plug, eval, ih]

theorem scal_im {env : Env V} {e : Expr V} (h : e.isScal = true) : e.im env = false := by
  cases e <;> simp_all [Expr.isScal, Expr.im]

theorem bin_im (env : Env V) (g : V → V → Out V) (l r : Expr V) : (Expr.bin g l r).im env = (l.im env || r.im env) := by
  simp only [Expr.im]
  split
  · rename_i h; rw [scal_im h]; simp
  · split
    · rename_i h; rw [scal_im h]; simp
    · rfl

theorem bin_nr {env : Env V} {g : V → V → Out V} {l r : Expr V} (h : (l.im env || r.im env) = true) :
    (Expr.bin g l r).nr env = if (l.im env && r.im env) = true then (do
      let a ← l.nr env
      let b ← r.nr env
      return if a > b then a else b) else if r.im env = true then r.nr env else l.nr env := by
  simp only [Expr.nr]
  split
  · rename_i hs; rw [scal_im hs] at h ⊢; simp at h; simp [h]
  · split
    · rename_i hs; rw [scal_im hs] at h ⊢; simp at h; simp
    · split
      · rfl
      · split
        · rfl
        · split
          · rfl
          · simp_all

theorem bin_nc {env : Env V} {g : V → V → Out V} {l r : Expr V} (h : (l.im env || r.im env) = true) :
    (Expr.bin g l r).nc env = if (l.im env && r.im env) = true then (do
      let a ← l.nc env
      let b ← r.nc env
      return if a > b then a else b) else if r.im env = true then r.nc env else l.nc env := by
  simp only [Expr.nc]
  split
  · rename_i hs; rw [scal_im hs] at h ⊢; simp at h; simp [h]
  · split
    · rename_i hs; rw [scal_im hs] at h ⊢; simp at h; simp
    · split
      · rfl
      · split
        · rfl
        · split
          · rfl
          · simp_all

theorem plug_dims {env env' : Env V} {t : Nat} {f : Expr V} (hx : ∀ x, x ≠ t → env'.mp x = env.mp x)
    (hm : (env'.mp t).im = f.im env)
    (hd : f.im env = true → f.nr env = .ok (env'.mp t).nr ∧ f.nc env = .ok (env'.mp t).nc) (e : Expr V) :
    (e.plug t f).im env = e.im env' ∧
      (e.im env' = true → (e.plug t f).nr env = e.nr env' ∧ (e.plug t f).nc env = e.nc env') := by
  induction e with
  | leaf x =>
    simp only [Expr.plug]
    split
    · rename_i h; subst h
      refine ⟨by simp [Expr.im, hm], fun h => ?_⟩
      simp only [Expr.im] at h
      simpa [Expr.nr, Expr.nc] using hd (by rw [← hm]; exact h)
    · rename_i h; simp [Expr.im, Expr.nr, Expr.nc, hx x h]
  | rvec l mp => exact ⟨rfl, fun _ => ⟨rfl, rfl⟩⟩
  | scal v => exact ⟨rfl, fun _ => ⟨rfl, rfl⟩⟩
  | un g e ih => exact ⟨rfl, fun h => by simp [Expr.im] at h⟩
  | sub e ind mp ih => exact ⟨rfl, fun _ => ⟨rfl, rfl⟩⟩
  | bin g a b iha ihb =>
    simp only [Expr.plug]
    rw [bin_im, bin_im, iha.1, ihb.1]
    refine ⟨rfl, fun h => ?_⟩
    have h' : ((a.plug t f).im env || (b.plug t f).im env) = true := by rw [iha.1, ihb.1]; exact h
    rw [bin_nr h', bin_nc h', bin_nr h, bin_nc h, iha.1, ihb.1]
    cases ha : a.im env' with
    | false =>
      cases hb : b.im env' with
      | false => rw [ha, hb] at h; simp at h
      | true => simp [ihb.2 hb]
    | true =>
      cases hb : b.im env' with
      | false => simp [iha.2 ha]
      | true => simp [iha.2 ha, ihb.2 hb]

theorem sameVar_trans {s s1 s2 : Mach V} {y : Nat} (h : SameVar s s1 y) (h' : SameVar s1 s2 y) : SameVar s s2 y :=
  ⟨h'.1.trans h.1, fun i => (h'.2.1 i).trans (h.2.1 i), h'.2.2.trans h.2.2⟩

theorem newMp_fresh {s : Mach V} (I : Inv s) (e : Expr V) :
    newMp s s.n e = if e.im s.env then ⟨true, (val (e.nr s.env)).getD 0, (val (e.nc s.env)).getD 0⟩ else {} := by
  unfold newMp
  rw [(I.fresh s.n (le_refl _)).1]

theorem mapM_ok (l : List V) : l.mapM (fun v => val (Out.ok v)) = some l := by
  induction l with
  | nil => rfl
  | cons a t ih => rw [List.mapM_cons, ih]; simp [val]

/-- After `Vec t = f` the expression `e` has the dimensions `e` with `f` written for `t` had before. -/
theorem plug_after {zero : V} {s s1 : Mach V} (r : Reach zero s) (r1 : Reach zero s1) {f : Expr V}
    (m1 : s1.env.mp s.n = newMp s s.n f) (o1 : ∀ y, y < s.n → SameVar s s1 y) (hn1 : s1.n = s.n + 1) (e : Expr V) :
    (e.plug s.n f).im s.env = e.im s1.env ∧ (e.im s1.env = true →
      (e.plug s.n f).nr s.env = e.nr s1.env ∧ (e.plug s.n f).nc s.env = e.nc s1.env) := by
  refine plug_dims ?_ ?_ ?_ e
  · intro x hx
    by_cases hlt : x < s.n
    · exact (o1 x hlt).2.2
    · show (s1.st (x, false)).mp = (s.st (x, false)).mp
      rw [(r1.inv.fresh x (by omega)).1, (r.inv.fresh x (by omega)).1]
  · rw [m1, newMp_fresh r.inv]
    cases him : f.im s.env <;> simp
  · intro him
    rw [m1, newMp_fresh r.inv, if_pos him]
    obtain ⟨⟨a, ha⟩, ⟨b, hb⟩⟩ := f.nr_ok him
    simp [ha, hb, val]

/-- An assignment to a vector that owns its memory needs a usable `temp`. -/
theorem assign_good {zero : V} {s s' : Mach V} (I : Inv s) {conv : V → Out V} {x : Nat} {e : Expr V} (hb : s.bor x = false)
    (hlim : e.size s.env ≤ 2 ^ 30) (h : exec zero (.assign conv x e) s = (.ok (), s')) : Good (s.st (x, true)) := by
  replace h : Mach.assign zero conv x e s = (.ok (), s') := h
  have hp := fillTemp_post (zero := zero) (conv := conv) (t := x) (e := e) I hlim
  unfold Mach.assign at h
  rw [M.bind_ok (M.get_apply _), if_neg (by rw [hb]; simp)] at h
  unfold assignBuffer at h
  rw [M.bind_apply] at h
  rcases hm : fillTemp zero conv x e s with ⟨o, s1⟩
  rw [hm] at h hp
  cases o with
  | ub k => simp at h
  | thr m => simp at h
  | ok u => exact hp.1

/-- C87, declarations: in every reachable state (`ρ` gives the lists of the vectors that occur), declaring a vector `t` for the
intermediate result `f` and using it in `e`, or writing `f` into `e`, gives vectors with the same length, elements and dimensions; no
other vector is changed by either.  The new names are `s.n` and `s.n + 1`. -/
theorem C87_declare_partial {zero : V} {s : Mach V} (r : Reach zero s) (conv : V → Out V) (e f : Expr V) (hs : f.FunSafe)
    (ρ : Nat → Option (List V)) (hρ : ∀ x l, ρ x = some l → x < s.n ∧ ShowsVar s x l) (lf l L : List V)
    (h1 : eval ρ f = some lf) (h2 : eval ρ (e.plug s.n f) = some l) (h3 : l.mapM (fun v => val (conv v)) = some L)
    (hlf : lf.length ≤ 2 ^ 30) (hL : L.length ≤ 2 ^ 30) :
    ∃ s1 s2 s', exec zero (.declExpr .ok f) s = (.ok (), s1) ∧ exec zero (.declExpr conv e) s1 = (.ok (), s2) ∧
      exec zero (.declExpr conv (e.plug s.n f)) s = (.ok (), s') ∧
      ShowsVar s2 (s.n + 1) L ∧ ShowsVar s' s.n L ∧ s2.env.mp (s.n + 1) = s'.env.mp s.n ∧
      ∀ y, y < s.n → SameVar s s2 y ∧ SameVar s s' y := by
  have hag : Agrees s.env ρ := fun x l hx => (hρ x l hx).2
  obtain ⟨k1, k2⟩ : lf ≠ [] ∧ f.size s.env = lf.length := ⟨(eval_sound hag f h1).1, (eval_sound hag f h1).2.1⟩
  have k4 : l ≠ [] := (eval_sound hag _ h2).1
  have hLl : L.length = l.length := mapM_length h3
  have hLne : L ≠ [] := by
    rintro rfl
    exact k4 (List.length_eq_zero_iff.mp (by rw [← hLl]; rfl))
  obtain ⟨s1, e1, sh1, m1, o1, hn1, _⟩ := declExpr_full r .ok f ρ hρ lf lf h1 (mapM_ok lf) k1 hlf
  obtain ⟨s', e', sh', m', o', _⟩ := declExpr_full r conv (e.plug s.n f) ρ hρ l L h2 h3 hLne hL
  have r1 : Reach zero s1 := r.step (c := .declExpr .ok f) ⟨fun v k h => by simp at h, hs, by rw [k2]; exact hlf⟩ e1 (by simp)
  set ρ' : Nat → Option (List V) := fun x => if x = s.n then some lf else ρ x with hρ'
  have hev : eval ρ' e = some l := by
    rw [← h2]
    exact (eval_plug h1 k1 (by simp [hρ']) (fun x hx => by simp [hρ', hx]) e).symm
  obtain ⟨s2, e2, sh2, m2, o2, _⟩ := declExpr_full r1 conv e ρ' (by
    intro x u hu
    by_cases hx : x = s.n
    · subst hx
      simp only [hρ', if_true, Option.some.injEq] at hu
      subst hu
      exact ⟨by omega, sh1⟩
    · simp only [hρ', hx, if_false] at hu
      obtain ⟨a1, a2⟩ := hρ x u hu
      exact ⟨by omega, (o1 x a1).shows a2⟩) l L hev h3 hLne hL
  rw [hn1] at sh2 m2 o2
  refine ⟨s1, s2, s', e1, e2, e', sh2, sh', ?_, fun y hy => ⟨sameVar_trans (o1 y hy) (o2 y (by omega)), o' y hy⟩⟩
  have hd := plug_after r r1 m1 o1 hn1 e
  rw [m2, m', ← hn1, newMp_fresh r1.inv, newMp_fresh r.inv, hd.1]
  cases him : e.im s1.env with
  | false => rfl
  | true => rw [(hd.2 him).1, (hd.2 him).2]

/-- C87, assignments to a vector that owns its memory (and may occur in `e` and in `f`): if `x = e'` succeeds, where `e'` is `e` with
`f` written for `t`, so does `Vec t = f; x = e;`, and `x` has the same length, elements and dimensions after both; no other vector is
changed by either. -/
theorem C87_assign_partial {zero : V} {s s' : Mach V} (r : Reach zero s) (conv : V → Out V) (x : Nat) (e f : Expr V) (hs : f.FunSafe)
    (ρ : Nat → Option (List V)) (hρ : ∀ x l, ρ x = some l → x < s.n ∧ ShowsVar s x l) (lf l L : List V)
    (h1 : eval ρ f = some lf) (h2 : eval ρ (e.plug s.n f) = some l) (h3 : l.mapM (fun v => val (conv v)) = some L)
    (hlf : lf.length ≤ 2 ^ 30) (hL : L.length ≤ 2 ^ 30) (hlt : x < s.n) (hb : s.bor x = false)
    (h : exec zero (.assign conv x (e.plug s.n f)) s = (.ok (), s')) :
    ∃ s1 s2, exec zero (.declExpr .ok f) s = (.ok (), s1) ∧ exec zero (.assign conv x e) s1 = (.ok (), s2) ∧
      ShowsVar s2 x L ∧ ShowsVar s' x L ∧ s2.env.mp x = s'.env.mp x ∧
      ∀ y, y < s.n → y ≠ x → SameVar s s2 y ∧ SameVar s s' y := by
  have hag : Agrees s.env ρ := fun x l hx => (hρ x l hx).2
  obtain ⟨k1, k2⟩ : lf ≠ [] ∧ f.size s.env = lf.length := ⟨(eval_sound hag f h1).1, (eval_sound hag f h1).2.1⟩
  have k4 : l ≠ [] := (eval_sound hag _ h2).1
  have hLl : L.length = l.length := mapM_length h3
  have hLne : L ≠ [] := by
    rintro rfl
    exact k4 (List.length_eq_zero_iff.mp (by rw [← hLl]; rfl))
  obtain ⟨hsz, hel⟩ := conv_el hag h2 h3
  have hg := assign_good r.inv hb (by omega) h
  obtain ⟨s'', e'', sh', m', o', _⟩ := r.inv.assign (zero := zero) hlt hb hg hsz hel hLne hL
  have h' : Mach.assign zero conv x (e.plug s.n f) s = (.ok (), s') := h
  rw [h'] at e''
  simp only [Prod.mk.injEq, true_and] at e''
  subst e''
  obtain ⟨s1, e1, sh1, m1, o1, hn1, hb1, hst1, _⟩ := declExpr_full r .ok f ρ hρ lf lf h1 (mapM_ok lf) k1 hlf
  have r1 : Reach zero s1 := r.step (c := .declExpr .ok f) ⟨fun v k h => by simp at h, hs, by rw [k2]; exact hlf⟩ e1 (by simp)
  set ρ' : Nat → Option (List V) := fun x => if x = s.n then some lf else ρ x with hρ'
  have hev : eval ρ' e = some l := by
    rw [← h2]
    exact (eval_plug h1 k1 (by simp [hρ']) (fun x hx => by simp [hρ', hx]) e).symm
  have hag1 : Agrees s1.env ρ' := by
    intro x u hu
    by_cases hx : x = s.n
    · subst hx
      simp only [hρ', if_true, Option.some.injEq] at hu
      subst hu
      exact sh1
    · simp only [hρ', hx, if_false] at hu
      obtain ⟨a1, a2⟩ := hρ x u hu
      exact (o1 x a1).shows a2
  obtain ⟨hsz1, hel1⟩ := conv_el hag1 hev h3
  obtain ⟨s2, e2, sh2, m2, o2, _⟩ := r1.inv.assign (zero := zero) (x := x) (by omega) (by rw [hb1]; exact hb)
    (by rw [hst1 _ (by simp)]; exact hg) hsz1 hel1 hLne hL
  refine ⟨s1, s2, e1, e2, sh2, sh', ?_, fun y hy hyx => ⟨sameVar_trans (o1 y hy) (o2 y hyx), o' y hyx⟩⟩
  have hd := plug_after r r1 m1 o1 hn1 e
  rw [m2, m']
  unfold newMp
  rw [hd.1]
  cases him : e.im s1.env with
  | false => simp only [Bool.false_eq_true, if_false]; rw [hst1 _ (by simp; omega)]
  | true => simp only [if_true]; rw [(hd.2 him).1, (hd.2 him).2]

/-- C87, assignments to a vector that borrows the memory `b` of the caller (and may occur in `e` and in `f`): if `x = e'` succeeds, so
does `Vec t = f; x = e;`; `x` has the same length, elements and dimensions after both, and the caller's memory has the same contents. -/
theorem C87_borrow_partial {zero : V} {s s' : Mach V} (r : Reach zero s) (conv : V → Out V) (x b : Nat) (e f : Expr V) (hs : f.FunSafe)
    (ρ : Nat → Option (List V)) (hρ : ∀ x l, ρ x = some l → x < s.n ∧ ShowsVar s x l) (lf l L : List V)
    (h1 : eval ρ f = some lf) (h2 : eval ρ (e.plug s.n f) = some l) (h3 : l.mapM (fun v => val (conv v)) = some L)
    (hlf : lf.length ≤ 2 ^ 30) (hL : L.length ≤ 2 ^ 30) (hlt : x < s.n) (hb : s.bor x = true) (hpb : (s.st (x, false)).p = some b)
    (h : exec zero (.assign conv x (e.plug s.n f)) s = (.ok (), s')) :
    ∃ s1 s2, exec zero (.declExpr .ok f) s = (.ok (), s1) ∧ exec zero (.assign conv x e) s1 = (.ok (), s2) ∧
      ShowsVar s2 x L ∧ ShowsVar s' x L ∧ s2.env.mp x = s'.env.mp x ∧ ∀ j, (s2.heap.blk b).cell j = (s'.heap.blk b).cell j := by
  have hag : Agrees s.env ρ := fun x l hx => (hρ x l hx).2
  obtain ⟨k1, k2⟩ : lf ≠ [] ∧ f.size s.env = lf.length := ⟨(eval_sound hag f h1).1, (eval_sound hag f h1).2.1⟩
  have k4 : l ≠ [] := (eval_sound hag _ h2).1
  have hLl : L.length = l.length := mapM_length h3
  have hLne : L ≠ [] := by
    rintro rfl
    exact k4 (List.length_eq_zero_iff.mp (by rw [← hLl]; rfl))
  obtain ⟨hsz, hel⟩ := conv_el hag h2 h3
  obtain ⟨L0, _, ev0, _, _, _, hfit⟩ := assign_ok_cases r hlt (by omega) h
  obtain ⟨g1, g2⟩ := hfit hb
  have hl0 : L0.length = L.length := by rw [ev0.1, hsz]
  rw [hl0] at g1 g2
  obtain ⟨s'', e'', sh', c', _, m', _⟩ := r.inv.assignB (zero := zero) hlt hb hpb (r.good hb) hsz hel hLne hL g1 g2
  have h' : Mach.assign zero conv x (e.plug s.n f) s = (.ok (), s') := h
  rw [h'] at e''
  simp only [Prod.mk.injEq, true_and] at e''
  subst e''
  obtain ⟨s1, e1, sh1, m1, o1, hn1, hb1, hst1, hh1⟩ := declExpr_full r .ok f ρ hρ lf lf h1 (mapM_ok lf) k1 hlf
  have r1 : Reach zero s1 := r.step (c := .declExpr .ok f) ⟨fun v k h => by simp at h, hs, by rw [k2]; exact hlf⟩ e1 (by simp)
  set ρ' : Nat → Option (List V) := fun x => if x = s.n then some lf else ρ x with hρ'
  have hev : eval ρ' e = some l := by
    rw [← h2]
    exact (eval_plug h1 k1 (by simp [hρ']) (fun x hx => by simp [hρ', hx]) e).symm
  have hag1 : Agrees s1.env ρ' := by
    intro x u hu
    by_cases hx : x = s.n
    · subst hx
      simp only [hρ', if_true, Option.some.injEq] at hu
      subst hu
      exact sh1
    · simp only [hρ', hx, if_false] at hu
      obtain ⟨a1, a2⟩ := hρ x u hu
      exact (o1 x a1).shows a2
  obtain ⟨hsz1, hel1⟩ := conv_el hag1 hev h3
  have hst : s1.st (x, false) = s.st (x, false) := hst1 _ (by simp; omega)
  have hb' : s1.bor x = true := by rw [hb1]; exact hb
  obtain ⟨s2, e2, sh2, c2, _, m2, _⟩ := r1.inv.assignB (zero := zero) (x := x) (b := b) (by omega) hb'
    (by rw [hst]; exact hpb) (r1.good hb') hsz1 hel1 hLne hL (by rw [hst]; exact g1) (by rw [hst]; exact g2)
  have hbn : b < s.heap.next := by
    obtain ⟨b', e4, e5, _⟩ := (r.inv.b x hb).ptr
    rw [hpb] at e4; cases e4; exact e5
  refine ⟨s1, s2, e1, e2, sh2, sh', ?_, fun j => by rw [c2, c', hh1 b hbn]⟩
  have hd := plug_after r r1 m1 o1 hn1 e
  rw [m2, m']
  unfold newMp
  rw [hd.1]
  cases him : e.im s1.env with
  | false => simp only [Bool.false_eq_true, if_false]; rw [hst]
  | true => simp only [if_true]; rw [(hd.2 him).1, (hd.2 him).2]

/-- A vector that borrows `{1, 2, 3}`: `Vec t = x * 2; x = t + t(3, 2);` and `x = x * 2 + (x * 2)(3, 2)` write the same numbers. -/
example :
    let s := (runAll (0 : Int) [.callerArray [1, 2, 3], .declBorrow (some 0) 3] start).2
    let f : Expr Int := .bin (fun a b => .ok (a * b)) (.leaf 0) (.scal 2)
    let e : Expr Int := .bin (fun a b => .ok (a + b)) (.leaf 1) (.sub (.leaf 1) [2, 1] {})
    s.n = 1 ∧ s.bor 0 = true ∧ (s.st (0, false)).p = some 0 ∧
    eval (fun x => if x = 0 then some [1, 2, 3] else none) (e.plug 1 f) = some [8, 8, 12] ∧
    (exec 0 (.assign .ok 0 (e.plug 1 f)) s).1 = .ok () ∧
    (List.range 3).map ((exec 0 (.assign .ok 0 (e.plug 1 f)) s).2.heap.load (some 0)) = [8, 8, 12].map Out.ok := by
  refine ⟨by decide +kernel, by decide +kernel, by decide +kernel, by decide +kernel, by decide +kernel, by decide +kernel⟩

/-- `Vec m = matrix(1..6, 2, 3);` with the intermediate result `m * 2`, used twice:
`Vec t = m * 2; m = t + t(6, 5);` and `m = m * 2 + (m * 2)(6, 5)`. -/
def fusedHistory : List (Cmd Int) := [.declTemp [1, 2, 3, 4, 5, 6] ⟨true, 2, 3⟩]

def fusedE : Expr Int := .bin (fun a b => .ok (a + b)) (.leaf 2) (.sub (.leaf 2) [5, 4] {})
def fusedF : Expr Int := .bin (fun a b => .ok (a * b)) (.leaf 1) (.scal 2)

example : ∃ s, Reach 0 s ∧ s.n = 2 ∧
    eval (fun x => if x = 1 then some [1, 2, 3, 4, 5, 6] else none) (fusedE.plug 2 fusedF) = some [14, 14, 18, 18, 22, 22] ∧
    ∃ s', exec 0 (.assign .ok 1 (fusedE.plug 2 fusedF)) s = (.ok (), s') ∧ s'.env.mp 1 = ⟨true, 2, 3⟩ ∧
      (List.range 6).map (s'.env.get 1) = [14, 14, 18, 18, 22, 22].map Out.ok :=
  ⟨(runAll 0 fusedHistory start).2, ⟨fusedHistory, .cons (show 6 ≤ 2 ^ 30 by decide) trivial, Prod.ext (by decide +kernel) rfl⟩, by decide +kernel, rfl, _,
    Prod.ext (by decide +kernel) rfl, by decide +kernel, by decide +kernel⟩

/-- C87 is false for an index out of range: `Vec x = (v + 10)(9)` with three elements gives the last one, `Vec t = v + 10; Vec x = t(9)`
throws. -/
theorem C87_false :
    let v : List (Cmd Int) := [.declTemp [1, 2, 3] {}]
    let f : Expr Int := .bin (fun a b => .ok (a + b)) (.leaf 1) (.scal 10)
    let e : Expr Int := .sub (.leaf 2) [8] {}
    (runAll 0 (v ++ [.declExpr .ok (e.plug 2 f)]) start).1 = none ∧
      (runAll 0 (v ++ [.declExpr .ok (e.plug 2 f)]) start).2.env.get 2 0 = .ok 13 ∧
      ∃ m, (exec 0 (.declExpr .ok e) (runAll 0 (v ++ [.declExpr .ok f]) start).2).1 = .thr m := by
  refine ⟨by decide +kernel, by decide +kernel, "Error: out of boundaries --> value beyond size of vector", by decide +kernel⟩

/-- `C87_declare_partial` and `C87_assign_partial` applied. -/
theorem fusedReach : Reach 0 (runAll 0 fusedHistory start).2 :=
  ⟨fusedHistory, .cons (show 6 ≤ 2 ^ 30 by decide) trivial, Prod.ext (by decide +kernel) rfl⟩

theorem fusedShows (x : Nat) (l : List Int) (h : (if x = 1 then some [1, 2, 3, 4, 5, 6] else none) = some l) :
    x < (runAll 0 fusedHistory start).2.n ∧ ShowsVar (runAll 0 fusedHistory start).2 x l := by
  by_cases hx : x = 1
  · subst hx
    rw [if_pos rfl] at h
    cases h
    exact ⟨by decide +kernel, by decide +kernel, by decide +kernel⟩
  · rw [if_neg hx] at h
    cases h

example : ∃ s1 s2, exec 0 (.declExpr .ok fusedF) (runAll 0 fusedHistory start).2 = (.ok (), s1) ∧
    exec 0 (.declExpr .ok fusedE) s1 = (.ok (), s2) ∧ ShowsVar s2 ((runAll 0 fusedHistory start).2.n + 1) [14, 14, 18, 18, 22, 22] := by
  obtain ⟨s1, s2, _, h1, h2, _, h, _⟩ := C87_declare_partial fusedReach .ok fusedE fusedF ⟨fun _ _ => Out.NoMem.ok _, trivial, trivial⟩ _
    fusedShows [2, 4, 6, 8, 10, 12] [14, 14, 18, 18, 22, 22] [14, 14, 18, 18, 22, 22] rfl (by decide +kernel) rfl (by decide) (by decide)
  exact ⟨s1, s2, h1, h2, h⟩

example : ∃ s1 s2, exec 0 (.declExpr .ok fusedF) (runAll 0 fusedHistory start).2 = (.ok (), s1) ∧
    exec 0 (.assign .ok 1 fusedE) s1 = (.ok (), s2) ∧ ShowsVar s2 1 [14, 14, 18, 18, 22, 22] := by
  obtain ⟨s1, s2, h1, h2, h, _⟩ := C87_assign_partial fusedReach .ok 1 fusedE fusedF ⟨fun _ _ => Out.NoMem.ok _, trivial, trivial⟩ _
    fusedShows [2, 4, 6, 8, 10, 12] [14, 14, 18, 18, 22, 22] [14, 14, 18, 18, 22, 22] rfl (by decide +kernel) rfl (by decide) (by decide)
    (by decide +kernel) (by decide +kernel) (Prod.ext (by decide +kernel) rfl)
  exact ⟨s1, s2, h1, h2, h⟩

end Mach
end ETR
