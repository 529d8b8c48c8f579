import Verif.Spec.RCall
import Verif.Props.RIface
import Verif.Props.ControlSafe
import Verif.Props.Shape

/-! # C92: functions called from R -/

namespace ETR
open Spec Mach Store Heap
variable {V W : Type}

/-! ## Arguments -/

/-- The block that receives the elements of an R object. -/
def argBlk (conv : W → V) (r : RObj W) : Block V := ⟨r.el.length, fun j => (r.el[j]?).map conv, true, true⟩

/-- The vector that receives the elements of an R object. -/
def argStore (b : Nat) (r : RObj W) : Store :=
  { p := some b, sz := r.el.length, capacity := r.el.length, allocated := true, mp := (match r.dim with
    | some (a, c) => ⟨true, a, c⟩
    | none => {}) }

theorem initSEXP_new {h : Heap V} (hs : h.sched = []) {ty : RTy} {conv : W → V} {r : RObj W} (ht : r.ty = ty)
    (hl : r.el.length < 2 ^ 31) :
    Store.initSEXP ty conv r (h, {}) = (.ok (), (h.addBlk (argBlk conv r), argStore h.next r)) := by
  have loop : ∀ s1 : Store, M.forN r.el.length (fun i => do
        let v ← M.reads (fun _ => match r.el[i]? with
          | some w => .ok (conv w)
          | none => .ub .oob)
        Store.heapM (Heap.store (some h.next) i v)) (h.addBlk ⟨r.el.length, fun _ => none, true, true⟩, s1)
      = (.ok (), (h.addBlk (argBlk conv r), s1)) := by
    intro s1
    by_cases he : r.el = []
    · unfold argBlk; rw [he]; simp
    obtain ⟨w0, t, hw⟩ := List.exists_cons_of_ne_nil he
    have := loop_store (h := h.addBlk ⟨r.el.length, fun _ => none, true, true⟩) (s := s1) (b := h.next) (n := r.el.length)
      (g := fun _ i => match r.el[i]? with
          | some w => .ok (conv w)
          | none => .ub .oob) (f := fun i => conv (r.el.getD i w0)) (by simp) (by simp) (by
        intro i hi c
        simp [List.getD, hi])
    rw [this, addBlk_setCells]
    simp only [addBlk_same]
    unfold argBlk
    congr 4
    funext j
    by_cases hj : j < r.el.length
    · simp [hj, List.getD]
    · simp [hj]
  have hlen : r.length = .ok r.el.length := by unfold RObj.length; rw [if_pos hl]
  unfold Store.initSEXP
  rw [M.bind_ok (m := Store.self) (self_apply _)]
  simp only [Bool.false_eq_true, if_false]
  rw [M.bind_ok (M.ass_pos ht _), hlen, M.bind_ok (M.lift_apply _ _)]
  rcases hd : r.dim with _ | ⟨a, c⟩
  all_goals
    simp only [M.bind_apply, Store.upd_apply]
    rw [heapM_apply, new_ok hs (by omega)]
    simp only []
    erw [loop]
    simp only [argStore, hd]

/-- A rejected R object leaves a new vector empty. -/
theorem initSEXP_thr {h : Heap V} {ty : RTy} {conv : W → V} {r : RObj W} (hr : ¬ (r.ty = ty ∧ r.el.length < 2 ^ 31)) :
    ∃ e, Store.initSEXP ty conv r (h, {}) = (.thr e, (h, {})) := by
  unfold Store.initSEXP
  rw [M.bind_ok (m := Store.self) (self_apply _)]
  simp only [Bool.false_eq_true, if_false]
  by_cases ht : r.ty = ty
  · have hl : ¬ r.el.length < 2 ^ 31 := fun h => hr ⟨ht, h⟩
    have hlen : r.length = .thr "long vectors not supported yet" := by unfold RObj.length; rw [if_neg hl]
    rw [M.bind_ok (M.ass_pos ht _), hlen, M.bind_thr (M.lift_apply _ _)]
    exact ⟨_, rfl⟩
  · rw [M.bind_thr (M.ass_neg ht _)]
    exact ⟨_, rfl⟩

theorem argStore_step (h : Heap V) (conv : W → V) (r : RObj W) : Step h {} (h.addBlk (argBlk conv r)) (argStore h.next r) :=
  Step.addBlk rfl rfl

theorem argStore_inv (h : Heap V) (conv : W → V) {r : RObj W} (hl : r.el.length ≤ 2 ^ 30) :
    Store.DInv (h.addBlk (argBlk conv r)) (argStore h.next r) :=
  ⟨WF.fresh rfl (le_refl _) (le_refl _) rfl, fun _ => by simp [argStore], hl, by simp only [argStore]; omega⟩

theorem argStore_shows (h : Heap V) (conv : W → V) (r : RObj W) :
    Shows (h.addBlk (argBlk conv r)) (argStore h.next r) (r.el.map conv) := by
  refine ⟨by simp [argStore], fun i hi => ?_⟩
  simp only [List.length_map] at hi
  rw [get_eq_load (s := argStore h.next r) rfl hi]
  have hp : (argStore h.next r).p = some h.next := rfl
  rw [hp, load_some (v := conv r.el[i]) (by simp [argBlk])
    (by simpa [argBlk] using hi) (by simp [argBlk, hi])]
  simp

/-- Taking one argument. -/
theorem takeArgs_cons {r : RArg V W} {rs : List (RArg V W)} {s : Mach V} (I : Inv s) (ht : r.obj.ty = r.ty)
    (hl : r.obj.el.length < 2 ^ 31) :
    takeArgs (r :: rs) s =
      takeArgs rs (s.bump.put (s.n, false) (s.heap.addBlk (argBlk r.conv r.obj), argStore s.heap.next r.obj)) := by
  obtain ⟨f1, _, _⟩ := I.fresh s.n (le_refl _)
  have e1 : (declDefault : M (Mach V) Unit) s = (.ok (), s.bump) := rfl
  have e2 : assignSEXP r.ty r.conv s.n r.obj s.bump =
      (.ok (), s.bump.put (s.n, false) (s.heap.addBlk (argBlk r.conv r.obj), argStore s.heap.next r.obj)) := by
    unfold assignSEXP
    rw [onSlot_apply]
    have : s.bump.st (s.n, false) = {} := f1
    rw [this]
    have hh : s.bump.heap = s.heap := rfl
    rw [hh, initSEXP_new I.sched ht hl]
  rw [takeArgs, M.bind_ok (M.get_apply _), M.bind_ok e1, M.bind_ok e2]

/-- The arguments are of the right type and of moderate length. -/
def Args (rs : List (RArg V W)) : Prop := ∀ r ∈ rs, r.obj.ty = r.ty ∧ r.obj.el.length ≤ 2 ^ 30

theorem takeArgs_ok : ∀ (rs : List (RArg V W)) (s : Mach V), Inv s → Args rs →
    ∃ s', takeArgs rs s = (.ok (), s') ∧ Inv s' ∧ s'.n = s.n + rs.length
  | [], s, I, _ => ⟨s, rfl, I, rfl⟩
  | r :: rs, s, I, h => by
    obtain ⟨h1, h2⟩ := h r (by simp)
    obtain ⟨f1, _, f3⟩ := I.fresh s.n (le_refl _)
    have I' : Inv (s.bump.put (s.n, false) (s.heap.addBlk (argBlk r.conv r.obj), argStore s.heap.next r.obj)) :=
      I.bump.step (y := (s.n, false)) (Or.inr f3) (by show s.n < s.n + 1; omega) (by
        have : s.bump.st (s.n, false) = {} := f1
        rw [this]; exact argStore_step _ _ _) (fun _ => argStore_inv _ _ h2) (fun h => by cases h)
    obtain ⟨s', e, I2, n2⟩ := takeArgs_ok rs _ I' (fun r hr => h r (by simp [hr]))
    rw [takeArgs_cons I h1 (by omega)]
    exact ⟨s', e, I2, by rw [n2]; show s.n + 1 + _ = _; simp; omega⟩

theorem takeArgs_safe : ∀ (rs : List (RArg V W)) (s : Mach V), Inv s → (∀ r ∈ rs, r.obj.el.length ≤ 2 ^ 30) →
    ∃ o s', takeArgs rs s = (o, s') ∧ Inv s' ∧ (o = .ok () ∨ ∃ e, o = .thr e)
  | [], s, I, _ => ⟨_, s, rfl, I, Or.inl rfl⟩
  | r :: rs, s, I, h => by
    have h2 := h r (by simp)
    obtain ⟨f1, _, f3⟩ := I.fresh s.n (le_refl _)
    have f1' : s.bump.st (s.n, false) = {} := f1
    by_cases h1 : r.obj.ty = r.ty
    · have I' : Inv (s.bump.put (s.n, false) (s.heap.addBlk (argBlk r.conv r.obj), argStore s.heap.next r.obj)) :=
        I.bump.step (y := (s.n, false)) (Or.inr f3) (by show s.n < s.n + 1; omega) (by
          rw [f1']; exact argStore_step _ _ _) (fun _ => argStore_inv _ _ h2) (fun h => by cases h)
      obtain ⟨o, s', e, I2, ho⟩ := takeArgs_safe rs _ I' (fun r hr => h r (by simp [hr]))
      rw [takeArgs_cons I h1 (by omega)]
      exact ⟨o, s', e, I2, ho⟩
    · obtain ⟨er, he⟩ := initSEXP_thr (h := s.heap) (ty := r.ty) (conv := r.conv) (r := r.obj) (fun h => h1 h.1)
      have e1 : (declDefault : M (Mach V) Unit) s = (.ok (), s.bump) := rfl
      have e2 : assignSEXP r.ty r.conv s.n r.obj s.bump = (.thr er, s.bump.put (s.n, false) (s.heap, {})) := by
        unfold assignSEXP
        rw [onSlot_apply, f1']
        have hh : s.bump.heap = s.heap := rfl
        rw [hh, he]
      have I' : Inv (s.bump.put (s.n, false) (s.heap, {})) :=
        I.bump.step (y := (s.n, false)) (Or.inr f3) (by show s.n < s.n + 1; omega) (by
          rw [f1']; exact Step.refl _ _) (fun _ => Store.DInv.default _) (fun h => by cases h)
      rw [takeArgs, M.bind_ok (M.get_apply _), M.bind_ok e1, M.bind_thr e2]
      exact ⟨_, _, rfl, I', Or.inr ⟨_, rfl⟩⟩

theorem argState_snoc (ls : List (List V)) (l : List V) : (argState ls).new 0 ⟨l, .std⟩ = argState (ls ++ [l]) := by
  unfold argState PState.new
  congr 1
  · simp
  · funext y
    simp only [Nat.add_zero]
    by_cases h : y = ls.length
    · subst h; simp
    · rw [if_neg h]
      by_cases h' : y < ls.length
      · rw [List.getElem?_append_left h']
      · rw [List.getElem?_eq_none (by omega), List.getElem?_eq_none (by simp; omega)]

theorem argState_nil : (PState.empty : PState V) = argState [] := by
  simp [argState, PState.empty]

/-- The arguments become the variables with the converted elements. -/
theorem takeArgs_rep : ∀ (rs : List (RArg V W)) (ls : List (List V)) (s : Mach V), Rep s (argState ls) →
    Args rs → (∀ r ∈ rs, r.obj.el ≠ []) →
    ∃ s', takeArgs rs s = (.ok (), s') ∧ Rep s' (argState (ls ++ rs.map (fun r => r.obj.el.map r.conv)))
  | [], ls, s, R, _, _ => ⟨s, rfl, by simpa using R⟩
  | r :: rs, ls, s, R, h, hn => by
    obtain ⟨h1, h2⟩ := h r (by simp)
    have R' := R.declPut (r := (s.heap.addBlk (argBlk r.conv r.obj), argStore s.heap.next r.obj)) (argStore_step _ _ _)
      (argStore_inv _ _ h2) (argStore_shows _ _ _) (by simpa using hn r (by simp)) (le_refl _)
    rw [argState_snoc] at R'
    obtain ⟨s', e, R2⟩ := takeArgs_rep rs _ _ R' (fun r hr => h r (by simp [hr])) (fun r hr => hn r (by simp [hr]))
    rw [takeArgs_cons R.inv h1 (by omega)]
    exact ⟨s', e, by simpa using R2⟩

/-! ## The end of the function -/

/-- The destruction of all vectors. -/
theorem leave_noLeak {s : Mach V} (I : Inv s) : ∃ s', leave 0 s.n s = (.ok (), s') ∧ NoLeak s' := by
  obtain ⟨s', e, h⟩ := leave_owners (lo := 0) I (Nat.zero_le _)
  refine ⟨s', e, fun b hb hn => ?_⟩
  cases hl : (s'.heap.blk b).live with
  | false => rfl
  | true =>
    obtain ⟨y, hy, _⟩ := h b hb hl hn
    omega

theorem finish_ok {α : Type} {s : Prog.St V} (I : Inv s.2) {o : Out α} (ho : ∀ u, o ≠ .ub u) :
    ∃ m, Prog.finish o s = (o, (s.1, m)) ∧ NoLeak m := by
  obtain ⟨m, e, nl⟩ := leave_noLeak I
  refine ⟨m, ?_, nl⟩
  unfold Prog.finish
  rw [e]
  cases o with
  | ok a => rfl
  | thr e => rfl
  | ub u => exact absurd rfl (ho u)

/-! ## The result -/

theorem Out.all_noMem {α : Type} : ∀ (l : List (Out α)), (∀ o ∈ l, o.NoMem) → (Out.all l).NoMem
  | [], _ => Out.NoMem.ok _
  | o :: l, h => by
    have h1 := h o (by simp)
    have h2 := Out.all_noMem l (fun o ho => h o (by simp [ho]))
    exact h1.bind (fun a => h2.bind (fun b => Out.NoMem.ok _))

theorem Out.ass_noMem {c : Prop} [Decidable c] {msg : String} : (Out.ass c msg).NoMem := by
  intro k e
  unfold Out.ass at e
  split at e <;> cases e

theorem wrapI32_mod (n : Nat) : ∃ k : Int, wrapI32 n = n + 4294967296 * k := by
  unfold wrapI32
  simp only []
  split
  · exact ⟨-((n / 4294967296 : Nat) : Int), by omega⟩
  · exact ⟨-((n / 4294967296 : Nat) : Int) - 1, by omega⟩

/-- The product of the numbers of rows and columns, computed in `int`, is the number of elements, unless it is rejected. -/
theorem wrap_prod {a c n : Nat} (hn : n < 2 ^ 31) (h : n = (a * c) % two64) (h0 : 0 ≤ wrapI32 a ∧ 0 ≤ wrapI32 c)
    (h1 : wrapI32 a * wrapI32 c ≤ 2147483647) : (wrapI32 a * wrapI32 c).toNat = n := by
  obtain ⟨k, hk⟩ := wrapI32_mod a
  obtain ⟨m, hm⟩ := wrapI32_mod c
  have hp : 0 ≤ wrapI32 a * wrapI32 c := Int.mul_nonneg h0.1 h0.2
  have hz : ∃ j : Int, wrapI32 a * wrapI32 c = ((a * c : Nat) : Int) + 4294967296 * j :=
    ⟨a * m + c * k + 4294967296 * k * m, by rw [hk, hm]; push_cast; ring⟩
  obtain ⟨j, hj⟩ := hz
  have hd := Nat.div_add_mod (a * c) two64
  unfold two64 at h hd
  omega

theorem cpp2R_noMem {s : Mach V} (I : Inv s) {e : Expr V} (hf : e.FunSafe) (hl : e.size s.env < 2 ^ 31) (ty : RTy) (back : V → W) :
    (cpp2R ty back s.env e).NoMem := by
  have fin : ∀ (n : Nat) (dim : Option (Nat × Nat)), n = e.size s.env → (do
      let l ← Out.all ((List.range (e.size s.env)).map (fun i =>
        if 2 ^ 31 ≤ i then .ub .intOverflow
        else do
          let v ← e.el s.env i
          if i < n then .ok (back v) else .ub .oob))
      return (⟨ty, l, dim⟩ : RObj W) : Out (RObj W)).NoMem := by
    intro n dim hn
    refine Out.NoMem.bind (Out.all_noMem _ (fun o ho => ?_)) (fun _ => Out.NoMem.ok _)
    obtain ⟨i, hi, rfl⟩ := List.mem_map.mp ho
    have hi : i < e.size s.env := List.mem_range.mp hi
    rw [if_neg (by omega)]
    refine Out.NoMem.bind (I.el_noMem hf i) (fun v => ?_)
    rw [if_pos (by omega)]
    exact Out.NoMem.ok _
  unfold cpp2R cpp2RAlloc
  by_cases hi : e.im s.env = true
  · rw [if_pos hi]
    intro k hk
    cases hr : e.nr s.env with
    | thr er => rw [hr] at hk; cases hk
    | ub u => rw [hr] at hk; cases hk; exact Expr.nr_noMem e _ hr
    | ok a =>
      cases hc : e.nc s.env with
      | thr er => rw [hr, hc] at hk; cases hk
      | ub u => rw [hr, hc] at hk; cases hk; exact Expr.nc_noMem e _ hc
      | ok c =>
        rw [hr, hc] at hk
        simp only [Out.ok_bind] at hk
        by_cases h1 : e.size s.env = (a * c) % two64
        · rw [Out.ass_pos h1] at hk
          by_cases h2 : 0 ≤ wrapI32 a ∧ 0 ≤ wrapI32 c
          · simp only [Out.ok_bind] at hk
            rw [Out.ass_pos h2] at hk
            by_cases h3 : wrapI32 a * wrapI32 c ≤ 2147483647
            · simp only [Out.ok_bind] at hk
              rw [Out.ass_pos h3] at hk
              exact fin _ _ (wrap_prod hl h1 h2 h3) k hk
            · simp only [Out.ok_bind, Out.ass_neg h3] at hk
              cases hk
          · simp only [Out.ok_bind, Out.ass_neg h2] at hk
            cases hk
        · simp only [Out.ass_neg h1] at hk
          cases hk
  · rw [if_neg hi]
    exact fin _ _ rfl

/-- What `cpp2R` makes of an expression. -/
theorem cpp2R_eval {s : Mach V} {p : PState V} (R : Rep s p) {e : Expr V} {l : List V} (he : eval p.lists e = some l)
    (hl : l.length < 2 ^ 31) (ty : RTy) (back : V → W) {d : Option (Nat × Nat)}
    (hd : dimsOf (fun x => dimMP (s.env.mp x)) e = d) (hw : ∀ a c, d = some (a, c) → a * c < 2 ^ 64) :
    cpp2R ty back s.env e = toR ty back l d := by
  obtain ⟨hne, hsz, hel⟩ := eval_sound R.agrees e he
  have hpos := List.length_pos_iff.mpr hne
  have all : ∀ n, n = l.length → Out.all ((List.range (e.size s.env)).map (fun i =>
        if 2 ^ 31 ≤ i then .ub .intOverflow
        else do
          let v ← e.el s.env i
          if i < n then .ok (back v) else .ub .oob)) = .ok (l.map back) := by
    intro n hn
    subst hn
    rw [Out.all_eq_ok]
    refine List.ext_getElem (by simp [hsz]) ?_
    intro i h1 h2
    have hi : i < l.length := by simpa using h2
    simp only [List.getElem_map, List.getElem_range]
    rw [if_neg (by omega), hel i hi]
    simp only [Out.ok_bind]
    rw [if_pos hi]
  obtain ⟨a1, a2⟩ := dims_agree s.env e
  rw [hd] at a1 a2
  unfold cpp2R cpp2RAlloc
  cases d with
  | none =>
    rw [if_neg (by intro h; simpa using a1.mp h)]
    simp only [Out.pure_eq, Out.ok_bind, all _ hsz]
    rfl
  | some d =>
    obtain ⟨a, c⟩ := d
    rw [if_pos (a1.mpr rfl)]
    obtain ⟨b1, b2⟩ := a2 _ rfl
    have hac := hw a c rfl
    rw [b1, b2]
    simp only [Out.ok_bind]
    have hmod : (a * c) % two64 = a * c := Nat.mod_eq_of_lt hac
    rw [hmod, hsz]
    simp only [toR]
    by_cases h : l.length = a * c
    · have ha : 0 < a := Nat.pos_of_ne_zero (by rintro rfl; omega)
      have hc : 0 < c := Nat.pos_of_ne_zero (by rintro rfl; omega)
      have ha' : a < 2 ^ 31 := lt_of_le_of_lt (Nat.le_mul_of_pos_right a hc) (by omega)
      have hc' : c < 2 ^ 31 := lt_of_le_of_lt (Nat.le_mul_of_pos_left c ha) (by omega)
      have w1 : wrapI32 a = a := wrapI32_small ha'
      have w2 : wrapI32 c = c := wrapI32_small hc'
      have hz : ((a : Int) * c) = l.length := by rw [h]; push_cast; rfl
      rw [Out.ass_pos h, if_pos h, Out.ok_bind, Out.ass_pos (by rw [w1, w2]; omega), Out.ok_bind,
        Out.ass_pos (by rw [w1, w2, hz]; omega)]
      simp only [Out.ok_bind, Out.pure_eq, w1, w2, hz, Int.toNat_natCast]
      rw [← hsz, all _ hsz]
      rfl
    · rw [Out.ass_neg h, if_neg h]
      rfl

theorem toR_ne_ub {ty : RTy} {back : V → W} {l : List V} {d : Option (Nat × Nat)} (u : UB) : toR ty back l d ≠ .ub u := by
  cases d with
  | none => simp [toR]
  | some d => simp only [toR]; split <;> simp

/-- The call when everything up to the result goes well. -/
theorem callR_ok {ty : RTy} {back : V → W} {zero : V} {fuel : Nat} {args : List (RArg V W)} {body : Prog V}
    {res : Expr V} {ws : List String} {m : Mach V} {s : Prog.St V} (e1 : takeArgs args start = (.ok (), m))
    (e2 : body.run zero fuel (ws, m) = some (.ok (), s)) :
    Prog.callR ty back zero fuel args body res (ws, start) = some (Prog.finish (cpp2R ty back s.2.env res) s) := by
  unfold Prog.callR
  simp only [e1, e2]

theorem oneByOne_run {zero : V} {fuel : Nat} : ∀ (cs : List (Cmd V)) (ws : List String) (s : Mach V) (s' : Prog.St V),
    (oneByOne cs).run zero fuel (ws, s) = some (.ok (), s') → runOk zero cs s = (.ok (), s'.2)
  | [], ws, s, s', h => by cases h; rfl
  | c :: cs, ws, s, s', h => by
    simp only [oneByOne, Prog.run] at h
    rcases hc : exec zero c s with ⟨o, s1⟩
    rw [hc] at h
    cases o with
    | ok a =>
      have := oneByOne_run cs ws s1 s' h
      show (exec zero c >>= fun _ => runOk zero cs) s = _
      rw [M.bind_ok hc]
      exact this
    | thr e => cases h
    | ub u => cases h

theorem oneByOne_wellFormed : ∀ (cs : List (Cmd V)), WellFormed (oneByOne cs)
  | [] => trivial
  | _ :: cs => ⟨trivial, oneByOne_wellFormed cs⟩

theorem takeArgs_shapes : ∀ (rs qs : List (RArg V W)) (s s' : Mach V), Inv s → HasShapes s (argShapes (qs.map RArg.obj)) →
    Args rs → takeArgs rs s = (.ok (), s') → HasShapes s' (argShapes ((qs ++ rs).map RArg.obj))
  | [], qs, s, s', _, H, _, h => by cases h; simpa using H
  | r :: rs, qs, s, s', I, H, ha, h => by
    obtain ⟨h1, h2⟩ := ha r (by simp)
    rw [takeArgs_cons I h1 (by omega)] at h
    obtain ⟨f1, _, f3⟩ := I.fresh s.n (le_refl _)
    have I' : Inv (s.bump.put (s.n, false) (s.heap.addBlk (argBlk r.conv r.obj), argStore s.heap.next r.obj)) :=
      I.bump.step (y := (s.n, false)) (Or.inr f3) (by show s.n < s.n + 1; omega) (by
        have : s.bump.st (s.n, false) = {} := f1
        rw [this]; exact argStore_step _ _ _) (fun _ => argStore_inv _ _ h2) (fun h => by cases h)
    have hn : s.n = qs.length := H.next.trans (List.length_map _)
    have hst : ∀ x, (s.bump.put (s.n, false) (s.heap.addBlk (argBlk r.conv r.obj), argStore s.heap.next r.obj)).st (x, false) =
        if x = s.n then argStore s.heap.next r.obj else s.st (x, false) := by
      intro x
      by_cases hx : x = s.n
      · subst hx; rw [put_same, if_pos rfl]
      · rw [put_ne _ _ (by simpa using hx), if_neg hx]; rfl
    have hsh : ∀ x, ((argShapes ((qs ++ [r]).map RArg.obj)).sh x) = if x = s.n then ⟨r.obj.el.length, r.obj.dim⟩ else (argShapes (qs.map RArg.obj)).sh x := by
      intro x
      unfold argShapes
      simp only []
      by_cases hx : x = s.n
      · subst hx; rw [hn]; simp
      · rw [if_neg hx]
        by_cases h' : x < qs.length
        · rw [List.map_append, List.getElem?_append_left (by simpa using h')]
        · rw [List.getElem?_eq_none (by simp; omega), List.getElem?_eq_none (by simp; omega)]
    have H' : HasShapes (s.bump.put (s.n, false) (s.heap.addBlk (argBlk r.conv r.obj), argStore s.heap.next r.obj))
        (argShapes ((qs ++ [r]).map RArg.obj)) := by
      refine ⟨?_, H.bor, fun x => ?_, fun x => ?_, fun x hx => ?_⟩
      · show s.n + 1 = _
        rw [hn]; simp [argShapes]
      · rw [hst, hsh]
        split
        · rfl
        · exact H.len x
      · rw [hst, hsh]
        split
        · simp only [argStore]
          rcases r.obj.dim with _ | ⟨a, c⟩ <;> rfl
        · exact H.dim x
      · have : ((qs ++ [r]).map RArg.obj).length ≤ x := hx
        unfold argShapes
        simp only []
        rw [List.getElem?_eq_none this]
        exact ⟨rfl, trivial⟩
    have := takeArgs_shapes rs (qs ++ [r]) _ s' I' H' (fun r hr => ha r (by simp [hr])) h
    simpa using this

/-- Up to the result the library follows naive semantics. -/
theorem call_core (zero : V) (fuel : Nat) (args : List (RArg V W)) (body : Prog V) (ws : List String)
    (ha : Args args) (hn : ∀ r ∈ args, r.obj.el ≠ []) (hw : WellFormed body) (p : PState V)
    (he : Spec.exec zero fuel body (argState (args.map (fun r => r.obj.el.map r.conv))) = .done p) :
    ∃ m s, takeArgs args start = (.ok (), m) ∧ body.run zero fuel (ws, m) = some (.ok (), s) ∧ Rep s.2 p := by
  obtain ⟨m, e1, R1⟩ := takeArgs_rep args [] start (argState_nil ▸ Rep.start) ha hn
  rw [List.nil_append] at R1
  have S := sim zero fuel body hw m _ ws R1
  rw [he] at S
  obtain ⟨ws', s', e2, R2, -⟩ := S
  exact ⟨m, (ws', s'), e1, e2, R2⟩

/-! ## Theorems -/

/-- C92 (partial: the arguments are not empty and have at most `2^30` elements, the body follows naive semantics in the sense of
C77).  A function that copies its arguments into vectors, computes and returns an expression gives R the elements that naive
semantics computes from the elements of the arguments, as a vector or, if the expression is a matrix in the final state, as a
matrix with its dimensions; when these do not fit the number of elements it throws.  In each case nothing is leaked. -/
theorem C92_returns_partial (ty : RTy) (back : V → W) (zero : V) (fuel : Nat) (args : List (RArg V W)) (body : Prog V)
    (res : Expr V) (ws : List String) (ha : Args args) (hn : ∀ r ∈ args, r.obj.el ≠ []) (hw : WellFormed body) (p : PState V)
    (he : Spec.exec zero fuel body (argState (args.map (fun r => r.obj.el.map r.conv))) = .done p) (l : List V)
    (hr : eval p.lists res = some l) (hl : l.length < 2 ^ 31) :
    ∃ m s m', takeArgs args start = (.ok (), m) ∧ body.run zero fuel (ws, m) = some (.ok (), s) ∧ NoLeak m' ∧
      ∀ d, dimsOf (fun x => dimMP (s.2.env.mp x)) res = d → (∀ a c, d = some (a, c) → a * c < 2 ^ 64) →
        Prog.callR ty back zero fuel args body res (ws, start) = some (toR ty back l d, (s.1, m')) := by
  obtain ⟨m, ⟨ws', s'⟩, e1, e2, R2⟩ := call_core zero fuel args body ws ha hn hw p he
  obtain ⟨m', f1, f2⟩ := finish_ok (s := (ws', s')) (o := (.ok () : Out Unit)) R2.inv (by simp)
  refine ⟨m, (ws', s'), m', e1, e2, f2, fun d hd hw => ?_⟩
  rw [callR_ok e1 e2, cpp2R_eval R2 hr hl ty back hd hw]
  obtain ⟨m2, g1, _⟩ := finish_ok (s := (ws', s')) (o := toR ty back l d) R2.inv (fun u => toR_ne_ub u)
  rw [g1]
  have : m2 = m' := by
    obtain ⟨t, ht, _⟩ := leave_noLeak R2.inv
    have a1 : Prog.finish (.ok () : Out Unit) (ws', s') = (.ok (), (ws', t)) := by unfold Prog.finish; simp only [ht]
    have a2 : (Prog.finish (toR ty back l d) (ws', s')).2 = (ws', t) := by
      unfold Prog.finish
      simp only [ht]
      cases h : toR ty back l d with
      | ok a => rfl
      | thr e => rfl
      | ub u => exact absurd h (toR_ne_ub u)
    have b1 : m' = t := congrArg (fun z => z.2.2) (f1.symm.trans a1)
    have b2 : m2 = t := congrArg (fun z => z.2) ((congrArg Prod.snd g1).symm.trans a2)
    rw [b1, b2]
  rw [this]

/-- C92 (partial: as above, and the body is a sequence of operations whose shapes C90 describes).  Elements and dimensions of what R gets
are those that naive semantics and the rules for shapes compute from the elements and the dimensions of the arguments. -/
theorem C92_shapes_partial (ty : RTy) (back : V → W) (zero : V) (args : List (RArg V W)) (cs : List (Cmd V))
    (res : Expr V) (ws : List String) (ha : Args args) (hn : ∀ r ∈ args, r.obj.el ≠ []) (p : PState V)
    (hc : (argShapes (args.map RArg.obj)).CoveredAll cs)
    (he : Spec.exec zero 0 (oneByOne cs) (argState (args.map (fun r => r.obj.el.map r.conv))) = .done p) (l : List V)
    (hr : eval p.lists res = some l) (hl : l.length < 2 ^ 31)
    (hw : ∀ a c, ((argShapes (args.map RArg.obj)).after cs).dims res = some (a, c) → a * c < 2 ^ 64) :
    ∃ s', NoLeak s'.2 ∧ Prog.callR ty back zero 0 args (oneByOne cs) res (ws, start) =
      some (toR ty back l (((argShapes (args.map RArg.obj)).after cs).dims res), s') := by
  obtain ⟨m, s, m', e1, e2, nl, h⟩ := C92_returns_partial ty back zero 0 args (oneByOne cs) res ws ha hn (oneByOne_wellFormed cs) p he l
    hr hl
  have H1 := takeArgs_shapes args [] start m Inv.start hasShapes_start ha e1
  rw [List.nil_append] at H1
  have H2 := H1.runOk hc (oneByOne_run cs ws m s e2)
  exact ⟨(s.1, m'), nl, h _ (H2.dims res) hw⟩

/-- C92 (partial: as above; the dimensions of the matrices among the arguments fit their elements, as R guarantees, and the operations and
the result respect the shapes in the sense of C90).  The call does not throw: R gets the elements with the dimensions. -/
theorem C92_fits_partial (ty : RTy) (back : V → W) (zero : V) (args : List (RArg V W)) (cs : List (Cmd V))
    (res : Expr V) (ws : List String) (ha : Args args) (hn : ∀ r ∈ args, r.obj.el ≠ []) (hv : ∀ r ∈ args, r.obj.Valid) (p : PState V)
    (hc : (argShapes (args.map RArg.obj)).CoveredAll cs) (hf : (argShapes (args.map RArg.obj)).FitsAll cs)
    (he : Spec.exec zero 0 (oneByOne cs) (argState (args.map (fun r => r.obj.el.map r.conv))) = .done p) (l : List V)
    (hr : eval p.lists res = some l) (hl : l.length < 2 ^ 31) (d : Nat × Nat) (hd : ((argShapes (args.map RArg.obj)).after cs).Conforms d res) :
    ∃ s', NoLeak s'.2 ∧ Prog.callR ty back zero 0 args (oneByOne cs) res (ws, start) =
      some (.ok ⟨ty, l.map back, ((argShapes (args.map RArg.obj)).after cs).dims res⟩, s') := by
  obtain ⟨m, s, e1, e2, R⟩ := call_core zero 0 args (oneByOne cs) ws ha hn (oneByOne_wellFormed cs) p he
  have H1 := takeArgs_shapes args [] start m Inv.start hasShapes_start ha e1
  rw [List.nil_append] at H1
  have H2 := H1.runOk hc (oneByOne_run cs ws m s e2)
  have hw : (argShapes (args.map RArg.obj)).Well := by
    intro x d' h
    unfold argShapes at h ⊢
    simp only [] at h ⊢
    cases hx : (args.map RArg.obj)[x]? with
    | none => rw [hx] at h; cases h
    | some r =>
      rw [hx] at h
      obtain ⟨q, hq, rfl⟩ := List.mem_map.mp (List.mem_of_getElem? hx)
      exact ((hv q hq).dim d'.1 d'.2 h).1
  obtain ⟨⟨c1, c2⟩, -⟩ := conforms_len (Well.after (V := V) hw hf) res hd
  obtain ⟨_, hsz, _⟩ := eval_sound R.agrees res hr
  have hlen : ((argShapes (args.map RArg.obj)).after cs).len res = l.length := by rw [← H2.size res]; exact hsz
  have fit : ∀ d', ((argShapes (args.map RArg.obj)).after cs).dims res = some d' → l.length = d'.1 * d'.2 := by
    intro d' h'
    have := c1 d' h'
    subst this
    rw [← hlen]; exact c2 h'
  obtain ⟨s', nl, h⟩ := C92_shapes_partial ty back zero args cs res ws ha hn p hc he l hr hl (fun a c h => by
    have := fit _ h
    simp only [] at this
    omega)
  refine ⟨s', nl, ?_⟩
  rw [h]
  cases hq : ((argShapes (args.map RArg.obj)).after cs).dims res with
  | none => rfl
  | some d' => simp only [toR]; rw [if_pos (fit d' hq)]

/-- C92 (partial: arguments of at most `2^30` elements, of any types, fitting or not, and also empty; the body respects the preconditions of `Permits`
from the state with the arguments; the result has fewer than `2^31` elements).  A call makes no memory error, and when it
returns or throws no memory of the library is left. -/
theorem C92_no_leak_partial (ty : RTy) (back : V → W) (zero : V) (fuel : Nat) (args : List (RArg V W)) (body : Prog V)
    (res : Expr V) (ws : List String) (ha : ∀ r ∈ args, r.obj.el.length ≤ 2 ^ 30)
    (hp : ∀ m, takeArgs args start = (.ok (), m) → Permits zero fuel body (ws, m))
    (hf : res.FunSafe) (hs : ∀ m s, takeArgs args start = (.ok (), m) → body.run zero fuel (ws, m) = some (.ok (), s) →
      res.size s.2.env < 2 ^ 31)
    (o : Out (RObj W)) (s' : Prog.St V) (h : Prog.callR ty back zero fuel args body res (ws, start) = some (o, s')) :
    (∃ u, o = .ub u ∧ u.memory = false) ∨ ((∀ u, o ≠ .ub u) ∧ NoLeak s'.2) := by
  have fin : ∀ (o1 : Out (RObj W)) (s1 : Prog.St V), Inv s1.2 → o1.NoMem → Prog.finish o1 s1 = (o, s') →
      (∃ u, o = .ub u ∧ u.memory = false) ∨ ((∀ u, o ≠ .ub u) ∧ NoLeak s'.2) := by
    intro o1 s1 I hm e
    by_cases hu : ∃ u, o1 = .ub u
    · obtain ⟨u, rfl⟩ := hu
      have e : ((.ub u : Out (RObj W)), s1) = (o, s') := e
      exact Or.inl ⟨u, (congrArg Prod.fst e).symm, hm u rfl⟩
    · have hu : ∀ u, o1 ≠ .ub u := fun u h => hu ⟨u, h⟩
      obtain ⟨m, e', nl⟩ := finish_ok I hu
      rw [e'] at e
      cases e
      exact Or.inr ⟨hu, nl⟩
  obtain ⟨o1, m, e1, I1, ho⟩ := takeArgs_safe args start Inv.start ha
  unfold Prog.callR at h
  simp only [e1] at h
  rcases ho with rfl | ⟨er, rfl⟩
  · simp only [] at h
    have hsafe := prog_safe (zero := zero) (fuel := fuel) body (ws, m) I1 (hp m e1)
    cases hb : body.run zero fuel (ws, m) with
    | none => rw [hb] at h; cases h
    | some z =>
      obtain ⟨ob, s⟩ := z
      rw [hb] at h hsafe
      cases ob with
      | ok a => exact fin _ s hsafe (cpp2R_noMem hsafe hf (hs m s e1 hb) ty back) (Option.some.inj h)
      | thr e => exact fin _ s hsafe (by intro k hk; cases hk) (Option.some.inj h)
      | ub u =>
        cases h
        exact Or.inl ⟨u, rfl, hsafe⟩
  · exact fin _ (ws, m) I1 (by intro k hk; cases hk) (Option.some.inj h)

theorem takeArgs_wrong {r : RArg V W} (hr : r.obj.ty ≠ r.ty) (post : List (RArg V W)) : ∀ (pre : List (RArg V W)) (s : Mach V), Inv s →
    Args pre → ∃ e s', takeArgs (pre ++ r :: post) s = (.thr e, s') ∧ Inv s'
  | [], s, I, _ => by
    obtain ⟨f1, _, f3⟩ := I.fresh s.n (le_refl _)
    have f1' : s.bump.st (s.n, false) = {} := f1
    obtain ⟨er, he⟩ := initSEXP_thr (h := s.heap) (ty := r.ty) (conv := r.conv) (r := r.obj) (fun h => hr h.1)
    have e1 : (declDefault : M (Mach V) Unit) s = (.ok (), s.bump) := rfl
    have e2 : assignSEXP r.ty r.conv s.n r.obj s.bump = (.thr er, s.bump.put (s.n, false) (s.heap, {})) := by
      unfold assignSEXP
      rw [onSlot_apply, f1']
      have hh : s.bump.heap = s.heap := rfl
      rw [hh, he]
    have I' : Inv (s.bump.put (s.n, false) (s.heap, {})) :=
      I.bump.step (y := (s.n, false)) (Or.inr f3) (by show s.n < s.n + 1; omega) (by
        rw [f1']; exact Step.refl _ _) (fun _ => Store.DInv.default _) (fun h => by cases h)
    rw [List.nil_append, takeArgs, M.bind_ok (M.get_apply _), M.bind_ok e1, M.bind_thr e2]
    exact ⟨_, _, rfl, I'⟩
  | q :: pre, s, I, h => by
    obtain ⟨h1, h2⟩ := h q (by simp)
    obtain ⟨f1, _, f3⟩ := I.fresh s.n (le_refl _)
    have f1' : s.bump.st (s.n, false) = {} := f1
    have I' : Inv (s.bump.put (s.n, false) (s.heap.addBlk (argBlk q.conv q.obj), argStore s.heap.next q.obj)) :=
      I.bump.step (y := (s.n, false)) (Or.inr f3) (by show s.n < s.n + 1; omega) (by
        rw [f1']; exact argStore_step _ _ _) (fun _ => argStore_inv _ _ h2) (fun h => by cases h)
    obtain ⟨e, s', he, I2⟩ := takeArgs_wrong hr post pre _ I' (fun r hr => h r (by simp [hr]))
    rw [List.cons_append, takeArgs_cons I h1 (by omega)]
    exact ⟨e, s', he, I2⟩

/-- C92 for arguments of another type: whatever the function computes and whatever the other arguments are, the call throws before the body
starts, with the memory of the arguments that were copied already given back. -/
theorem C92_type_rejected (ty : RTy) (back : V → W) (zero : V) (fuel : Nat) (pre post : List (RArg V W)) (r : RArg V W) (body : Prog V)
    (res : Expr V) (ws : List String) (ha : Args pre) (hr : r.obj.ty ≠ r.ty) :
    ∃ e s', Prog.callR ty back zero fuel (pre ++ r :: post) body res (ws, start) = some (.thr e, s') ∧ NoLeak s'.2 ∧ s'.1 = ws := by
  obtain ⟨e, m, he, I⟩ := takeArgs_wrong hr post pre start Inv.start ha
  obtain ⟨m', e', nl⟩ := finish_ok (o := (.thr e : Out (RObj W))) (s := (ws, m)) I (fun u h => by cases h)
  refine ⟨e, (ws, m'), ?_, nl, rfl⟩
  unfold Prog.callR
  simp only [he]
  rw [e']

/-! ## Examples -/

/-- An argument for a vector of integers. -/
def intArg (r : RObj Int) : RArg Int Int := ⟨.integer, id, r⟩

/-- Result of a call without warnings, on integers. -/
def callInt (fuel : Nat) (args : List (RObj Int)) (body : Prog Int) (res : Expr Int) : Option (Out (RObj Int)) :=
  (Prog.callR .integer id 0 fuel (args.map intArg) body res ([], (start : Mach Int))).map (fun z => z.1)

/-- The sum of two expressions. -/
def plusE (a b : Expr Int) : Expr Int := .bin (fun x y => .ok (x + y)) a b

/-- A matrix argument to which a vector of another length is assigned cannot be returned; an empty argument makes an assignment throw;
an object of another type is rejected. -/
theorem C92_false :
    callInt 0 [⟨.integer, [1, 2, 3, 4], some (2, 2)⟩, ⟨.integer, [5, 6, 7], none⟩] (oneByOne [.assign .ok 0 (.leaf 1)]) (.leaf 0) =
      some (.thr "size does not match ncol*nrow") ∧
    callInt 0 [⟨.integer, [], none⟩] (oneByOne [.assign .ok 0 (plusE (.leaf 0) (.scal 1))]) (.leaf 0) ≠ some (.ok ⟨.integer, [], none⟩) ∧
    callInt 0 [⟨.real, [1], none⟩] .skip (.leaf 0) = some (.thr "R object is not of the right type") := by decide +kernel

/-- `f(x, y)` for integers, called with doubles for `y`. -/
example : ∃ e s', Prog.callR .integer id 0 0 [intArg ⟨.integer, [1, 2], none⟩, intArg ⟨.real, [3], none⟩]
    (oneByOne [.assign .ok 0 (plusE (.leaf 0) (.leaf 1))]) (.leaf 0) (["before"], (start : Mach Int)) = some (.thr e, s') ∧ NoLeak s'.2 ∧
    s'.1 = ["before"] :=
  C92_type_rejected (V := Int) .integer id 0 0 [intArg ⟨.integer, [1, 2], none⟩] [] (intArg ⟨.real, [3], none⟩) _ _ _
    (by intro r hr; simp at hr; subst hr; exact ⟨rfl, by decide⟩) (by decide)

/-- `f(x, y) { a = x; b = y; a = a + b; return a + 1; }` with a matrix `x`. -/
example : ∃ s', NoLeak s'.2 ∧
    Prog.callR .integer id 0 0 [intArg ⟨.integer, [1, 2, 3, 4], some (2, 2)⟩, intArg ⟨.integer, [10, 20], none⟩]
      (oneByOne [.assign .ok 0 (plusE (.leaf 0) (.leaf 1))]) (plusE (.leaf 0) (.scal 1)) ([], (start : Mach Int)) =
    some (.ok ⟨.integer, [12, 23, 14, 25], some (2, 2)⟩, s') :=
  C92_shapes_partial (V := Int) .integer id 0 [intArg ⟨.integer, [1, 2, 3, 4], some (2, 2)⟩, intArg ⟨.integer, [10, 20], none⟩]
    [.assign .ok 0 (plusE (.leaf 0) (.leaf 1))] (plusE (.leaf 0) (.scal 1)) []
    (by intro r hr; simp at hr; rcases hr with rfl | rfl <;> exact ⟨rfl, by decide⟩)
    (by intro r hr; simp at hr; rcases hr with rfl | rfl <;> simp [intArg])
    _ ⟨⟨show (0 : Nat) < 2 by decide, show max 4 2 ≤ 2 ^ 30 by decide⟩, trivial⟩ rfl [12, 23, 14, 25] (by decide +kernel) (by decide)
    (by intro a c h; cases h; decide)

/-- `f(x, y)` with an integer `x` and a logical `y` returns `x * y`; a missing logical value counts as true. -/
example : ∃ s', NoLeak s'.2 ∧
    Prog.callR .integer id 0 0 [intArg ⟨.integer, [7, 8, 9], none⟩, ⟨.logical, fun x => if x = 0 then 0 else 1, ⟨.logical, [1, 0, -2147483648], none⟩⟩]
      (oneByOne [.assign .ok 0 (.bin (fun x y => .ok (x * y)) (.leaf 0) (.leaf 1))]) (.leaf 0) ([], (start : Mach Int)) =
    some (.ok ⟨.integer, [7, 0, 9], none⟩, s') :=
  C92_shapes_partial (V := Int) .integer id 0
    [intArg ⟨.integer, [7, 8, 9], none⟩, ⟨.logical, fun x => if x = 0 then 0 else 1, ⟨.logical, [1, 0, -2147483648], none⟩⟩]
    [.assign .ok 0 (.bin (fun x y => .ok (x * y)) (.leaf 0) (.leaf 1))] (.leaf 0) []
    (by intro r hr; simp at hr; rcases hr with rfl | rfl <;> exact ⟨rfl, by decide⟩)
    (by intro r hr; simp at hr; rcases hr with rfl | rfl <;> simp [intArg])
    _ ⟨⟨show (0 : Nat) < 2 by decide, show max 3 3 ≤ 2 ^ 30 by decide⟩, trivial⟩ rfl [7, 0, 9] (by decide +kernel) (by decide)
    (by intro a c h; cases h)

/-- The hypotheses of `C92_no_leak_partial` for `f(x) { a = x; a = a + a; return a; }`, called with a matrix. -/
example (o : Out (RObj Int)) (s' : Prog.St Int)
    (h : Prog.callR .integer id 0 0 [intArg ⟨.integer, [1, 2, 3, 4], some (2, 2)⟩] (oneByOne [.assign .ok 0 (plusE (.leaf 0) (.leaf 0))])
      (.leaf 0) ([], start) = some (o, s')) :
    (∃ u, o = .ub u ∧ u.memory = false) ∨ ((∀ u, o ≠ .ub u) ∧ NoLeak s'.2) := by
  refine C92_no_leak_partial .integer id 0 0 [intArg ⟨.integer, [1, 2, 3, 4], some (2, 2)⟩] _ (.leaf 0) []
    (by intro r hr; simp at hr; subst hr; decide) ?_ trivial ?_ o s' h
  · intro m hm
    have : m = (takeArgs [intArg ⟨.integer, [1, 2, 3, 4], some (2, 2)⟩] (start : Mach Int)).2 := by rw [hm]
    subst this
    exact ⟨⟨by decide +kernel, fun v => Out.NoMem.ok v, ⟨fun _ _ => Out.NoMem.ok _, trivial, trivial⟩, by decide +kernel⟩,
      fun _ _ => trivial⟩
  · intro m s hm hs
    have : m = (takeArgs [intArg ⟨.integer, [1, 2, 3, 4], some (2, 2)⟩] (start : Mach Int)).2 := by rw [hm]
    subst this
    have h' : (((oneByOne [.assign .ok 0 (plusE (.leaf 0) (.leaf 0))]).run 0 0
        ([], (takeArgs [intArg ⟨.integer, [1, 2, 3, 4], some (2, 2)⟩] (start : Mach Int)).2)).map
        (fun z => (Expr.leaf 0 : Expr Int).size z.2.2.env)) = some 4 := by decide +kernel
    rw [hs] at h'
    have h' : (Expr.leaf 0 : Expr Int).size s.2.env = 4 := Option.some.inj h'
    omega

/-- `f(x) = x + x + 1` for a matrix. -/
example : ∃ s', NoLeak s'.2 ∧
    Prog.callR .integer id 0 0 [intArg ⟨.integer, [1, 2, 3, 4], some (2, 2)⟩]
      (oneByOne [.assign .ok 0 (plusE (.leaf 0) (.leaf 0))]) (plusE (.leaf 0) (.scal 1)) ([], (start : Mach Int)) =
    some (.ok ⟨.integer, [3, 5, 7, 9], some (2, 2)⟩, s') :=
  C92_fits_partial (V := Int) .integer id 0 [intArg ⟨.integer, [1, 2, 3, 4], some (2, 2)⟩]
    [.assign .ok 0 (plusE (.leaf 0) (.leaf 0))] (plusE (.leaf 0) (.scal 1)) []
    (by intro r hr; simp at hr; subst hr; exact ⟨rfl, by decide⟩)
    (by intro r hr; simp at hr; subst hr; simp [intArg])
    (by intro r hr; simp at hr; subst hr; exact ⟨by simp [intArg], by intro a c h; simp [intArg] at h; obtain ⟨rfl, rfl⟩ := h; simp [intArg]⟩)
    _ ⟨⟨show (0 : Nat) < 1 by decide, show max 4 4 ≤ 2 ^ 30 by decide⟩, trivial⟩
    ⟨⟨fun d h => by cases h; exact ⟨rfl, rfl⟩, fun h => by cases h⟩, trivial⟩ rfl [3, 5, 7, 9] (by decide +kernel) (by decide)
    (2, 2) ⟨rfl, show 1 ≤ 2 * 2 by decide⟩

/-- `f(x) = { if (x(1)) x = x + x; return x + 1; }`. -/
example : ∃ m s m', takeArgs [intArg ⟨.integer, [1, 2], none⟩] (start : Mach Int) = (.ok (), m) ∧
    (Prog.ite false (.leaf 0) (fun v => v != 0) (.cmd (.assign .ok 0 (plusE (.leaf 0) (.leaf 0)))) .skip).run 0 0 ([], m) = some (.ok (), s) ∧
    NoLeak m' ∧ Prog.callR .integer id 0 0 [intArg ⟨.integer, [1, 2], none⟩]
      (Prog.ite false (.leaf 0) (fun v => v != 0) (.cmd (.assign .ok 0 (plusE (.leaf 0) (.leaf 0)))) .skip) (plusE (.leaf 0) (.scal 1)) ([], start) =
      some (toR .integer id [3, 5] (dimsOf (fun x => dimMP (s.2.env.mp x)) (plusE (.leaf 0) (.scal 1))), (s.1, m')) := by
  have hn : ∀ r ∈ [intArg ⟨.integer, [1, 2], none⟩], r.obj.el ≠ [] := by intro r hr; simp at hr; subst hr; simp [intArg]
  obtain ⟨m, s, m', h1, h2, h3, h4⟩ := C92_returns_partial (V := Int) .integer id 0 0 [intArg ⟨.integer, [1, 2], none⟩]
    (Prog.ite false (.leaf 0) (fun v => v != 0) (.cmd (.assign .ok 0 (plusE (.leaf 0) (.leaf 0)))) .skip) (plusE (.leaf 0) (.scal 1)) []
    (by intro r hr; simp at hr; subst hr; exact ⟨rfl, by decide⟩) hn
    (by intro v; show WellFormed (if _ then _ else _); split <;> trivial) _ rfl [3, 5] (by decide +kernel) (by decide)
  have e1 : m = (takeArgs [intArg ⟨.integer, [1, 2], none⟩] (start : Mach Int)).2 := by rw [h1]
  subst e1
  have e2 : ((Prog.ite false (.leaf 0) (fun v => v != 0) (.cmd (.assign .ok 0 (plusE (.leaf 0) (.leaf 0)))) .skip).run 0 0
      ([], (takeArgs [intArg ⟨.integer, [1, 2], none⟩] (start : Mach Int)).2)).map
      (fun z => dimsOf (fun x => dimMP (z.2.2.env.mp x)) (plusE (.leaf 0) (.scal 1))) = some none := by decide +kernel
  rw [h2] at e2
  exact ⟨_, s, m', h1, h2, h3, h4 _ rfl fun a c h => by
    have e3 : dimsOf (fun x => dimMP (s.2.env.mp x)) (plusE (.leaf 0) (.scal 1)) = none := Option.some.inj e2
    rw [e3] at h; cases h⟩

end ETR
