import Verif.Lemmas.MachFun

/-! Assignment in an arbitrary state that satisfies the invariant (owned and borrowed targets). -/

namespace ETR
variable {V : Type}

theorem Expr.im_congr {env env' : Env V} (h : env'.mp = env.mp) (e : Expr V) :
    e.im env' = e.im env := by
  induction e with
  | leaf x => simp [Expr.im, h]
  | rvec l mp => rfl
  | scal v => rfl
  | un f e ih => rfl
  | bin f l r ihl ihr => simp [Expr.im, ihl, ihr]
  | sub e ind mp ih => rfl

theorem Expr.nr_congr {env env' : Env V} (h : env'.mp = env.mp) (e : Expr V) :
    e.nr env' = e.nr env ∧ e.nc env' = e.nc env := by
  induction e with
  | leaf x => simp [Expr.nr, Expr.nc, h]
  | rvec l mp => exact ⟨rfl, rfl⟩
  | scal v => exact ⟨rfl, rfl⟩
  | un f e ih => simp [Expr.nr, Expr.nc, ih]
  | bin f l r ihl ihr =>
    simp [Expr.nr, Expr.nc, ihl, ihr, Expr.im_congr h]
  | sub e ind mp ih => exact ⟨rfl, rfl⟩

/-- Growing one vector to at most the size of the expression does not change that size. -/
theorem Expr.size_grow {env env' : Env V} {x m : Nat} (hx : env'.size x = m)
    (hle : env.size x ≤ m) (hy : ∀ y, y ≠ x → env'.size y = env.size y) (e : Expr V) :
    e.size env ≤ e.size env' ∧ (e.size env ≤ m → e.size env' ≤ m) := by
  induction e with
  | leaf y =>
    simp only [Expr.size]
    by_cases h : y = x
    · subst h; omega
    · rw [hy y h]; omega
  | rvec l mp => simp [Expr.size]
  | scal v => simp [Expr.size]
  | un f e ih => simpa [Expr.size] using ih
  | bin f l r ihl ihr =>
    simp only [Expr.size]
    by_cases h1 : l.isScal = true <;> by_cases h2 : r.isScal = true <;>
      simp only [h1, h2, and_self, and_true, true_and, if_true, if_false, Bool.false_eq_true,
        and_false, false_and]
    · omega
    · exact ihr
    · exact ihl
    · split <;> split <;> omega
  | sub e ind mp ih => simp [Expr.size]

namespace Mach
open Store Spec

/-- The variable `x` shows the list `l`: `x.size()` is its length and `x[i]` its elements. -/
def ShowsVar (s : Mach V) (x : Nat) (l : List V) : Prop :=
  (s.env.size x = l.length) ∧ ∀ i (hi : i < l.length), s.env.get x i = .ok l[i]

/-- Nothing that can be observed of the variable `y` has changed. -/
def SameVar (s s' : Mach V) (y : Nat) : Prop :=
  s'.env.size y = s.env.size y ∧ (∀ i, s'.env.get y i = s.env.get y i) ∧ s'.env.mp y = s.env.mp y

theorem SameVar.shows {s s' : Mach V} {y : Nat} (h : SameVar s s' y) {l : List V}
    (sh : ShowsVar s y l) : ShowsVar s' y l :=
  ⟨by rw [h.1]; exact sh.1, fun i hi => by rw [h.2.1]; exact sh.2 i hi⟩

theorem newMp_congr {s s' : Mach V} {x : Nat} {e : Expr V} (h : s'.env.mp = s.env.mp) :
    newMp s' x e = newMp s x e := by
  unfold newMp
  rw [Expr.im_congr h, (Expr.nr_congr h e).1, (Expr.nr_congr h e).2]
  have : (s'.st (x, false)).mp = (s.st (x, false)).mp := congrFun h x
  rw [this]

/-- `x = e` for a vector that owns its memory. -/
theorem Inv.assign {zero : V} {s : Mach V} (I : Inv s) {x : Nat} (hlt : x < s.n)
    (hbx : s.bor x = false) {conv : V → Out V} {e : Expr V} {L : List V}
    (hgood : (s.st (x, true)).allocated = true → (s.st (x, true)).p ≠ none)
    (hsz : e.size s.env = L.length)
    (hel : ∀ i (hi : i < L.length), (e.el s.env i >>= conv) = .ok L[i])
    (hL : L ≠ []) (hlim : L.length ≤ 2 ^ 30) :
    ∃ s', Mach.assign zero conv x e s = (.ok (), s') ∧ ShowsVar s' x L ∧
      s'.env.mp x = newMp s x e ∧ (∀ y, y ≠ x → SameVar s s' y) ∧
      (∀ b, b < s.heap.next → (s.st (x, true)).p ≠ some b → s'.heap.blk b = s.heap.blk b) := by
  obtain ⟨h1, t1, e1, st1, D1, sh1, a1, p1, c1⟩ := fillTemp_ok (zero := zero) I hgood hsz hel hL
    hlim
  have henv := I.env_put (t := x) (r := (h1, t1)) st1
  set s1 := s.put (x, true) (h1, t1) with hs1
  have hd1 : s1.st (x, false) = s.st (x, false) := put_ne _ _ (by simp)
  have ht1 : s1.st (x, true) = t1 := put_same _ _ _
  have e2 : wrap64 (wrapI32 t1.sz) = t1.sz := by
    have := D1.sz
    rw [wrapI32_small (by omega), wrap64_small (by omega)]
  have e3 : wrap64 (wrapI32 t1.capacity) = t1.capacity := by
    have := D1.cap
    rw [wrapI32_small (by omega), wrap64_small (by omega)]
  set d' : Store := { s.st (x, false) with p := t1.p, sz := t1.sz, capacity := t1.capacity,
                                            allocated := true } with hd'
  set t' : Store := { t1 with p := (s.st (x, false)).p, sz := (s.st (x, false)).sz,
                              capacity := (s.st (x, false)).capacity } with ht'
  set s2 : Mach V := { s1 with
      st := fun y => if y = (x, false) then d' else if y = (x, true) then t' else s1.st y } with hs2
  have hmv : moveTemp x s1 = (.ok (), s2) := by
    unfold moveTemp
    rw [M.modify_apply, hd1, ht1]
    unfold Store.moveit
    simp only [e2, e3, hd', ht', hs2]
  have hmp : s2.env.mp = s.env.mp := by
    funext y
    by_cases hy : y = x
    · subst hy; simp [Mach.env, hs2, hd']
    · simp only [Mach.env, hs2, Prod.mk.injEq, hy, false_and, if_false, hs1]
      rw [put_ne _ _ (by simp)]
  have e4 := setDims_ok x e s2
  rw [newMp_congr hmp] at e4
  set s3 := s2.put (x, false) (s2.heap, { s2.st (x, false) with mp := newMp s x e }) with hs3
  refine ⟨s3, ?_, ?_, ?_, ?_, ?_⟩
  · unfold Mach.assign
    rw [M.bind_ok (M.get_apply _), if_neg (by rw [hbx]; simp)]
    unfold assignBuffer
    rw [M.bind_ok e1, M.bind_ok hmv, e4]
  · have : Shows h1 d' L := by
      refine ⟨sh1.1, fun i hi => ?_⟩
      have := sh1.2 i hi
      rw [get_eq_load a1 (by rw [sh1.1]; exact hi)] at this
      rw [get_eq_load rfl (by show i < t1.sz; rw [sh1.1]; exact hi)]
      exact this
    unfold ShowsVar Mach.env
    simp only [hs3, put_same, put_heap, hs2, if_true]
    exact this
  · simp [Mach.env, hs3]
  · intro y hy
    have q : s3.st (y, false) = s1.st (y, false) := by
      rw [hs3, put_ne _ _ (by simp [hy])]
      simp [hs2, hy]
    have qh : s3.heap = s1.heap := by simp [hs3, hs2]
    have k1 : s3.env.size y = s1.env.size y := by simp only [Mach.env, q]
    have k2 : s3.env.get y = s1.env.get y := by simp only [Mach.env, q, qh]
    have k3 : s3.env.mp y = s1.env.mp y := by simp only [Mach.env, q]
    rw [henv] at k1 k2 k3
    exact ⟨k1, fun i => by rw [k2], k3⟩
  · intro b hb hpb
    have qh : s3.heap = h1 := by simp [hs3, hs2, hs1]
    rw [qh]
    exact st1.frame b hb hpb

/-- The second vector assignment to a default constructed vector throws. -/
theorem assign_bad {zero : V} {s : Mach V} {x : Nat} (hbx : s.bor x = false)
    {conv : V → Out V} {e : Expr V} (hal : (s.st (x, true)).allocated = true)
    (hp : (s.st (x, true)).p = none) (hc : (s.st (x, true)).capacity = 0)
    (hsz : 1 ≤ e.size s.env) :
    Mach.assign zero conv x e s = (.thr "try to delete nullptr", s) := by
  unfold Mach.assign
  rw [M.bind_ok (M.get_apply _), if_neg (by rw [hbx]; simp)]
  unfold assignBuffer fillTemp
  have : onSlot (x, true) (Store.resize zero (e.size s.env)) s
      = (.thr "try to delete nullptr", s) := by
    rw [onSlot_apply]
    have : Store.resize zero (e.size s.env) (s.heap, s.st (x, true))
        = (.thr "try to delete nullptr", (s.heap, s.st (x, true))) := by
      unfold Store.resize
      rw [M.bind_ok (M.ass_pos hsz _), M.bind_ok (self_apply _)]
      simp only [hal, not_true_eq_false, if_false]
      rw [if_pos (by omega), M.bind_thr (M.ass_neg (by simp [hp]) _)]
    rw [this]
    simp only [put_self]
  rw [M.bind_thr (by rw [M.bind_ok (M.get_apply _), M.bind_thr this])]

theorem setB_ok {h : Heap V} {s : Store} {b j : Nat} {v : V} (i : BInv h s) (hp : s.p = some b)
    (hj : j < s.sz) : Store.set j v (h, s) = (.ok (), (h.setCells b (fun i => if i = j then some v
        else (h.blk b).cell i), s)) := by
  obtain ⟨b', hp', _, hl, _, hc⟩ := i.ptr
  rw [hp] at hp'; simp only [Option.some.injEq] at hp'; subst hp'
  have hsz := i.sz
  unfold Store.set
  rw [M.bind_ok (self_apply _)]
  have : s.checkIdx j = .ok () := by
    unfold checkIdx; simp [i.al, hj]
  simp only [this]
  rw [M.bind_ok (M.lift_apply _ _), hp, heapM_ok _ (Heap.store_some hl (by omega))]

/-- `x = e` for a borrowed vector when the values fit. -/
theorem Inv.assignB {zero : V} {s : Mach V} (I : Inv s) {x b : Nat} (hlt : x < s.n)
    (hbx : s.bor x = true) (hpb : (s.st (x, false)).p = some b) {conv : V → Out V} {e : Expr V}
    {L : List V} (hgood : (s.st (x, true)).allocated = true → (s.st (x, true)).p ≠ none)
    (hsz : e.size s.env = L.length)
    (hel : ∀ i (hi : i < L.length), (e.el s.env i >>= conv) = .ok L[i])
    (hL : L ≠ []) (hlim : L.length ≤ 2 ^ 30)
    (h1 : (s.st (x, false)).sz ≤ L.length) (h2 : L.length ≤ (s.st (x, false)).capacity) :
    ∃ s', Mach.assign zero conv x e s = (.ok (), s') ∧ ShowsVar s' x L ∧
      (∀ j, (s'.heap.blk b).cell j = if h : j < L.length then some L[j] else (s.heap.blk b).cell j) ∧
      (∀ c, c < s.heap.next → c ≠ b → (s.st (x, true)).p ≠ some c →
        s'.heap.blk c = s.heap.blk c) ∧ s'.env.mp x = newMp s x e ∧
      (s'.heap.blk b).live = true ∧ (s'.st (x, false)).p = some b ∧
      Inv s' ∧ s'.n = s.n ∧ s'.bor = s.bor ∧ s.heap.next ≤ s'.heap.next ∧ (∀ y, y.1 ≠ x → s'.st y = s.st y) ∧
      (s'.st (x, false)).sz = L.length ∧ (s'.st (x, false)).capacity = (s.st (x, false)).capacity ∧
      (s'.heap.blk b).len = (s.heap.blk b).len ∧ (s'.heap.blk b).newed = (s.heap.blk b).newed ∧
      (s'.st (x, true)).p ≠ none := by
  obtain ⟨ha, t1, e1, st1, D1, sh1, a1, p1, c1⟩ := fillTemp_ok (zero := zero) I hgood hsz hel hL
    hlim
  have henv := I.env_put (t := x) (r := (ha, t1)) st1
  have B0 := I.b x hbx
  obtain ⟨b', hb', hbn, hbl, hbw, hbc⟩ := B0.ptr
  rw [hpb] at hb'; simp only [Option.some.injEq] at hb'; subst hb'
  have I1 : Inv (s.put (x, true) (ha, t1)) := I.step (Or.inl rfl) hlt st1 (by simp)
    (fun _ => ⟨D1.wf.own, D1.cap⟩)
  have hbt : (s.st (x, true)).p ≠ some b := by
    intro hp
    have := ((I.t x).own.ptr b hp).2.2.1
    rw [hbw] at this; simp at this
  have fb : ha.blk b = s.heap.blk b := st1.frame b hbn hbt
  set s1 := s.put (x, true) (ha, t1) with hs1
  have hd1 : s1.st (x, false) = s.st (x, false) := put_ne _ _ (by simp)
  set d2 : Store := { s.st (x, false) with sz := L.length } with hd2
  have B1 : BInv ha d2 := by
    have := I1.b x hbx
    rw [hd1] at this
    exact this.setSz h2
  set s2 := s1.put (x, false) (ha, d2) with hs2
  have hsz1 : e.size s1.env = L.length := by rw [henv]; exact hsz
  have hsz2 : e.size s2.env = L.length := by
    have := Expr.size_grow (env := s1.env) (env' := s2.env) (x := x) (m := L.length)
      (by simp [Mach.env, hs2, hd2]) (by simp only [Mach.env, hd1]; exact h1)
      (fun y hy => by simp only [Mach.env, hs2]; rw [put_ne _ _ (by simp [hy])]) e
    rw [hsz1] at this
    omega
  have hp2 : d2.p = some b := hpb
  obtain ⟨s3, e3, h3, rfl, K3, c3, sh3⟩ := M.forN_ok (σ := Mach V)
    (I := fun i s' => ∃ h', s' = s2.put (x, false) (h', d2) ∧ BKeeps ha d2 (h', d2) ∧
      (∀ j, (h'.blk b).cell j = if h : j < L.length then (if j < i then some L[j]
        else (s.heap.blk b).cell j) else (s.heap.blk b).cell j) ∧ Shows h' t1 L) L.length
    (f := fun i => do
      let v ← M.reads (fun s => (s.st (x, true)).get s.heap i)
      onSlot (x, false) (Store.set i v)) (s := s2)
    ⟨ha, by rw [hs2, put_put], BKeeps.refl B1, fun j => by simp [fb], sh1⟩ (by
      rintro i s' hi ⟨h', rfl, K, c, sh⟩
      have hst : (s2.put (x, false) (h', d2)).st (x, true) = t1 := by
        rw [put_ne _ _ (by simp), hs2, put_ne _ _ (by simp), hs1, put_same]
      have hr : M.reads (fun s => (s.st (x, true)).get s.heap i) (s2.put (x, false) (h', d2))
          = (.ok L[i], s2.put (x, false) (h', d2)) := by
        rw [M.reads_apply]
        simp only [hst, put_heap]
        rw [sh.2 i hi]
      have hset := setB_ok (v := L[i]) K.inv hp2 (j := i) (by simp only [hd2]; exact hi)
      refine ⟨s2.put (x, false) (h'.setCells b (fun j => if j = i then some L[i]
        else (h'.blk b).cell j), d2), ?_, _, rfl, K.trans (BKeeps.setCells K.inv hp2 _), ?_, ?_⟩
      · rw [M.bind_ok hr]
        rw [onSlot_ok (r := (h'.setCells b (fun j => if j = i then some L[i]
          else (h'.blk b).cell j), d2)) (a := ()), put_put]
        rw [put_heap, put_same]
        exact hset
      · intro j
        rw [Heap.setCells_cell]
        by_cases hji : j = i
        · subst hji; simp [hi]
        · rw [if_neg hji, c j]
          by_cases hjl : j < L.length
          · have : j < i ↔ j < i + 1 := by omega
            simp only [hjl, dif_pos, this]
          · simp only [hjl, dif_neg, not_false_eq_true]
      · refine shows_frame (fun a hc => ?_) sh
        refine Heap.setCells_ne _ _ ?_
        intro hab
        rw [hab] at hc
        have := (D1.wf.ptr b hc).2.2.1
        rw [fb, hbw] at this; simp at this)
  have hmp : (s2.put (x, false) (h3, d2)).env.mp = s.env.mp := by
    funext y
    by_cases hy : y = x
    · subst hy; simp [Mach.env, hd2]
    · simp only [Mach.env]
      rw [put_ne _ _ (by simp [hy]), hs2, put_ne _ _ (by simp [hy]), hs1, put_ne _ _ (by simp)]
  have e4 := setDims_ok x e (s2.put (x, false) (h3, d2))
  rw [newMp_congr hmp, put_same, put_heap, put_put s2] at e4
  have hcell : ∀ j, (h3.blk b).cell j = if h : j < L.length then some L[j]
      else (s.heap.blk b).cell j := by
    intro j
    rw [c3 j]
    split
    · simp_all
    · rfl
  refine ⟨s2.put (x, false) (h3, { d2 with mp := newMp s x e }), ?_, ?_, ?_, ?_, ?_, ?_, ?_, ?_, rfl, rfl, ?_, ?_, ?_, ?_, ?_, ?_, ?_⟩
  · unfold Mach.assign
    rw [M.bind_ok (M.get_apply _), if_pos hbx]
    unfold assignBorrow
    rw [M.bind_ok (M.get_apply _), M.bind_ok (M.ass_pos (by rw [hsz]; exact h2) _), M.bind_ok e1,
      M.bind_ok (M.get_apply _), M.bind_ok (M.ass_pos (by rw [hd1, hsz1]; exact h1) _)]
    have eu : onSlot (x, false) (Store.upd (fun d => { d with sz := e.size s1.env })) s1
        = (.ok (), s2) := by
      rw [onSlot_apply, upd_apply, hsz1, hd1]
      rfl
    rw [M.bind_ok eu, M.bind_ok (M.get_apply _), hsz2, M.bind_ok e3]
    exact e4
  · unfold ShowsVar Mach.env
    simp only [put_same, put_heap]
    refine ⟨rfl, fun i hi => ?_⟩
    rw [get_eq_load (by exact B1.al) (by exact hi)]
    obtain ⟨b', hb', _, hl3, _, hc3⟩ := K3.inv.ptr
    simp only [hp2] at hb' ⊢
    simp only [Option.some.injEq] at hb'; subst hb'
    refine Heap.load_some hl3 (by
      have : d2.capacity = (s.st (x, false)).capacity := rfl
      simp only [] at hc3; omega) ?_
    rw [hcell i]; simp [hi]
  · exact hcell
  · intro c hc hcb hct
    rw [put_heap]
    rw [K3.frame c (by rw [hp2]; simp; exact fun h => hcb h.symm)]
    exact st1.frame c hc hct
  · simp [Mach.env]
  · rw [put_heap, (K3.shape b).1, fb]; exact hbl
  · rw [put_same]; exact hpb
  · rw [hs2, put_put]
    refine I1.stepB (r := (h3, { d2 with mp := newMp s x e })) hbx K3.next K3.sched ?_ K3.shape ?_
    · intro c hc
      exact K3.frame c (by rw [hd1] at hc; exact hc)
    · exact ⟨K3.inv.ptr, K3.inv.sz, K3.inv.cap, K3.inv.al⟩
  · rw [put_heap, show h3.next = ha.next from K3.next]; exact st1.next_le
  · intro y hy
    have h1 : y ≠ (x, false) := by rintro rfl; exact hy rfl
    have h2 : y ≠ (x, true) := by rintro rfl; exact hy rfl
    rw [put_ne _ _ h1, hs2, put_ne _ _ h1, hs1, put_ne _ _ h2]
  · rw [put_same]
  · rw [put_same]
  · rw [put_heap, (K3.shape b).2.2, fb]
  · rw [put_heap, (K3.shape b).2.1, fb]
  · rw [put_ne _ _ (by simp), hs2, put_ne _ _ (by simp), hs1, put_same]; exact p1

/-- What the evaluation loop can do, whatever the elements of the expression are. -/
theorem fillTemp_post {zero : V} {conv : V → Out V} {t : Nat} {e : Expr V} {s : Mach V}
    (I : Inv s) (hlim : e.size s.env ≤ 2 ^ 30) :
    match fillTemp zero conv t e s with
    | (.ok _, _) => ((s.st (t, true)).allocated = true → (s.st (t, true)).p ≠ none) ∧
        ∃ L : List V, L ≠ [] ∧ e.size s.env = L.length ∧
          ∀ i (hi : i < L.length), (e.el s.env i >>= conv) = .ok L[i]
    | (.thr _, s') => ∃ r, s' = s.put (t, true) r ∧ Step s.heap (s.st (t, true)) r.1 r.2 ∧
        TInv r.1 r.2
    | (.ub _, _) => True := by
  set n := e.size s.env with hn
  have hself : ∃ r, s = s.put (t, true) r ∧ Step s.heap (s.st (t, true)) r.1 r.2 ∧
        TInv r.1 r.2 := ⟨(s.heap, s.st (t, true)), (put_self _ _).symm, Step.refl _ _, I.t t⟩
  unfold fillTemp
  rw [M.bind_ok (M.get_apply _), ← hn]
  rcases Nat.eq_zero_or_pos n with h0 | hpos
  · rw [h0]
    have : onSlot (t, true) (Store.resize zero 0) s = (.thr "Size has to be larger than 0", s) := by
      rw [onSlot_apply, resize_zero]; simp only [put_self]
    rw [M.bind_thr this]
    exact hself
  by_cases hal : (s.st (t, true)).allocated = true → (s.st (t, true)).p ≠ none
  · obtain ⟨h1, t1, e1, w1, st1, z1, a1, m1, c1, k1, g1⟩ := resize_spec (zero := zero)
      (h := s.heap) (s := s.st (t, true)) (n := n) I.sched (I.t t).own hal hpos (by omega)
    have hp1 : t1.p ≠ none := by intro hp; have := w1.null hp; omega
    have hcap : t1.capacity < 2 ^ 31 := by
      by_cases hk : n ≤ (s.st (t, true)).capacity
      · rw [(k1 hk).2]; exact (I.t t).cap
      · have := (g1 (by omega)).1; omega
    have D1 : DInv h1 t1 := ⟨w1, fun _ => hp1, by omega, hcap⟩
    rw [M.bind_ok (onSlot_ok e1)]
    have key := M.forN_post (σ := Mach V) (I := fun i s' => ∃ h', s' = s.put (t, true) (h', t1) ∧
        DInv h' t1 ∧ Step s.heap (s.st (t, true)) h' t1 ∧
        ∃ L : List V, L.length = i ∧ ∀ j (hj : j < L.length), (e.el s.env j >>= conv) = .ok L[j]) n
      (f := fun i => do
        let v ← M.reads (fun s => e.el s.env i)
        let w ← M.lift (conv v)
        onSlot (t, true) (Store.set i w)) (s := s.put (t, true) (h1, t1))
      ⟨h1, rfl, D1, st1, [], rfl, fun j hj => by simp at hj⟩ (by
        rintro i s' hi ⟨h', rfl, D', st', L, hL, hel⟩
        have henv := I.env_put (t := t) (r := (h', t1)) st'
        simp only [M.reads_lift]
        rcases hv : (e.el (s.put (t, true) (h', t1)).env i >>= conv) with v | m | u
        · rw [M.bind_ok (show M.reads _ _ = (.ok v, _) by rw [M.reads_apply, hv])]
          obtain ⟨b, hb⟩ : ∃ b, t1.p = some b := by
            cases hp : t1.p with
            | none => exact absurd hp hp1
            | some b => exact ⟨b, rfl⟩
          have hset := set_ok (v := v) D'.wf hb (i := i) (by omega)
          rw [onSlot_ok (r := (h'.setCells b (fun j => if j = i then some v
            else (h'.blk b).cell j), t1)) (a := ()) (by rw [put_heap, put_same]; exact hset), put_put]
          refine ⟨_, rfl, ⟨D'.wf.setCells _ _, D'.al, D'.sz, D'.cap⟩,
            st'.trans (I.t t).own (Step.setCells hb _ _ rfl), L ++ [v], by simp [hL], ?_⟩
          intro j hj
          simp only [List.length_append, List.length_singleton] at hj
          by_cases hji : j < L.length
          · rw [List.getElem_append_left hji]; exact hel j hji
          · have : j = i := by omega
            subst this
            rw [List.getElem_append_right (by omega)]
            rw [henv] at hv
            simpa using hv
        · rw [M.bind_thr (show M.reads _ _ = (.thr m, _) by rw [M.reads_apply, hv])]
          exact ⟨h', rfl, D', st', L, hL, hel⟩
        · rw [M.bind_ub (show M.reads _ _ = (.ub u, _) by rw [M.reads_apply, hv])]
          trivial)
    rcases hm : M.forN n (fun i => do
        let v ← M.reads (fun s : Mach V => e.el s.env i)
        let w ← M.lift (conv v)
        onSlot (t, true) (Store.set i w)) (s.put (t, true) (h1, t1)) with ⟨o, s'⟩
    rw [hm] at key
    cases o with
    | ok a =>
      obtain ⟨h', _, _, _, L, hL, hel⟩ := key
      exact ⟨hal, L, by intro h; rw [h] at hL; simp at hL; omega, hL.symm, hel⟩
    | thr m =>
      obtain ⟨i, _, h', rfl, D', st', _⟩ := key
      exact ⟨_, rfl, st', ⟨D'.wf.own, D'.cap⟩⟩
    | ub u => trivial
  · have ha : (s.st (t, true)).allocated = true ∧ (s.st (t, true)).p = none := by
      by_contra hcon; apply hal; intro h1 h2; exact hcon ⟨h1, h2⟩
    have hc := (I.t t).own.null ha.2
    have : onSlot (t, true) (Store.resize zero n) s = (.thr "try to delete nullptr", s) := by
      rw [onSlot_apply, resize_null hpos ha.1 (by omega) ha.2]; simp only [put_self]
    rw [M.bind_thr this]
    exact hself

end Mach
end ETR
