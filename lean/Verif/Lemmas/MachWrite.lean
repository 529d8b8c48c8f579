import Verif.Lemmas.MachSub

/-! # Writes through subsets, for vectors that own or borrow their memory -/

namespace ETR
namespace Mach
open Store Spec

variable {V : Type}

/-- Only cells of the memory of `x` differ. -/
structure Wrote (s : Mach V) (x : Nat) (s' : Mach V) : Prop where
  inv : Inv s'
  st : s'.st = s.st
  n : s'.n = s.n
  bor : s'.bor = s.bor
  frame : ∀ c, (s.st (x, false)).p ≠ some c → s'.heap.blk c = s.heap.blk c
  next : s'.heap.next = s.heap.next
  shape : ∀ c, (s'.heap.blk c).len = (s.heap.blk c).len ∧ (s'.heap.blk c).live = (s.heap.blk c).live ∧
    (s'.heap.blk c).newed = (s.heap.blk c).newed
  rest : ∀ c j, (s.st (x, false)).sz ≤ j → (s'.heap.blk c).cell j = (s.heap.blk c).cell j

theorem Wrote.refl {s : Mach V} (I : Inv s) (x : Nat) : Wrote s x s := ⟨I, rfl, rfl, rfl, fun _ _ => rfl, rfl, fun _ => ⟨rfl, rfl, rfl⟩, fun _ _ _ => rfl⟩

theorem Wrote.trans {s s1 s2 : Mach V} {x : Nat} (a : Wrote s x s1) (b : Wrote s1 x s2) : Wrote s x s2 :=
  ⟨b.inv, b.st.trans a.st, b.n.trans a.n, b.bor.trans a.bor, fun c hc =>
    (b.frame c (by rw [a.st]; exact hc)).trans (a.frame c hc), b.next.trans a.next, fun c =>
    ⟨(b.shape c).1.trans (a.shape c).1, (b.shape c).2.1.trans (a.shape c).2.1, (b.shape c).2.2.trans (a.shape c).2.2⟩,
    fun c j hj => (b.rest c j (by rw [a.st]; exact hj)).trans (a.rest c j hj)⟩

/-- A slot that does not share the memory of `x`. -/
theorem Wrote.get {s s' : Mach V} {x : Nat} (w : Wrote s x s') {y : Slot}
    (h : ∀ b, (s.st y).p = some b → (s.st (x, false)).p ≠ some b) (i : Nat) :
    (s'.st y).get s'.heap i = (s.st y).get s.heap i := by
  rw [w.st]
  exact get_frame (fun b hb => w.frame b (h b hb)) i

theorem Wrote.same {s s' : Mach V} {x : Nat} (w : Wrote s x s') {y : Nat}
    (h : ∀ b, (s.st (y, false)).p = some b → (s.st (x, false)).p ≠ some b) : SameVar s s' y := by
  refine ⟨?_, fun i => w.get (y := (y, false)) h i, ?_⟩
  · show (s'.st (y, false)).sz = _; rw [w.st]; rfl
  · show (s'.st (y, false)).mp = _; rw [w.st]; rfl

/-- The memory of a `temp` is not the memory of a vector. -/
theorem Inv.temp_apart {s : Mach V} (I : Inv s) (x t : Nat) (b : Nat) (h : (s.st (t, true)).p = some b) :
    (s.st (x, false)).p ≠ some b := by
  intro hx
  cases hb : s.bor x with
  | false =>
    have := I.inj (t, true) (x, false) b (Or.inl rfl) (Or.inr hb) h hx
    simp at this
  | true =>
    obtain ⟨b', h1, h2, _, h4, _⟩ := (I.b x hb).ptr
    rw [hx] at h1; simp only [Option.some.injEq] at h1; subst h1
    have := ((I.ownOf (y := (t, true)) (Or.inl rfl)).ptr b h).2.2.1
    rw [h4] at this; exact absurd this (by decide)

/-- The memory of a vector that owns it is not the memory of another vector. -/
theorem Inv.owned_apart {s : Mach V} (I : Inv s) {x y : Nat} (hb : s.bor x = false) (hy : y ≠ x) (b : Nat)
    (h : (s.st (y, false)).p = some b) : (s.st (x, false)).p ≠ some b := by
  intro hx
  cases hby : s.bor y with
  | false =>
    have := I.inj (y, false) (x, false) b (Or.inr hby) (Or.inr hb) h hx
    simp only [Prod.mk.injEq] at this
    exact hy this.1
  | true =>
    obtain ⟨b', h1, h2, _, h4, _⟩ := (I.b y hby).ptr
    rw [h] at h1; simp only [Option.some.injEq] at h1; subst h1
    have := ((I.ownOf (y := (x, false)) (Or.inr hb)).ptr b hx).2.2.1
    rw [h4] at this; exact absurd this (by decide)

/-- `y` refers to the memory of `x`. -/
def Shares (s : Mach V) (x y : Nat) : Prop := ∃ b, (s.st (y, false)).p = some b ∧ (s.st (x, false)).p = some b

theorem not_shares {s : Mach V} {x y : Nat} (h : ¬ Shares s x y) (b : Nat) (hb : (s.st (y, false)).p = some b) :
    (s.st (x, false)).p ≠ some b := fun hx => h ⟨b, hb, hx⟩

/-- Only vectors that borrow memory can refer to the same memory. -/
theorem Inv.shares_borrowed {s : Mach V} (I : Inv s) {x y : Nat} (hy : y ≠ x) (h : Shares s x y) :
    s.bor x = true ∧ s.bor y = true := by
  obtain ⟨b, h1, h2⟩ := h
  constructor
  · cases hb : s.bor x with
    | true => rfl
    | false => exact absurd h2 (I.owned_apart hb hy b h1)
  · cases hb : s.bor y with
    | true => rfl
    | false => exact absurd h1 (I.owned_apart hb (Ne.symm hy) b h2)

theorem Inv.lt_of_shows {s : Mach V} (I : Inv s) {x : Nat} {l : List V} (sh : ShowsVar s x l) (hl : l ≠ []) : x < s.n := by
  by_contra h
  have h0 := (I.fresh x (by omega)).1
  have h1 : (s.st (x, false)).sz = l.length := sh.1
  rw [h0] at h1
  exact hl (List.length_eq_zero_iff.mp h1.symm)

/-- One write. -/
theorem Inv.write_ok {s : Mach V} (I : Inv s) {x : Nat} (hx : x < s.n) {l : List V} (sh : ShowsVar s x l) {j : Nat} (hj : j < l.length)
    (c : V) : ∃ s', Mach.setElem x j c s = (.ok (), s') ∧ Wrote s x s' ∧ ShowsVar s' x (l.set j c) := by
  have hlt : j < s.env.size x := by rw [sh.1]; exact hj
  obtain ⟨b, hp, _, hl, hlen, ha⟩ := I.access hlt
  have e := I.setElem c hlt hp
  have hs := exec_safe (zero := c) (c := .setElem x j c) I (show x < s.n from hx) s rfl
  have e' : Mach.exec c (.setElem x j c) s = _ := e
  rw [e'] at hs
  refine ⟨_, e, ⟨hs, rfl, rfl, rfl, fun d hd => Heap.setCells_ne _ _ (fun h => hd (by rw [hp, h])),
    by simp, fun c => by simp, fun d k hk => ?_⟩, ?_, fun i hi => ?_⟩
  · have hk : s.env.size x ≤ k := hk
    by_cases hd : d = b
    · subst hd; rw [Heap.setCells_cell, if_neg (by omega)]
    · rw [Heap.setCells_ne _ _ hd]
  · rw [List.length_set]; exact sh.1
  · rw [List.length_set] at hi
    have hi' : i < (s.st (x, false)).sz := by show i < s.env.size x; rw [sh.1]; exact hi
    show (s.st (x, false)).get _ i = _
    rw [List.getElem_set]
    by_cases h : j = i
    · subst h
      rw [if_pos rfl, get_eq_load ha hi', hp]
      exact Heap.load_some (by simpa using hl) (by simp; omega) (by simp)
    · rw [if_neg h, ← sh.2 i hi]
      show _ = (s.st (x, false)).get s.heap i
      unfold Store.get Heap.load Heap.cellAt
      rw [hp]
      simp [Ne.symm h]

theorem Inv.subSet_write {s : Mach V} (I : Inv s) {x : Nat} (hx : x < s.n) {l : List V} (sh : ShowsVar s x l) {ind : List Nat} {i : Nat}
    (hi : i < ind.length) (hle : i < l.length) (hj : ind[i] < l.length) (c : V) :
    ∃ s', Mach.subSet x ind i c s = (.ok (), s') ∧ Wrote s x s' ∧ ShowsVar s' x (l.set ind[i] c) := by
  obtain ⟨s', e, w, sh'⟩ := I.write_ok hx sh hj c
  refine ⟨s', ?_, w, sh'⟩
  unfold Mach.subSet
  rw [M.bind_ok (M.get_apply _)]
  have hz : (s.st (x, false)).sz = l.length := sh.1
  have e1 : modz i (s.st (x, false)).sz = .ok i := by
    unfold modz
    rw [if_neg (by omega), Nat.mod_eq_of_lt (by omega)]
  have e2 : getL ind i = .ok ind[i] := by simp [getL, hi]
  rw [e1, M.bind_ok (m := M.lift (.ok i)) (a := i) rfl, e2,
    M.bind_ok (m := M.lift (.ok ind[i])) (a := ind[i]) rfl]
  exact e

/-- The writing loop, as long as the indices are in range. -/
theorem Inv.writeLoop {s1 : Mach V} (I : Inv s1) {x : Nat} (hx : x < s1.n) {w L : List V} {ind : List Nat} {body : Nat → M (Mach V) Unit}
    (sh : ShowsVar s1 x w) (hlen : L.length = ind.length) (hle : ind.length ≤ w.length)
    (hbody : ∀ i (hi : i < L.length), ∀ s', Wrote s1 x s' → body i s' = Mach.subSet x ind i L[i] s')
    (k : Nat) (hk : k ≤ ind.length) (hj : ∀ i (hi : i < ind.length), i < k → ind[i] < w.length) :
    ∃ s', M.forN k body s1 = (.ok (), s') ∧ Wrote s1 x s' ∧ ShowsVar s' x (writes w (ind.take k) (L.take k)) := by
  induction k with
  | zero => exact ⟨s1, by rw [M.forN_zero]; rfl, Wrote.refl I x, by simpa [writes] using sh⟩
  | succ k ih =>
    obtain ⟨s2, e1, w1, sh1⟩ := ih (by omega) (fun i hi h => hj i hi (by omega))
    obtain ⟨s3, e2, w2, sh2⟩ := w1.inv.subSet_write (x := x) (by rw [w1.n]; exact hx) sh1 (ind := ind) (i := k) (by omega)
      (by rw [writes_length]; omega) (by rw [writes_length]; exact hj k (by omega) (by omega)) (L[k]'(by omega))
    refine ⟨s3, ?_, w1.trans w2, ?_⟩
    · rw [M.forN_succ, M.bind_ok e1, hbody k (by omega) s2 w1, e2]
    · rw [writes_snoc w (by omega) (by omega)]; exact sh2

/-- A number on the right-hand side. -/
theorem Inv.subAssignScalar_any {s : Mach V} (I : Inv s) {x : Nat} (hx : x < s.n)
    {w : List V} (sh : ShowsVar s x w) {ind : List Nat} (hle : ind.length ≤ w.length) (c : V)
    (hj : ∀ j ∈ ind, j < w.length) :
    ∃ s', Mach.subAssignScalar x ind c s = (.ok (), s') ∧ Wrote s x s' ∧
      ShowsVar s' x (writes w ind (List.replicate ind.length c)) := by
  obtain ⟨s', e, w', sh'⟩ := I.writeLoop hx (L := List.replicate ind.length c) (ind := ind) (body := fun i => Mach.subSet x ind i c)
    sh (by simp) hle (by simp) ind.length (le_refl _) (fun i hi _ => hj _ (List.getElem_mem hi))
  rw [List.take_length, List.take_of_length_le (by simp)] at sh'
  exact ⟨s', e, w', sh'⟩

theorem Inv.subAssignScalar_any_thr {s : Mach V} (I : Inv s) {x : Nat} (hx : x < s.n)
    {w : List V} (sh : ShowsVar s x w) {ind : List Nat} (hle : ind.length ≤ w.length) (c : V)
    {k : Nat} (hk : k < ind.length) (hj : ∀ i (hi : i < ind.length), i < k → ind[i] < w.length)
    (hbad : w.length ≤ ind[k]) :
    ∃ m s', Mach.subAssignScalar x ind c s = (.thr m, s') ∧ Wrote s x s' ∧
      ShowsVar s' x (writes w (ind.take k) (List.replicate k c)) := by
  obtain ⟨s2, e, w', sh'⟩ := I.writeLoop hx (L := List.replicate ind.length c) (ind := ind) (body := fun i => Mach.subSet x ind i c)
    sh (by simp) hle (by simp) k (by omega) hj
  have hrep : (List.replicate ind.length c).take k = List.replicate k c := by
    rw [List.take_replicate, min_eq_left (by omega)]
  rw [hrep] at sh'
  obtain ⟨m, e2⟩ := subSet_thr (s := s2) (x := x) sh' (ind := ind) hk
    (by rw [writes_length]; omega) (by rw [writes_length]; exact hbad) c
  exact ⟨m, s2, forN_thr e e2 _ hk, w', sh'⟩

/-- The evaluation of the right-hand side of a subset assignment and the first `k` writes. -/
theorem Inv.subWrites_any {zero : V} {s : Mach V} (I : Inv s) {x : Nat} (hlt : x < s.n)
    {w : List V} (sh : ShowsVar s x w) {ind : List Nat}
    (hle : ind.length ≤ w.length) {conv : V → Out V} {e : Expr V} {L : List V}
    (hlen : L.length = ind.length) (hsz : e.size s.env = L.length)
    (hel : ∀ i (hi : i < L.length), (e.el s.env i >>= conv) = .ok L[i])
    (hL : L ≠ []) (hlim : L.length ≤ 2 ^ 30) {k : Nat} (hk : k ≤ ind.length)
    (hj : ∀ i (hi : i < ind.length), i < k → ind[i] < w.length) :
    ∃ s1 s2, fillTemp zero conv s.n e s.bump = (.ok (), s1) ∧
      (s1.st (x, false)).sz = w.length ∧ (s1.st (s.n, true)).sz = L.length ∧
      M.forN k (fun i => do
        let v ← M.reads (fun s' => (s'.st (s.n, true)).get s'.heap i)
        Mach.subSet x ind (i % ind.length) v) s1 = (.ok (), s2) ∧
      Inv s2 ∧ s2.n = s.n + 1 ∧
      ShowsVar s2 x (writes w (ind.take k) (L.take k)) ∧ s2.env.mp x = s.env.mp x ∧
      (∀ i (hi : i < L.length), (s2.st (s.n, true)).get s2.heap i = .ok L[i]) ∧
      (∀ y, y < s.n → (∀ b, (s.st (y, false)).p = some b → (s.st (x, false)).p ≠ some b) → SameVar s s2 y) := by
  obtain ⟨f1, f2, f3⟩ := I.fresh s.n (le_refl _)
  obtain ⟨ha, t1, q1, st1, D1, sh1, a1, p1, c1⟩ := fillTemp_ok (zero := zero) (t := s.n) I.bump
    (by rw [show s.bump.st (s.n, true) = {} from f2]; simp) hsz hel hL hlim
  have henv : (s.bump.put (s.n, true) (ha, t1)).env = s.env := I.bump.env_put (r := (ha, t1)) st1
  have I1 : Inv (s.bump.put (s.n, true) (ha, t1)) := I.bump.step (Or.inl rfl)
    (by simp [Mach.bump]) (r := (ha, t1)) st1 (by simp) (fun _ => ⟨D1.wf.own, D1.cap⟩)
  set s1 := s.bump.put (s.n, true) (ha, t1) with hs1
  have hT : Shows s1.heap (s1.st (s.n, true)) L := by rw [hs1, put_same]; exact sh1
  have hsx : ShowsVar s1 x w := by
    have : SameVar s s1 x := ⟨by rw [henv], fun i => by rw [henv], by rw [henv]⟩
    exact this.shows sh
  have hTf : ∀ s', Wrote s1 x s' → ∀ i (hi : i < L.length), (s'.st (s.n, true)).get s'.heap i = .ok L[i] := fun s' w' i hi => by
    rw [w'.get (y := (s.n, true)) (fun b hb => I1.temp_apart x s.n b hb) i]
    exact hT.2 i hi
  obtain ⟨s2, e2, w2, sh2⟩ := I1.writeLoop (x := x) (w := w) (L := L) (ind := ind)
    (body := fun i => do
        let v ← M.reads (fun s' => (s'.st (s.n, true)).get s'.heap i)
        Mach.subSet x ind (i % ind.length) v)
    (by show x < s.n + 1; omega) hsx hlen hle (by
      intro i hi s' w'
      have : M.reads (fun s' : Mach V => (s'.st (s.n, true)).get s'.heap i) s' = (.ok L[i], s') := by
        rw [M.reads_apply, hTf s' w' i hi]
      rw [M.bind_ok this, Nat.mod_eq_of_lt (by omega)]) k hk hj
  refine ⟨s1, s2, q1, hsx.1, hT.1, e2, w2.inv, w2.n, sh2, ?_, fun i hi => hTf s2 w2 i hi, ?_⟩
  · show (s2.st (x, false)).mp = _
    rw [w2.st]
    show s1.env.mp x = _
    rw [henv]
  · intro y hy hne
    have hst : ∀ z : Nat, s1.st (z, false) = s.st (z, false) := fun z => put_ne _ _ (by simp)
    have a := w2.same (y := y) (by rw [hst y, hst x]; exact hne)
    exact ⟨a.1.trans (by rw [henv]), fun i => (a.2.1 i).trans (by rw [henv]), a.2.2.trans (by rw [henv])⟩

/-- A subset assignment all of whose indices are in range. -/
theorem Inv.subAssign_any {zero : V} {s : Mach V} (I : Inv s) {x : Nat} (hlt : x < s.n)
    {w : List V} (sh : ShowsVar s x w) {ind : List Nat}
    (hle : ind.length ≤ w.length) {conv : V → Out V} {same : Bool} {e : Expr V} {L : List V}
    (hlen : L.length = ind.length) (hsz : e.size s.env = L.length)
    (hel : ∀ i (hi : i < L.length), (e.el s.env i >>= conv) = .ok L[i])
    (hL : L ≠ []) (hlim : L.length ≤ 2 ^ 30) (hj : ∀ j ∈ ind, j < w.length) :
    ∃ s', Mach.subAssign zero conv same x ind e s = (.ok (), s') ∧ ShowsVar s' x (writes w ind L) ∧
      s'.env.mp x = s.env.mp x ∧
      (∀ y, y < s.n → ¬ Shares s x y → SameVar s s' y) := by
  obtain ⟨s1, s2, q1, z1, z2, q2, I2, n2, sh2, m2, -, o2⟩ := I.subWrites_any (zero := zero) hlt sh
    hle hlen hsz hel hL hlim (le_refl _) (fun i hi _ => hj _ (List.getElem_mem hi))
  obtain ⟨s3, q3, I3, n3, o3⟩ := I2.destroy_same (t := s.n) (by omega)
  rw [List.take_length, ← hlen, List.take_length] at sh2
  refine ⟨s3, ?_, (o3 x (by omega)).shows sh2, (o3 x (by omega)).2.2.trans m2, fun y hy hyx => ?_⟩
  · unfold Mach.subAssign
    rw [withTmp_ok (a := ()) (s' := s2), q3]
    unfold subAssignBody
    rw [M.bind_ok (M.get_apply _), M.bind_ok (M.ass_pos (by rw [← hlen]; exact hsz) _), M.bind_ok q1,
      M.bind_ok (M.get_apply _), if_neg (by rintro ⟨_, h⟩; omega)]
    exact q2
  · have a := o2 y hy (not_shares hyx)
    have c := o3 y (by omega)
    exact ⟨c.1.trans a.1, fun i => (c.2.1 i).trans (a.2.1 i), c.2.2.trans a.2.2⟩

/-- A subset assignment whose `k`-th index is the first one out of range: the writes before it have been done. -/
theorem Inv.subAssign_any_thr {zero : V} {s : Mach V} (I : Inv s) {x : Nat} (hlt : x < s.n)
    {w : List V} (sh : ShowsVar s x w) {ind : List Nat}
    (hle : ind.length ≤ w.length) {conv : V → Out V} {same : Bool} {e : Expr V} {L : List V}
    (hlen : L.length = ind.length) (hsz : e.size s.env = L.length)
    (hel : ∀ i (hi : i < L.length), (e.el s.env i >>= conv) = .ok L[i])
    (hL : L ≠ []) (hlim : L.length ≤ 2 ^ 30) {k : Nat} (hk : k < ind.length)
    (hj : ∀ i (hi : i < ind.length), i < k → ind[i] < w.length) (hbad : w.length ≤ ind[k]) :
    ∃ m s', Mach.subAssign zero conv same x ind e s = (.thr m, s') ∧
      ShowsVar s' x (writes w (ind.take k) (L.take k)) ∧
      s'.env.mp x = s.env.mp x ∧
      (∀ y, y < s.n → ¬ Shares s x y → SameVar s s' y) := by
  obtain ⟨s1, s2, q1, z1, z2, q2, I2, n2, sh2, m2, g2, o2⟩ := I.subWrites_any (zero := zero) hlt sh
    hle hlen hsz hel hL hlim (le_of_lt hk) hj
  obtain ⟨s3, q3, I3, n3, o3⟩ := I2.destroy_same (t := s.n) (by omega)
  obtain ⟨m, e2⟩ := subSet_thr (s := s2) (x := x) sh2 (ind := ind) hk
    (by rw [writes_length]; omega) (by rw [writes_length]; exact hbad) (L[k]'(by omega))
  refine ⟨m, s3, ?_, (o3 x (by omega)).shows sh2, (o3 x (by omega)).2.2.trans m2, fun y hy hyx => ?_⟩
  · unfold Mach.subAssign
    rw [withTmp_thr (e := m) (s' := s2), M.bind_ok q3]; · rfl
    unfold subAssignBody
    rw [M.bind_ok (M.get_apply _), M.bind_ok (M.ass_pos (by rw [← hlen]; exact hsz) _), M.bind_ok q1,
      M.bind_ok (M.get_apply _), if_neg (by rintro ⟨_, h⟩; omega)]
    refine forN_thr q2 ?_ _ hk
    have : M.reads (fun s' : Mach V => (s'.st (s.n, true)).get s'.heap k) s2 = (.ok L[k], s2) := by
      rw [M.reads_apply, g2 k (by omega)]
    rw [M.bind_ok this, Nat.mod_eq_of_lt hk]
    exact e2
  · have a := o2 y hy (not_shares hyx)
    have c := o3 y (by omega)
    exact ⟨c.1.trans a.1, fun i => (c.2.1 i).trans (a.2.1 i), c.2.2.trans a.2.2⟩

end Mach
end ETR
