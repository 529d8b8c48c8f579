import Verif.Props.Construct

/-! # Writes through subsets -/

namespace ETR
namespace Mach
open Store Spec

variable {V : Type}

/-- Writing the values `vs` to the positions `ind`, one after the other. -/
def writes (l : List V) (ind : List Nat) (vs : List V) : List V :=
  (ind.zip vs).foldl (fun l p => l.set p.1 p.2) l

theorem writes_length (l : List V) (ind : List Nat) (vs : List V) :
    (writes l ind vs).length = l.length := by
  unfold writes
  induction ind.zip vs generalizing l with
  | nil => rfl
  | cons p ps ih => rw [List.foldl_cons, ih]; simp

theorem writes_snoc (l : List V) {ind : List Nat} {vs : List V} {k : Nat} (h1 : k < ind.length)
    (h2 : k < vs.length) :
    writes l (ind.take (k + 1)) (vs.take (k + 1)) = (writes l (ind.take k) (vs.take k)).set ind[k] vs[k] := by
  unfold writes
  rw [List.take_succ_eq_append_getElem h1, List.take_succ_eq_append_getElem h2,
    List.zip_append (by simp; omega), List.foldl_append]
  simp

/-- What the writes do: a position that is not addressed keeps its value, an addressed position gets
the last value addressed to it. -/
theorem writes_get (l : List V) (ind : List Nat) (vs : List V) (hlen : vs.length = ind.length)
    (j : Nat) (hj : j < l.length) (hj' : j < (writes l ind vs).length) :
    ((∀ k (hk : k < ind.length), ind[k] ≠ j) → (writes l ind vs)[j] = l[j]) ∧
    (∀ k (hk : k < ind.length), ind[k] = j → (∀ m (hm : m < ind.length), k < m → ind[m] ≠ j) →
      (writes l ind vs)[j] = vs[k]) := by
  suffices H : ∀ n, n ≤ ind.length → ∀ hj' : j < (writes l (ind.take n) (vs.take n)).length,
      ((∀ k (hk : k < ind.length), k < n → ind[k] ≠ j) →
        (writes l (ind.take n) (vs.take n))[j] = l[j]) ∧
      (∀ k (hk : k < ind.length), k < n → ind[k] = j →
        (∀ m (hm : m < ind.length), k < m → m < n → ind[m] ≠ j) →
        (writes l (ind.take n) (vs.take n))[j] = vs[k]) by
    have h1 : ind.take ind.length = ind := List.take_length
    have h2 : vs.take ind.length = vs := by rw [← hlen]; exact List.take_length
    obtain ⟨a, b⟩ := H ind.length (le_refl _) (by rw [h1, h2]; exact hj')
    simp only [h1, h2] at a b
    exact ⟨fun h => a (fun k hk _ => h k hk), fun k hk e h => b k hk hk e (fun m hm h2 _ => h m hm h2)⟩
  intro n
  induction n with
  | zero => intro _ _; exact ⟨fun _ => by simp [writes], fun k _ h => absurd h (by omega)⟩
  | succ n ih =>
    intro hn hj'
    have e := writes_snoc l (ind := ind) (vs := vs) (k := n) (by omega) (by omega)
    have hw : j < (writes l (ind.take n) (vs.take n)).length := by rw [writes_length]; exact hj
    obtain ⟨a, b⟩ := ih (by omega) hw
    constructor
    · intro h
      simp only [e]
      rw [List.getElem_set_ne (h n (by omega) (by omega))]
      exact a (fun k hk hkn => h k hk (by omega))
    · intro k hk hkn hkj hlast
      simp only [e]
      by_cases hkn' : k = n
      · subst hkn'
        subst hkj
        exact List.getElem_set_self _
      · rw [List.getElem_set_ne (hlast n (by omega) (by omega) (by omega))]
        exact b k hk (by omega) hkj (fun m hm h1 h2 => hlast m hm h1 (by omega))

/-- One write through a subset. -/
theorem subSet_ok {s : Mach V} {x : Nat} (w : WF s.heap (s.st (x, false))) {l : List V}
    (sh : Shows s.heap (s.st (x, false)) l) {ind : List Nat} {i : Nat} (hi : i < ind.length)
    (hle : i < l.length) (hj : ind[i] < l.length) (c : V) :
    ∃ h', Mach.subSet x ind i c s = (.ok (), s.put (x, false) (h', s.st (x, false))) ∧
      WF h' (s.st (x, false)) ∧ Shows h' (s.st (x, false)) (l.set ind[i] c) ∧
      Step s.heap (s.st (x, false)) h' (s.st (x, false)) := by
  obtain ⟨h', e, w', sh', st⟩ := set_spec (v := c) w sh hj
  refine ⟨h', ?_, w', sh', st⟩
  unfold Mach.subSet
  rw [M.bind_ok (M.get_apply _)]
  have hz := sh.1
  have e1 : modz i (s.st (x, false)).sz = .ok i := by
    unfold modz
    rw [if_neg (by omega), Nat.mod_eq_of_lt (by omega)]
  have e2 : getL ind i = .ok ind[i] := by simp [getL, hi]
  rw [e1, M.bind_ok (m := M.lift (.ok i)) (a := i) rfl, e2,
    M.bind_ok (m := M.lift (.ok ind[i])) (a := ind[i]) rfl]
  exact onSlot_ok e

theorem subSet_thr {s : Mach V} {x : Nat} {l : List V}
    (sh : Shows s.heap (s.st (x, false)) l) {ind : List Nat} {i : Nat} (hi : i < ind.length)
    (hle : i < l.length) (hj : l.length ≤ ind[i]) (c : V) :
    ∃ m, Mach.subSet x ind i c s = (.thr m, s) := by
  have hz := sh.1
  obtain ⟨m, e⟩ := set_thr (h := s.heap) (s := s.st (x, false)) (i := ind[i]) (v := c) (by omega)
  refine ⟨m, ?_⟩
  unfold Mach.subSet
  rw [M.bind_ok (M.get_apply _)]
  have e1 : modz i (s.st (x, false)).sz = .ok i := by
    unfold modz
    rw [if_neg (by omega), Nat.mod_eq_of_lt (by omega)]
  have e2 : getL ind i = .ok ind[i] := by simp [getL, hi]
  rw [e1, M.bind_ok (m := M.lift (.ok i)) (a := i) rfl, e2,
    M.bind_ok (m := M.lift (.ok ind[i])) (a := ind[i]) rfl, onSlot_apply, e, put_self]

/-- The writing loop of a subset assignment, as long as the indices are in range. -/
theorem subLoop {s1 : Mach V} {x : Nat} {w L : List V} {ind : List Nat} {body : Nat → M (Mach V) Unit}
    (W : WF s1.heap (s1.st (x, false))) (sh : Shows s1.heap (s1.st (x, false)) w)
    (hlen : L.length = ind.length) (hle : ind.length ≤ w.length)
    (hbody : ∀ i (hi : i < L.length), ∀ h', Step s1.heap (s1.st (x, false)) h' (s1.st (x, false)) →
      body i (s1.put (x, false) (h', s1.st (x, false)))
        = Mach.subSet x ind i L[i] (s1.put (x, false) (h', s1.st (x, false))))
    (k : Nat) (hk : k ≤ ind.length) (hj : ∀ i (hi : i < ind.length), i < k → ind[i] < w.length) :
    ∃ h', M.forN k body s1 = (.ok (), s1.put (x, false) (h', s1.st (x, false))) ∧
      WF h' (s1.st (x, false)) ∧ Shows h' (s1.st (x, false)) (writes w (ind.take k) (L.take k)) ∧
      Step s1.heap (s1.st (x, false)) h' (s1.st (x, false)) := by
  induction k with
  | zero => exact ⟨s1.heap, by rw [M.forN_zero, M.pure_apply, put_self], W, by simpa [writes] using sh,
      Step.refl _ _⟩
  | succ k ih =>
    obtain ⟨h1, e1, w1, sh1, st1⟩ := ih (by omega) (fun i hi h => hj i hi (by omega))
    set s2 := s1.put (x, false) (h1, s1.st (x, false)) with hs2
    have hst : s2.st (x, false) = s1.st (x, false) := by rw [hs2, put_same]
    obtain ⟨h2, e2, w2, sh2, st2⟩ := subSet_ok (s := s2) (x := x) (by rw [hst]; exact w1)
      (by rw [hst]; exact sh1) (ind := ind) (i := k) (by omega) (by rw [writes_length]; omega)
      (by rw [writes_length]; exact hj k (by omega) (by omega)) (L[k]'(by omega))
    rw [hst] at e2 w2 sh2 st2
    have st2' : Step h1 (s1.st (x, false)) h2 (s1.st (x, false)) := st2
    refine ⟨h2, ?_, w2, ?_, st1.trans W.own st2'⟩
    · rw [M.forN_succ, M.bind_ok e1, hbody k (by omega) h1 st1, e2, hs2, put_put]
    · rw [writes_snoc w (by omega) (by omega)]; exact sh2

/-- The loop of a scalar subset assignment. -/
theorem Inv.subAssignScalar_ok {s : Mach V} (I : Inv s) {x : Nat} (hb : s.bor x = false)
    {w : List V} (sh : ShowsVar s x w) {ind : List Nat} (hle : ind.length ≤ w.length) (c : V)
    (hj : ∀ j ∈ ind, j < w.length) :
    ∃ s', Mach.subAssignScalar x ind c s = (.ok (), s') ∧
      ShowsVar s' x (writes w ind (List.replicate ind.length c)) ∧ s'.env.mp x = s.env.mp x ∧
      (∀ y, y ≠ x → SameVar s s' y) := by
  obtain ⟨h', e, w', sh', st⟩ := subLoop (s1 := s) (x := x) (w := w)
    (L := List.replicate ind.length c) (ind := ind) (body := fun i => Mach.subSet x ind i c)
    (I.d x hb).wf sh (by simp) hle (by simp) ind.length (le_refl _)
    (fun i hi _ => hj _ (List.getElem_mem hi))
  rw [List.take_length, List.take_of_length_le (by simp)] at sh'
  refine ⟨_, e, showsVar_put sh', ?_, fun y hy => I.same_put hb hy st⟩
  show ((s.put (x, false) _).st (x, false)).mp = _
  rw [put_same]; rfl

/-- A scalar subset assignment whose `k`-th index is the first one out of range: the writes before it
have been done. -/
theorem Inv.subAssignScalar_thr {s : Mach V} (I : Inv s) {x : Nat} (hb : s.bor x = false)
    {w : List V} (sh : ShowsVar s x w) {ind : List Nat} (hle : ind.length ≤ w.length) (c : V)
    {k : Nat} (hk : k < ind.length) (hj : ∀ i (hi : i < ind.length), i < k → ind[i] < w.length)
    (hbad : w.length ≤ ind[k]) :
    ∃ m s', Mach.subAssignScalar x ind c s = (.thr m, s') ∧
      ShowsVar s' x (writes w (ind.take k) (List.replicate k c)) ∧ s'.env.mp x = s.env.mp x ∧
      (∀ y, y ≠ x → SameVar s s' y) := by
  obtain ⟨h', e, w', sh', st⟩ := subLoop (s1 := s) (x := x) (w := w)
    (L := List.replicate ind.length c) (ind := ind) (body := fun i => Mach.subSet x ind i c)
    (I.d x hb).wf sh (by simp) hle (by simp) k (by omega) hj
  have hrep : (List.replicate ind.length c).take k = List.replicate k c := by
    rw [List.take_replicate, min_eq_left (by omega)]
  rw [hrep] at sh'
  set s2 := s.put (x, false) (h', s.st (x, false)) with hs2
  have hst : s2.st (x, false) = s.st (x, false) := by rw [hs2, put_same]
  obtain ⟨m, e2⟩ := subSet_thr (s := s2) (x := x) (by rw [hst]; exact sh') (ind := ind) hk
    (by rw [writes_length]; omega) (by rw [writes_length]; exact hbad) c
  refine ⟨m, s2, ?_, showsVar_put sh', ?_, fun y hy => I.same_put hb hy st⟩
  · unfold Mach.subAssignScalar
    have : ∀ n, k < n → M.forN n (fun i => Mach.subSet x ind i c) s = (.thr m, s2) := by
      intro n
      induction n with
      | zero => intro h; omega
      | succ n ih =>
        intro h
        rw [M.forN_succ]
        by_cases hkn : k = n
        · subst hkn; rw [M.bind_ok e]; exact e2
        · rw [M.bind_thr (ih (by omega))]
    exact this _ hk
  · show ((s.put (x, false) _).st (x, false)).mp = _
    rw [put_same]; rfl

/-- Destroying an object does not change what the other ones show. -/
theorem Inv.destroy_same {s : Mach V} (I : Inv s) {t : Nat} (ht : t < s.n) :
    ∃ s', Mach.destroy t s = (.ok (), s') ∧ Inv s' ∧ s'.n = s.n ∧ ∀ y, y ≠ t → SameVar s s' y := by
  obtain ⟨s', e, I', hn, hs1, hs2, hb, hnx, hf, hc⟩ := safe_destroy I ht
  refine ⟨s', e, I', hn, fun y hy => ?_⟩
  have e1 : s'.st (y, false) = s.st (y, false) := hs2 _ hy
  have hblk : ∀ b, (s.st (y, false)).p = some b → s'.heap.blk b = s.heap.blk b := by
    intro b hb'
    refine hf b (fun z hz ho hzb => ?_)
    cases hby : s.bor y with
    | false =>
      have := I.inj z (y, false) b ho (Or.inr hby) hzb hb'
      subst this
      exact hy hz
    | true =>
      obtain ⟨b', h1, h2, _, h4, _⟩ := (I.b y hby).ptr
      rw [hb'] at h1; simp only [Option.some.injEq] at h1; subst h1
      have := ((I.ownOf ho).ptr b hzb).2.2.1
      rw [h4] at this; exact absurd this (by decide)
  refine ⟨?_, fun i => ?_, ?_⟩
  · show (s'.st (y, false)).sz = _; rw [e1]; rfl
  · show (s'.st (y, false)).get s'.heap i = (s.st (y, false)).get s.heap i
    rw [e1]; exact get_frame hblk i
  · show (s'.st (y, false)).mp = _; rw [e1]; rfl

/-- The evaluation of the right-hand side of a subset assignment and the first `k` writes. -/
theorem Inv.subWrites {zero : V} {s : Mach V} (I : Inv s) {x : Nat} (hlt : x < s.n)
    (hb : s.bor x = false) {w : List V} (sh : ShowsVar s x w) {ind : List Nat}
    (hle : ind.length ≤ w.length) {conv : V → Out V} {e : Expr V} {L : List V}
    (hlen : L.length = ind.length) (hsz : e.size s.env = L.length)
    (hel : ∀ i (hi : i < L.length), (e.el s.env i >>= conv) = .ok L[i])
    (hL : L ≠ []) (hlim : L.length ≤ 2 ^ 30) {k : Nat} (hk : k ≤ ind.length)
    (hj : ∀ i (hi : i < ind.length), i < k → ind[i] < w.length) :
    ∃ s1 s2, fillTemp zero conv s.n e s.bump = (.ok (), s1) ∧
      (s1.st (x, false)).sz = w.length ∧ (s1.st (s.n, true)).sz = L.length ∧
      M.forN k (fun i => do
        let v ← M.reads (fun s' => (s'.st (s.n, true)).get s'.heap i)
        Mach.subSet x ind (i % ind.length) v) s1 = (.ok (), s2) ∧
      Inv s2 ∧ s2.n = s.n + 1 ∧ s2.bor = s.bor ∧
      ShowsVar s2 x (writes w (ind.take k) (L.take k)) ∧ s2.env.mp x = s.env.mp x ∧
      (∀ i (hi : i < L.length), (s2.st (s.n, true)).get s2.heap i = .ok L[i]) ∧
      (∀ y, y ≠ x → SameVar s s2 y) := by
  obtain ⟨f1, f2, f3⟩ := I.fresh s.n (le_refl _)
  obtain ⟨ha, t1, q1, st1, D1, sh1, a1, p1, c1⟩ := fillTemp_ok (zero := zero) (t := s.n) I.bump
    (by rw [show s.bump.st (s.n, true) = {} from f2]; simp) hsz hel hL hlim
  have henv : (s.bump.put (s.n, true) (ha, t1)).env = s.env := I.bump.env_put (r := (ha, t1)) st1
  have I1 : Inv (s.bump.put (s.n, true) (ha, t1)) := I.bump.step (Or.inl rfl)
    (by simp [Mach.bump]) (r := (ha, t1)) st1 (by simp) (fun _ => ⟨D1.wf.own, D1.cap⟩)
  set s1 := s.bump.put (s.n, true) (ha, t1) with hs1
  have hb1 : s1.bor x = false := hb
  have hT : Shows s1.heap (s1.st (s.n, true)) L := by rw [hs1, put_same]; exact sh1
  have hsx : ShowsVar s1 x w := by
    have : SameVar s s1 x := ⟨by rw [henv], fun i => by rw [henv], by rw [henv]⟩
    exact this.shows sh
  have hsx' : Shows s1.heap (s1.st (x, false)) w := hsx
  have hTf : ∀ h', Step s1.heap (s1.st (x, false)) h' (s1.st (x, false)) →
      Shows h' (s1.st (s.n, true)) L := fun h' st' =>
    shows_frame (I1.frame_step (y := (x, false)) (z := (s.n, true)) (Or.inr hb1) (Or.inl rfl) (by simp)
      (r := (h', s1.st (x, false))) st') hT
  obtain ⟨h2, e2, w2, sh2, st2⟩ := subLoop (s1 := s1) (x := x) (w := w) (L := L) (ind := ind)
    (body := fun i => do
        let v ← M.reads (fun s' => (s'.st (s.n, true)).get s'.heap i)
        Mach.subSet x ind (i % ind.length) v)
    (I1.d x hb1).wf hsx' hlen hle (by
      intro i hi h' st'
      have hT' := hTf h' st'
      have : M.reads (fun s' : Mach V => (s'.st (s.n, true)).get s'.heap i)
          (s1.put (x, false) (h', s1.st (x, false)))
          = (.ok L[i], s1.put (x, false) (h', s1.st (x, false))) := by
        have hne : (s1.put (x, false) (h', s1.st (x, false))).st (s.n, true) = s1.st (s.n, true) :=
          put_ne _ _ (by simp)
        rw [M.reads_apply, hne]
        show (Store.get h' (s1.st (s.n, true)) i, _) = _
        rw [hT'.2 i hi]
      rw [M.bind_ok this, Nat.mod_eq_of_lt (by omega)]) k hk hj
  have Dx := I1.d x hb1
  refine ⟨s1, _, q1, hsx.1, hT.1, e2, I1.step (y := (x, false)) (Or.inr hb1) (by
      show x < s.n + 1; omega) (r := (h2, s1.st (x, false))) st2 (fun _ => ⟨w2, Dx.al, Dx.sz, Dx.cap⟩)
      (by simp), rfl, rfl, showsVar_put sh2, ?_, ?_, ?_⟩
  · show ((s1.put (x, false) _).st (x, false)).mp = _
    rw [put_same]
    show s1.env.mp x = _
    rw [henv]
  · intro i hi
    have hne : (s1.put (x, false) (h2, s1.st (x, false))).st (s.n, true) = s1.st (s.n, true) :=
      put_ne _ _ (by simp)
    rw [hne]
    exact (hTf h2 st2).2 i hi
  · intro y hy
    have a := I1.same_put hb1 hy (r := (h2, s1.st (x, false))) st2
    exact ⟨a.1.trans (by rw [henv]), fun i => (a.2.1 i).trans (by rw [henv]), a.2.2.trans (by rw [henv])⟩

/-- A subset assignment all of whose indices are in range. -/
theorem Inv.subAssign_ok {zero : V} {s : Mach V} (I : Inv s) {x : Nat} (hlt : x < s.n)
    (hb : s.bor x = false) {w : List V} (sh : ShowsVar s x w) {ind : List Nat}
    (hle : ind.length ≤ w.length) {conv : V → Out V} {same : Bool} {e : Expr V} {L : List V}
    (hlen : L.length = ind.length) (hsz : e.size s.env = L.length)
    (hel : ∀ i (hi : i < L.length), (e.el s.env i >>= conv) = .ok L[i])
    (hL : L ≠ []) (hlim : L.length ≤ 2 ^ 30) (hj : ∀ j ∈ ind, j < w.length) :
    ∃ s', Mach.subAssign zero conv same x ind e s = (.ok (), s') ∧ ShowsVar s' x (writes w ind L) ∧
      s'.env.mp x = s.env.mp x ∧ (∀ y, y < s.n → y ≠ x → SameVar s s' y) := by
  obtain ⟨s1, s2, q1, z1, z2, q2, I2, n2, b2, sh2, m2, -, o2⟩ := I.subWrites (zero := zero) hlt hb sh
    hle hlen hsz hel hL hlim (le_refl _) (fun i hi _ => hj _ (List.getElem_mem hi))
  obtain ⟨s3, q3, I3, n3, o3⟩ := I2.destroy_same (t := s.n) (by omega)
  rw [List.take_length, ← hlen, List.take_length] at sh2
  refine ⟨s3, ?_, (o3 x (by omega)).shows sh2, (o3 x (by omega)).2.2.trans m2, fun y hy hyx => ?_⟩
  · unfold Mach.subAssign
    rw [withTmp_ok (a := ()) (s' := s2), q3]
    unfold subAssignBody
    rw [M.bind_ok (M.get_apply _), M.bind_ok (M.ass_pos (by rw [← hlen]; exact hsz) _), M.bind_ok q1,
      M.bind_ok (M.get_apply _), if_neg (by rintro ⟨_, h⟩; omega)]
    exact q2
  · have a := o2 y hyx
    have c := o3 y (by omega)
    exact ⟨c.1.trans a.1, fun i => (c.2.1 i).trans (a.2.1 i), c.2.2.trans a.2.2⟩

theorem forN_thr {σ : Type} {f : Nat → M σ Unit} {s s2 : σ} {m : String} {k : Nat}
    (e : M.forN k f s = (.ok (), s2)) (e2 : f k s2 = (.thr m, s2)) :
    ∀ n, k < n → M.forN n f s = (.thr m, s2) := by
  intro n
  induction n with
  | zero => intro h; omega
  | succ n ih =>
    intro h
    rw [M.forN_succ]
    by_cases hkn : k = n
    · subst hkn; rw [M.bind_ok e]; exact e2
    · rw [M.bind_thr (ih (by omega))]

/-- A subset assignment whose `k`-th index is the first one out of range: the writes before it have
been done. -/
theorem Inv.subAssign_thr {zero : V} {s : Mach V} (I : Inv s) {x : Nat} (hlt : x < s.n)
    (hb : s.bor x = false) {w : List V} (sh : ShowsVar s x w) {ind : List Nat}
    (hle : ind.length ≤ w.length) {conv : V → Out V} {same : Bool} {e : Expr V} {L : List V}
    (hlen : L.length = ind.length) (hsz : e.size s.env = L.length)
    (hel : ∀ i (hi : i < L.length), (e.el s.env i >>= conv) = .ok L[i])
    (hL : L ≠ []) (hlim : L.length ≤ 2 ^ 30) {k : Nat} (hk : k < ind.length)
    (hj : ∀ i (hi : i < ind.length), i < k → ind[i] < w.length) (hbad : w.length ≤ ind[k]) :
    ∃ m s', Mach.subAssign zero conv same x ind e s = (.thr m, s') ∧
      ShowsVar s' x (writes w (ind.take k) (L.take k)) ∧
      s'.env.mp x = s.env.mp x ∧ (∀ y, y < s.n → y ≠ x → SameVar s s' y) := by
  obtain ⟨s1, s2, q1, z1, z2, q2, I2, n2, b2, sh2, m2, g2, o2⟩ := I.subWrites (zero := zero) hlt hb sh
    hle hlen hsz hel hL hlim (le_of_lt hk) hj
  obtain ⟨s3, q3, I3, n3, o3⟩ := I2.destroy_same (t := s.n) (by omega)
  obtain ⟨m, e2⟩ := subSet_thr (s := s2) (x := x) sh2 (ind := ind) hk
    (by rw [writes_length]; omega) (by rw [writes_length]; exact hbad) (L[k]'(by omega))
  refine ⟨m, s3, ?_, (o3 x (by omega)).shows sh2, (o3 x (by omega)).2.2.trans m2, fun y hy hyx => ?_⟩
  · unfold Mach.subAssign
    rw [withTmp_thr (e := m) (s' := s2), M.bind_ok q3]; · rfl
    unfold subAssignBody
    rw [M.bind_ok (M.get_apply _), M.bind_ok (M.ass_pos (by rw [← hlen]; exact hsz) _), M.bind_ok q1,
      M.bind_ok (M.get_apply _), if_neg (by rintro ⟨_, h⟩; omega)]
    refine forN_thr q2 ?_ _ hk
    have : M.reads (fun s' : Mach V => (s'.st (s.n, true)).get s'.heap k) s2 = (.ok L[k], s2) := by
      rw [M.reads_apply, g2 k (by omega)]
    rw [M.bind_ok this, Nat.mod_eq_of_lt hk]
    exact e2
  · have a := o2 y hyx
    have c := o3 y (by omega)
    exact ⟨c.1.trans a.1, fun i => (c.2.1 i).trans (a.2.1 i), c.2.2.trans a.2.2⟩

/-- A subset assignment with a right-hand side of the wrong length. -/
theorem Inv.subAssign_len {zero : V} {s : Mach V} (I : Inv s) {x : Nat} {ind : List Nat}
    {conv : V → Out V} {same : Bool} {e : Expr V} (hsz : e.size s.env ≠ ind.length) :
    ∃ m s', Mach.subAssign zero conv same x ind e s = (.thr m, s') ∧
      (∀ y, y < s.n → SameVar s s' y) := by
  obtain ⟨s3, q3, I3, n3, o3⟩ := I.bump.destroy_same (t := s.n) (by simp [Mach.bump])
  refine ⟨"number of items to replace is not a multiple of replacement length", s3, ?_,
    fun y hy => o3 y (by omega)⟩
  unfold Mach.subAssign
  rw [withTmp_thr (s' := s.bump), M.bind_ok q3]; · rfl
  unfold subAssignBody
  rw [M.bind_ok (M.get_apply _), M.bind_thr (M.ass_neg (show ¬ Expr.size s.bump.env e = ind.length from hsz) _)]

end Mach
end ETR
