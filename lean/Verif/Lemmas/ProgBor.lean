import Verif.Lemmas.MachWrite

/-! # Commands on variables that borrow follow naive semantics -/

namespace ETR
namespace Mach
variable {V : Type}
open Store Spec

/-- A change of the array and of the size of one borrowing variable. -/
theorem Rep.wrote {s s' : Mach V} {p : PState V} (R : Rep s p) {x : Nat} {β : Bor} {a vis : List V}
    (hβ : p.bors x = some β) (ha : p.arrays β.arr = some a) (hv : vis.length ≤ β.cap)
    (I' : Inv s') (hn : s'.n = s.n) (hbor : s'.bor = s.bor) (hx : s.heap.next ≤ s'.heap.next)
    (hst : ∀ y, y.1 ≠ x → s'.st y = s.st y) (h1 : (s'.st (x, false)).p = some β.arr)
    (h2 : (s'.st (x, false)).sz = vis.length) (h3 : (s'.st (x, false)).capacity = β.cap)
    (h4 : (s'.st (x, true)).allocated = true → (s'.st (x, true)).p ≠ none)
    (hblk : s'.heap.blk β.arr = callerBlk (vis ++ a.drop vis.length))
    (hfr : ∀ c, c < s.heap.next → c ≠ β.arr → (s.st (x, true)).p ≠ some c → s'.heap.blk c = s.heap.blk c) :
    Rep s' (p.write x β a vis) := by
  obtain ⟨L, hb, hlt⟩ := R.liveB hβ ha
  have hlen : (vis ++ a.drop vis.length).length = a.length := by
    have := L.len
    rw [List.length_append, List.length_drop]; omega
  refine ⟨I', by rw [hn]; exact R.n, fun y w hw => ?_, fun c l hl => ?_, fun y γ hγ => ?_⟩
  · have Lw := R.vars y w hw
    have hyx : y ≠ x := by rintro rfl; have := Lw.bor; rw [L.bor] at this; simp at this
    have e1 : s'.st (y, false) = s.st (y, false) := hst _ hyx
    have e2 : s'.st (y, true) = s.st (y, true) := hst _ hyx
    refine ⟨by rw [hn]; exact Lw.lt, by rw [hbor]; exact Lw.bor, ?_, ?_⟩
    · rw [e1]
      refine shows_frame (fun c hc => ?_) Lw.shows
      obtain ⟨k1, _, k3, _⟩ := (R.inv.d y Lw.bor).wf.ptr c hc
      refine hfr c k1 ?_ ?_
      · rintro rfl; rw [hb] at k3; simp [callerBlk] at k3
      · intro h
        have := R.inv.inj (x, true) (y, false) c (Or.inl rfl) (Or.inr Lw.bor) h hc
        simp at this
    · rw [e1, e2]; exact Lw.kind
  · simp only [PState.write] at hl
    by_cases hc : c = β.arr
    · subst hc
      simp only [if_true, Option.some.injEq] at hl
      subst hl
      exact ⟨by omega, hblk⟩
    · rw [if_neg hc] at hl
      obtain ⟨k1, k2⟩ := R.b.arrays c l hl
      refine ⟨by omega, ?_⟩
      rw [hfr c k1 hc, k2]
      intro h
      have := ((R.inv.t x).own.ptr c h).2.2.1
      rw [k2] at this; simp [callerBlk] at this
  · simp only [PState.write] at hγ ⊢
    by_cases hyx : y = x
    · subst hyx
      simp only [if_true, Option.some.injEq] at hγ
      subst hγ
      exact ⟨vis ++ a.drop vis.length, by simp, by rw [hn]; exact L.lt, by rw [hbor]; exact L.bor, h1, h2, h3, hv, by rw [hlen]; exact L.len, h4⟩
    · rw [if_neg hyx] at hγ
      obtain ⟨l, hl, Ly⟩ := R.b.bors y γ hγ
      have K : LiveB s' y γ l := Ly.keep (by rw [hn]) (hst _ hyx) (hst _ hyx) (by rw [hbor])
      by_cases hc : γ.arr = β.arr
      · refine ⟨_, if_pos hc, K.lt, K.bor, K.ptr, K.sz, K.cap, K.le, ?_, K.temp⟩
        rw [hc, ha] at hl
        simp only [Option.some.injEq] at hl
        rw [hlen, hl]; exact K.len
      · exact ⟨l, by rw [if_neg hc]; exact hl, K⟩

theorem callerBlk_cells {l : List V} {B : Block V} (h1 : B.len = l.length) (h2 : B.live = true) (h3 : B.newed = false)
    (h4 : ∀ j, B.cell j = l[j]?) : B = callerBlk l := by
  cases B with
  | mk n f a b =>
    simp only at h1 h2 h3 h4
    subst h1 h2 h3
    simp only [callerBlk, Block.mk.injEq, true_and, and_true]
    funext j; exact h4 j

/-- Writes to the visible elements. -/
theorem Rep.wroteW {s s' : Mach V} {p : PState V} (R : Rep s p) {x : Nat} {β : Bor} {a vis : List V}
    (hβ : p.bors x = some β) (ha : p.arrays β.arr = some a) (hv : vis.length = β.size) (w : Wrote s x s')
    (sh : ShowsVar s' x vis) : Rep s' (p.write x β a vis) := by
  obtain ⟨L, hb, hlt⟩ := R.liveB hβ ha
  have h1 := L.le
  have h2 := L.len
  obtain ⟨k1, k2, k3⟩ := w.shape β.arr
  have hal := (w.inv.b x (by rw [w.bor]; exact L.bor)).al
  refine R.wrote hβ ha (by omega) w.inv w.n w.bor (by rw [w.next]) (fun y _ => by rw [w.st]) (by rw [w.st]; exact L.ptr)
    (by rw [w.st, L.sz, hv]) (by rw [w.st]; exact L.cap) (by rw [w.st]; exact L.temp) ?_ ?_
  · refine callerBlk_cells ?_ ?_ ?_ ?_
    · rw [k1, hb, List.length_append, List.length_drop]; simp only [callerBlk]; omega
    · rw [k2, hb]; rfl
    · rw [k3, hb]; rfl
    · intro j
      by_cases hj : j < vis.length
      · rw [List.getElem?_append_left hj, List.getElem?_eq_getElem hj]
        have e : (s'.st (x, false)).get s'.heap j = .ok vis[j] := sh.2 j hj
        rw [get_eq_load hal (by rw [w.st, L.sz]; omega), show (s'.st (x, false)).p = some β.arr by rw [w.st]; exact L.ptr] at e
        unfold Heap.load at e
        rw [Heap.cellAt_some (by rw [k2, hb]; rfl) (by rw [k1, hb]; simp only [callerBlk]; omega)] at e
        cases hc : (s'.heap.blk β.arr).cell j with
        | none => rw [hc] at e; simp at e
        | some v => rw [hc] at e; simp at e; rw [e]
      · rw [List.getElem?_append_right (by omega), w.rest β.arr j (by rw [L.sz]; omega), hb, List.getElem?_drop]
        simp only [callerBlk]
        congr 1; omega
  · intro c _ hc _
    exact w.frame c (by rw [L.ptr]; simp; exact fun h => hc h.symm)

/-- A change of the cells of the array and of the size. -/
theorem Rep.putB {s : Mach V} {p : PState V} (R : Rep s p) {x : Nat} {β : Bor} {a vis : List V}
    (hβ : p.bors x = some β) (ha : p.arrays β.arr = some a) (hv : vis.length ≤ β.cap) {d : Store} {f : Nat → Option V}
    (h1 : d.p = some β.arr) (h2 : d.sz = vis.length) (h3 : d.capacity = β.cap) (h4 : d.allocated = true)
    (hf : ∀ j, f j = (vis ++ a.drop vis.length)[j]?) :
    Rep (s.put (x, false) (s.heap.setCells β.arr f, d)) (p.write x β a vis) := by
  obtain ⟨L, hb, hlt⟩ := R.liveB hβ ha
  have B := R.inv.b x L.bor
  have K := BKeeps.setCells B L.ptr f
  have hc := B.cap
  rw [L.cap] at hc
  refine R.wrote hβ ha hv ?_ rfl rfl (by simp) (fun y hy => put_ne _ _ (by rintro rfl; exact hy rfl)) (by rw [put_same]; exact h1)
    (by rw [put_same]; exact h2) (by rw [put_same]; exact h3) (by rw [put_ne _ _ (by simp)]; exact L.temp) ?_ ?_
  · refine R.inv.stepB (r := (_, d)) L.bor K.next K.sched K.frame K.shape ⟨⟨β.arr, h1, by simpa using hlt, ?_, ?_, ?_⟩, ?_, ?_, h4⟩
    · rw [(K.shape β.arr).1, hb]; rfl
    · rw [(K.shape β.arr).2.1, hb]; rfl
    · rw [(K.shape β.arr).2.2, hb]; simp only [h3]; exact L.len
    · simp only [h2, h3]; exact hv
    · simp only [h3]; exact hc
  · rw [put_heap]
    refine callerBlk_cells ?_ ?_ ?_ ?_
    · rw [(K.shape β.arr).2.2, hb, List.length_append, List.length_drop]
      have := L.len
      simp only [callerBlk]; omega
    · rw [(K.shape β.arr).1, hb]; rfl
    · rw [(K.shape β.arr).2.1, hb]; rfl
    · intro j; rw [Heap.setCells_cell]; exact hf j
  · intro c _ hc _
    exact Heap.setCells_ne _ _ hc

theorem Rep.showsB {s : Mach V} {p : PState V} (R : Rep s p) {x : Nat} {β : Bor} {a : List V}
    (hβ : p.bors x = some β) (ha : p.arrays β.arr = some a) : ShowsVar s x (a.take β.size) :=
  (R.liveB hβ ha).1.shows R.inv (R.liveB hβ ha).2.1

theorem Rep.takeB {s : Mach V} {p : PState V} (R : Rep s p) {x : Nat} {β : Bor} {a : List V}
    (hβ : p.bors x = some β) (ha : p.arrays β.arr = some a) : (a.take β.size).length = β.size := by
  have L := (R.liveB hβ ha).1
  have h1 := L.le
  have h2 := L.len
  rw [List.length_take]; omega

/-! ### The commands -/

theorem Rep.setElemB {zero : V} {s : Mach V} {p : PState V} (R : Rep s p) {x : Nat} {β : Bor} {a : List V}
    (hβ : p.bors x = some β) (ha : p.arrays β.arr = some a) {i : Nat} (hi : i < β.size) (v : V) :
    ∃ s', exec zero (.setElem x i v) s = (.ok (), s') ∧ Rep s' (p.write x β a ((a.take β.size).set i v)) := by
  obtain ⟨s', e, w, sh⟩ := R.inv.write_ok (R.liveB hβ ha).1.lt (R.showsB hβ ha) (j := i) (by rw [R.takeB hβ ha]; exact hi) v
  exact ⟨s', e, R.wroteW hβ ha (by rw [List.length_set, R.takeB hβ ha]) w sh⟩

theorem writeAll_writes {ind : List Nat} : ∀ {l vs r : List V}, writeAll l ind vs = some r → vs.length = ind.length →
    r = writes l ind vs ∧ ∀ j ∈ ind, j < l.length := by
  induction ind with
  | nil => intro l vs r h _; simp only [writeAll, Option.some.injEq] at h; subst h; exact ⟨by simp [writes], by simp⟩
  | cons j js ih =>
    intro l vs r h hlen
    cases vs with
    | nil => simp at hlen
    | cons v vs =>
      rw [writeAll] at h
      split at h
      · rename_i hj
        obtain ⟨h1, h2⟩ := ih h (by simpa using hlen)
        refine ⟨by rw [h1]; simp [writes], ?_⟩
        intro k hk
        rcases List.mem_cons.mp hk with rfl | hk
        · exact hj
        · simpa using h2 k hk
      · simp at h

theorem Rep.subAssignScalarB {zero : V} {s : Mach V} {p : PState V} (R : Rep s p) {x : Nat} {β : Bor} {a r : List V}
    (hβ : p.bors x = some β) (ha : p.arrays β.arr = some a) {ind : List Nat} {v : V} (hle : ind.length ≤ β.size)
    (hr : writeAll (a.take β.size) ind (List.replicate ind.length v) = some r) :
    ∃ s', exec zero (.subAssignScalar x ind v) s = (.ok (), s') ∧ Rep s' (p.write x β a r) := by
  have hlen := writeAll_length hr
  obtain ⟨rfl, hj⟩ := writeAll_writes hr (by simp)
  obtain ⟨s', e, w, sh⟩ := R.inv.subAssignScalar_any (R.liveB hβ ha).1.lt (R.showsB hβ ha) (ind := ind)
    (by rw [R.takeB hβ ha]; exact hle) v hj
  exact ⟨s', e, R.wroteW hβ ha (by rw [hlen, R.takeB hβ ha]) w sh⟩

theorem Rep.bumpTemp {s : Mach V} {p : PState V} (R : Rep s p) : Rep s.bump { p with next := p.next + 1 } := by
  refine ⟨R.inv.bump, by simp [Mach.bump, R.n], ?_, R.b.bump⟩
  intro y w hw
  have L := R.vars y w hw
  exact ⟨by have := L.lt; simp only [Mach.bump]; omega, L.bor, L.shows, L.kind⟩

theorem Rep.subAssignB {zero : V} {s : Mach V} {p : PState V} (R : Rep s p) {x : Nat} {β : Bor} {a r : List V}
    (hβ : p.bors x = some β) (ha : p.arrays β.arr = some a) {ind : List Nat} (hle : ind.length ≤ β.size) {e : Expr V}
    {conv : V → Out V} {same : Bool} {l L : List V} (h1 : eval p.lists e = some l)
    (h2 : l.mapM (fun v => val (conv v)) = some L) (hL : L ≠ []) (hlim : L.length ≤ 2 ^ 30)
    (hlen : L.length = ind.length) (hr : writeAll (a.take β.size) ind L = some r) :
    ∃ s', exec zero (.subAssign conv same x ind e) s = (.ok (), s') ∧
      Rep s' { p.write x β a r with next := p.next + 1 } := by
  obtain ⟨f1, f2, f3⟩ := R.inv.fresh s.n (le_refl _)
  have hxn : x < s.n := (R.liveB hβ ha).1.lt
  set p0 : PState V := { p with next := p.next + 1 } with hp0
  have R0 : Rep s.bump p0 := R.bumpTemp
  obtain ⟨hsz, hel⟩ := conv_el (env := s.bump.env) R.agrees h1 h2
  obtain ⟨hh, t1, q1, st1, D1, sh1, a1, p1, c1⟩ := fillTemp_ok (zero := zero) (t := s.n) R0.inv
    (by rw [show s.bump.st (s.n, true) = {} from f2]; simp) hsz hel hL hlim
  have hnone : p.vars s.n = none := R.next_none (by rw [R.n])
  have R1 := R0.put_t (x := s.n) (r := (hh, t1)) (by simp [Mach.bump]) f3 st1 ⟨D1.wf.own, D1.cap⟩ (by
    intro w hw
    simp only [hp0] at hw
    rw [hnone] at hw; simp at hw)
  set s1 := s.bump.put (s.n, true) (hh, t1) with hs1
  have hrl := writeAll_length hr
  obtain ⟨rfl, hj⟩ := writeAll_writes hr hlen
  have hsx : ShowsVar s1 x (a.take β.size) := R1.showsB hβ ha
  have hT : Shows s1.heap (s1.st (s.n, true)) L := by rw [hs1, put_same]; exact sh1
  obtain ⟨s2, e2, w2, sh2⟩ := R1.inv.writeLoop (x := x) (w := a.take β.size) (L := L) (ind := ind)
    (body := fun i => do
        let v ← M.reads (fun s' => (s'.st (s.n, true)).get s'.heap i)
        Mach.subSet x ind (i % ind.length) v)
    (by show x < s.n + 1; omega) hsx hlen (by rw [R.takeB hβ ha]; exact hle) (by
      intro i hi s' w'
      have : M.reads (fun s' : Mach V => (s'.st (s.n, true)).get s'.heap i) s' = (.ok L[i], s') := by
        rw [M.reads_apply, w'.get (y := (s.n, true)) (fun b hb => R1.inv.temp_apart x s.n b hb) i, hT.2 i hi]
      rw [M.bind_ok this, Nat.mod_eq_of_lt (by omega)]) ind.length (le_refl _)
    (fun i hi _ => hj _ (List.getElem_mem hi))
  rw [List.take_length, ← hlen, List.take_length] at sh2
  have R2 := R1.wroteW hβ ha (by rw [hrl, R.takeB hβ ha]) w2 sh2
  obtain ⟨s3, q3, R3⟩ := R2.destroy (x := s.n) (by rw [w2.n]; simp [hs1, Mach.bump]) (by rw [w2.bor]; exact f3)
  refine ⟨s3, ?_, ?_⟩
  · show Mach.subAssign zero conv same x ind e s = _
    unfold Mach.subAssign
    rw [withTmp_ok (a := ()) (s' := s2), q3]
    unfold subAssignBody
    rw [M.bind_ok (M.get_apply _), M.bind_ok (M.ass_pos (by rw [hsz, hlen]) _), M.bind_ok q1,
      M.bind_ok (M.get_apply _), if_neg]
    · exact e2
    · rintro ⟨_, hlt⟩
      have h3 := hsx.1
      have h4 := hT.1
      rw [R.takeB hβ ha] at h3
      have h3 : (s1.st (x, false)).sz = β.size := h3
      omega
  · have : (p0.write x β a (writes (a.take β.size) ind L)).put s.n none
        = { p.write x β a (writes (a.take β.size) ind L) with next := p.next + 1 } := by
      unfold PState.put PState.write
      simp only [hp0, PState.mk.injEq, true_and, and_true]
      funext y
      by_cases hy : y = s.n
      · subst hy; simp [hnone]
      · simp [hy]
    rw [this] at R3
    exact R3

theorem Rep.assignB {zero : V} {s : Mach V} {p : PState V} (R : Rep s p) {x : Nat} {β : Bor} {a : List V}
    (hβ : p.bors x = some β) (ha : p.arrays β.arr = some a) {conv : V → Out V} {e : Expr V} {l L : List V}
    (h1 : eval p.lists e = some l) (h2 : l.mapM (fun v => val (conv v)) = some L) (hL : L ≠ []) (hlim : L.length ≤ 2 ^ 30)
    (hs : β.size ≤ L.length) (hc : L.length ≤ β.cap) :
    ∃ s', exec zero (.assign conv x e) s = (.ok (), s') ∧ Rep s' (p.write x β a L) := by
  obtain ⟨K, hb, hlt⟩ := R.liveB hβ ha
  obtain ⟨hsz, hel⟩ := conv_el R.agrees h1 h2
  obtain ⟨s', e1, sh, hcell, hfr, _, hl, hp, I', hn, hbor, hnx, hst, hz, hcap, hle, hnw, ht⟩ :=
    R.inv.assignB (zero := zero) K.lt K.bor K.ptr K.temp hsz hel hL hlim (by rw [K.sz]; exact hs) (by rw [K.cap]; exact hc)
  refine ⟨s', e1, R.wrote hβ ha hc I' hn hbor hnx hst hp hz (by rw [hcap]; exact K.cap) (fun _ => ht) ?_ hfr⟩
  refine callerBlk_cells ?_ hl ?_ ?_
  · rw [hle, hb, List.length_append, List.length_drop]
    have := K.len
    simp only [callerBlk]; omega
  · rw [hnw, hb]; rfl
  · intro j
    rw [hcell j]
    by_cases hj : j < L.length
    · rw [dif_pos hj, List.getElem?_append_left hj, List.getElem?_eq_getElem hj]
    · rw [dif_neg hj, List.getElem?_append_right (by omega), hb, List.getElem?_drop]
      simp only [callerBlk]
      congr 1; omega

theorem put_heap_self {s : Mach V} {z : Slot} {d : Store} {b : Nat} :
    s.put z (s.heap, d) = s.put z (s.heap.setCells b (s.heap.blk b).cell, d) := by
  have : s.heap.setCells b (s.heap.blk b).cell = s.heap := by
    unfold Heap.setCells Heap.setBlk
    cases hh : s.heap with
    | mk blk n sc =>
      simp only [Heap.mk.injEq, and_true]
      funext c
      split
      · subst c; rfl
      · rfl
  rw [this]

theorem Rep.assignScalarB {zero : V} {s : Mach V} {p : PState V} (R : Rep s p) {x : Nat} {β : Bor} {a : List V}
    (hβ : p.bors x = some β) (ha : p.arrays β.arr = some a) (v : V) :
    ∃ s', exec zero (.assignScalar x v) s = (.ok (), s') ∧ Rep s' (p.write x β a [v]) := by
  obtain ⟨K, hb, hlt⟩ := R.liveB hβ ha
  have B := R.inv.b x K.bor
  have hcap := B.cap
  rw [K.cap] at hcap
  have hlen := K.len
  set d : Store := { s.st (x, false) with sz := 1 } with hd
  have B1 : BInv s.heap d := B.setSz (by rw [K.cap]; exact hcap)
  have e := setB_ok (v := v) B1 K.ptr (j := 0) (by simp [hd])
  refine ⟨_, ?_, R.putB (vis := [v]) (d := d) (f := fun i => if i = 0 then some v else (s.heap.blk β.arr).cell i) hβ ha
    (by simpa using hcap) K.ptr (by simp [hd]) K.cap B.al ?_⟩
  · show Mach.assignScalar zero x v s = _
    unfold Mach.assignScalar
    rw [M.bind_ok (M.get_apply _), if_pos K.bor]
    have b1 : onSlot (x, false) (Store.upd (fun d => { d with sz := 1 })) s = (.ok (), s.put (x, false) (s.heap, d)) :=
      onSlot_ok rfl
    rw [M.bind_ok b1]
    show onSlot (x, false) (Store.set 0 v) _ = _
    rw [onSlot_ok (r := (s.heap.setCells β.arr (fun i => if i = 0 then some v else (s.heap.blk β.arr).cell i), d)) (a := ()),
      put_put]
    rw [put_heap, put_same]
    exact e
  · intro j
    cases j with
    | zero => simp
    | succ j =>
      rw [if_neg (by omega), hb]
      simp only [callerBlk, List.length_singleton, List.singleton_append, List.getElem?_cons_succ, List.getElem?_drop]
      congr 1; omega

theorem Rep.resizeB {zero : V} {s : Mach V} {p : PState V} (R : Rep s p) {x : Nat} {β : Bor} {a : List V}
    (hβ : p.bors x = some β) (ha : p.arrays β.arr = some a) {n : Nat} (h1 : 1 ≤ n) (h2 : n ≤ β.cap) :
    ∃ s', exec zero (.resize x n) s = (.ok (), s') ∧ Rep s' (p.write x β a (a.take n)) := by
  obtain ⟨K, hb, hlt⟩ := R.liveB hβ ha
  have hlen := K.len
  have hl : (a.take n).length = n := by rw [List.length_take]; omega
  refine ⟨s.put (x, false) (s.heap, { s.st (x, false) with sz := n }), ?_, ?_⟩
  · show Mach.resize zero x n s = _
    unfold Mach.resize
    rw [M.bind_ok (M.get_apply _), if_pos K.bor]
    refine onSlot_ok ?_
    unfold borrowResize
    rw [M.bind_ok (M.ass_pos h1 _), M.bind_ok (self_apply _), if_pos (by simp only [K.cap]; exact h2)]
    rfl
  · rw [put_heap_self (b := β.arr)]
    refine R.putB hβ ha (by omega) K.ptr (by rw [hl]) K.cap (R.inv.b x K.bor).al ?_
    intro j
    rw [hb, hl, List.take_append_drop]; rfl

theorem Rep.fillB {zero : V} {s : Mach V} {p : PState V} (R : Rep s p) {x : Nat} {β : Bor} {a : List V}
    (hβ : p.bors x = some β) (ha : p.arrays β.arr = some a) (v : V) :
    ∃ s', exec zero (.fill x v) s = (.ok (), s') ∧ Rep s' (p.write x β a (List.replicate β.size v)) := by
  obtain ⟨K, hb, hlt⟩ := R.liveB hβ ha
  have h1 := K.le
  have h2 := K.len
  refine ⟨_, onSlot_ok (fillScalar_ok (v := v) K.ptr (by rw [hb]; rfl) (by rw [hb, K.sz]; simp only [callerBlk]; omega)), ?_⟩
  refine R.putB hβ ha (by simp; omega) K.ptr (by simp [K.sz]) K.cap (R.inv.b x K.bor).al ?_
  intro j
  rw [K.sz]
  by_cases hj : j < β.size
  · rw [if_pos hj, List.getElem?_append_left (by simpa using hj)]; simp [hj]
  · rw [if_neg hj, List.getElem?_append_right (by simp; omega), hb, List.getElem?_drop]
    simp only [callerBlk, List.length_replicate]
    congr 1; omega

/-- The memory of a variable that shows something. -/
theorem Rep.memory {s : Mach V} {p : PState V} (R : Rep s p) {y : Nat} {u : List V} (hu : p.lists y = some u) (hne : u ≠ []) :
    ∃ b, (s.st (y, false)).p = some b ∧ (s.heap.blk b).live = true ∧ u.length ≤ (s.heap.blk b).len ∧
      ∀ i (hi : i < u.length), (s.heap.blk b).cell i = some u[i] := by
  rcases PState.lists_eq hu with ⟨v, hv, rfl⟩ | ⟨β, a, _, hβ, ha, rfl⟩
  · have L := R.vars y v hv
    have D := R.inv.d y L.bor
    have hp : (s.st (y, false)).p ≠ none := by
      intro hp
      have := (D.wf.null hp).1
      have h3 := L.shows.1
      exact hne (List.length_eq_zero_iff.mp (by omega))
    obtain ⟨b, hb⟩ := Option.ne_none_iff_exists'.mp hp
    obtain ⟨_, k2, _, k4, _⟩ := D.wf.ptr b hb
    exact ⟨b, hb, k2, by rw [← L.shows.1]; exact k4, fun i hi => cell_of_shows L.shows D.wf hb hi⟩
  · obtain ⟨L, hb, _⟩ := R.liveB hβ ha
    have h1 := L.le
    have h2 := L.len
    refine ⟨β.arr, L.ptr, by rw [hb]; rfl, by rw [hb, R.takeB hβ ha]; simp only [callerBlk]; omega, fun i hi => ?_⟩
    rw [R.takeB hβ ha] at hi
    rw [hb, List.getElem_take]
    exact List.getElem?_eq_getElem _

theorem copyRange_self {h : Heap V} {b n : Nat} (h1 : (h.blk b).live = true) (h2 : n ≤ (h.blk b).len) :
    Heap.copyRange (some b) n (some b) h = (.ok (), h) := by
  unfold Heap.copyRange
  induction n with
  | zero => rfl
  | succ n ih =>
    rw [M.forN_succ, M.bind_ok (ih (by omega))]
    have : M.reads (fun h => h.cellAt (some b) n) h = (.ok ((h.blk b).cell n), h) := by
      rw [M.reads_apply, Heap.cellAt_some h1 (by omega)]
    rw [M.bind_ok this, Heap.putCell_some h1 (by omega)]
    have e : (fun j => if j = n then (h.blk b).cell n else (h.blk b).cell j) = (h.blk b).cell := by
      funext j; split
      · subst j; rfl
      · rfl
    rw [e]
    unfold Heap.setCells Heap.setBlk
    simp only [Prod.mk.injEq, true_and]
    cases h with
    | mk blk nx sc =>
      simp only [Heap.mk.injEq, and_true]
      funext c
      split
      · subst c; rfl
      · rfl

/-- `fill` from a vector, into a vector that borrows. -/
theorem Rep.fillVecB {zero : V} {s : Mach V} {p : PState V} (R : Rep s p) {x y : Nat} {β : Bor} {a u : List V}
    (hβ : p.bors x = some β) (ha : p.arrays β.arr = some a) (hu : p.lists y = some u) (hlen : u.length = β.size) :
    ∃ s', exec zero (.fillVec x y) s = (.ok (), s') ∧ Rep s' (p.write x β a u) := by
  obtain ⟨K, hb, hlt⟩ := R.liveB hβ ha
  have h1 := K.le
  have h2 := K.len
  have hz : (s.st (y, false)).sz = u.length := (R.agrees y u hu).1
  have e0 : exec zero (.fillVec x y) s = onSlot (x, false) (Store.fillVec (s.st (y, false))) s := by
    show Mach.fillVec x y s = _
    unfold Mach.fillVec
    rw [M.bind_ok (M.get_apply _)]
  have e1 := fillVec_cells K.ptr (by rw [hb]; rfl) (by rw [hb, K.sz]; simp only [callerBlk]; omega) (R.agrees y u hu) (by rw [K.sz]; omega)
  refine ⟨_, by rw [e0]; exact onSlot_ok e1, R.putB hβ ha (by omega) K.ptr (by rw [K.sz]; omega) K.cap (R.inv.b x K.bor).al ?_⟩
  intro j
  rw [K.sz]
  by_cases hj : j < β.size
  · rw [if_pos hj, List.getElem?_append_left (by omega)]
  · rw [if_neg hj, List.getElem?_append_right (by omega), hb, List.getElem?_drop]
    simp only [callerBlk]
    congr 1; omega

/-- `fill` from any vector, into a vector that owns its memory. -/
theorem Rep.fillVecO {zero : V} {s : Mach V} {p : PState V} (R : Rep s p) {x y : Nat} {w : Var V} {u : List V}
    (hw : p.vars x = some w) (hu : p.lists y = some u) (hlen : u.length = w.val.length) :
    ∃ s', exec zero (.fillVec x y) s = (.ok (), s') ∧ Rep s' (p.put x (some ⟨u, w.kind⟩)) := by
  have L := R.vars x w hw
  have D := R.inv.d x L.bor
  have hzx := L.shows.1
  have hz : (s.st (y, false)).sz = u.length := (R.agrees y u hu).1
  have e0 : exec zero (.fillVec x y) s = onSlot (x, false) (Store.fillVec (s.st (y, false))) s := by
    show Mach.fillVec x y s = _
    unfold Mach.fillVec
    rw [M.bind_ok (M.get_apply _)]
  have kd : KindOK w.kind u (s.st (x, false)) (s.st (x, true)) :=
    L.kind.same (by rw [← List.length_eq_zero_iff, hlen, List.length_eq_zero_iff]) id (fun _ => rfl)
  obtain ⟨h1, e1, w1, sh1, st1⟩ := fillVec_spec D.wf (R.agrees y u hu) (by omega)
  exact ⟨_, by rw [e0]; exact onSlot_ok e1, R.put_d (r := (h1, _)) (v' := ⟨u, w.kind⟩) hw st1 ⟨w1, D.al, D.sz, D.cap⟩ sh1 kd⟩

/-- A copy of a `temp` member. -/
theorem copyTemp_ok {h : Heap V} {t : Store} (hs : h.sched = []) (T : TInv h t) (g : t.allocated = true → t.p ≠ none) :
    ∃ h' t', Store.copyCtor t (h, ({} : Store)) = (.ok (), (h', t')) ∧ Step h {} h' t' ∧ TInv h' t' ∧
      (t'.allocated = true → t'.p ≠ none) := by
  have hc := copyCtor_own hs T.own T.cap _ rfl
  cases hp : t.p with
  | none =>
    have ha : t.allocated = false := by
      cases ha : t.allocated with
      | false => rfl
      | true => exact absurd hp (g ha)
    rw [copyCtor_unalloc ha] at hc ⊢
    obtain ⟨o2, st2, z2, c2, m2⟩ := hc
    exact ⟨_, _, rfl, st2, ⟨o2, by rw [c2]; exact T.cap⟩, by simp⟩
  | some b =>
    rw [copyCtor_some hs T.own hp (by have := T.cap; omega)] at hc ⊢
    obtain ⟨o2, st2, z2, c2, m2⟩ := hc
    exact ⟨_, _, rfl, st2, ⟨o2, by rw [c2]; exact T.cap⟩, by simp⟩

/-- A new variable that borrows. -/
def addBor (s : Mach V) (d : Store) : Mach V :=
  { s.bump with
    st := fun z => if z = (s.n, false) then d else s.st z
    bor := fun z => if z = s.n then true else s.bor z }

theorem Inv.addBor {s : Mach V} (I : Inv s) {d : Store} (B : BInv s.heap d) : Inv (s.addBor d) := by
  obtain ⟨f1, f2, f3⟩ := I.fresh s.n (le_refl _)
  have hst : ∀ z : Slot, z ≠ (s.n, false) → (s.addBor d).st z = s.st z := fun z hz => if_neg hz
  have hown : ∀ z : Slot, (s.addBor d).owned z → z ≠ (s.n, false) ∧ s.owned z := by
    rintro ⟨z, c⟩ hz
    cases c with
    | true => exact ⟨by simp, Or.inl rfl⟩
    | false =>
      rcases hz with h | h
      · simp at h
      · simp only [Mach.addBor] at h
        split at h
        · simp at h
        · rename_i hzn
          exact ⟨by simpa using hzn, Or.inr h⟩
  have hown' : ∀ z : Slot, z ≠ (s.n, false) → s.owned z → (s.addBor d).owned z := by
    rintro ⟨z, c⟩ hne hz
    cases c with
    | true => exact Or.inl rfl
    | false =>
      have : z ≠ s.n := by simpa using hne
      rcases hz with h | h
      · exact Or.inl h
      · exact Or.inr (by simp only [Mach.addBor, this, if_false]; exact h)
  constructor
  · exact I.sched
  · intro z hz
    obtain ⟨h1, h2⟩ := hown (z, false) (Or.inr hz)
    rw [hst _ h1]
    rcases h2 with h | h
    · simp at h
    · exact I.d z h
  · intro z; rw [hst _ (by simp)]; exact I.t z
  · intro z hz
    by_cases hzn : z = s.n
    · subst hzn
      simpa [Mach.addBor, Mach.bump] using B
    · rw [hst _ (by simpa using hzn)]
      exact I.b z (by simpa [Mach.addBor, hzn] using hz)
  · intro z w b hz hw hzb hwb
    obtain ⟨a1, a2⟩ := hown z hz
    obtain ⟨b1, b2⟩ := hown w hw
    rw [hst _ a1] at hzb
    rw [hst _ b1] at hwb
    exact I.inj z w b a2 b2 hzb hwb
  · intro b h1 h2 h3
    obtain ⟨z, hz, hzb⟩ := I.own b h1 h2 h3
    have hzn : z ≠ (s.n, false) := by rintro rfl; rw [f1] at hzb; simp at hzb
    exact ⟨z, hown' z hzn hz, by rw [hst _ hzn]; exact hzb⟩
  · intro z hz
    have hz' : s.n + 1 ≤ z := hz
    have hzn : z ≠ s.n := by omega
    obtain ⟨a1, a2, a3⟩ := I.fresh z (by omega)
    exact ⟨by rw [hst _ (by simpa using hzn)]; exact a1, by rw [hst _ (by simp)]; exact a2,
      by simp only [Mach.addBor, hzn, if_false]; exact a3⟩

theorem Rep.addBor {s : Mach V} {p : PState V} (R : Rep s p) {β : Bor} {a : List V} {d : Store}
    (ha : p.arrays β.arr = some a) (h1 : d.p = some β.arr) (h2 : d.sz = β.size) (h3 : d.capacity = β.cap)
    (h4 : d.allocated = true) (hc : 1 ≤ β.cap) (hs : β.size ≤ β.cap) (hl : β.cap ≤ a.length) :
    Rep (s.addBor d) (p.newBor β) := by
  obtain ⟨f1, f2, f3⟩ := R.inv.fresh s.n (le_refl _)
  obtain ⟨k1, k2⟩ := R.b.arrays _ _ ha
  have B : BInv s.heap d := ⟨⟨β.arr, h1, k1, by rw [k2]; rfl, by rw [k2]; rfl, by rw [k2, h3]; exact hl⟩,
    by omega, by omega, h4⟩
  refine ⟨R.inv.addBor B, by simp [Mach.addBor, Mach.bump, PState.newBor, R.n], fun y w hw => ?_,
    fun c l hl => R.b.arrays c l hl, fun y γ hγ => ?_⟩
  · have L := R.vars y w hw
    have hyn : y ≠ s.n := by have := L.lt; omega
    refine ⟨by have := L.lt; simp only [Mach.addBor, Mach.bump]; omega, by simp [Mach.addBor, hyn, L.bor], ?_, ?_⟩
    · simp only [Mach.addBor, Prod.mk.injEq, hyn, false_and, if_false]; exact L.shows
    · simp only [Mach.addBor, Prod.mk.injEq, hyn, false_and, if_false]; exact L.kind
  · simp only [PState.newBor] at hγ ⊢
    by_cases hy : y = p.next
    · rw [if_pos hy] at hγ
      simp only [Option.some.injEq] at hγ
      subst hγ
      rw [← R.n] at hy
      subst hy
      refine ⟨a, ha, by simp [Mach.addBor, Mach.bump], by simp [Mach.addBor], by simpa [Mach.addBor] using h1,
        by simpa [Mach.addBor] using h2, by simpa [Mach.addBor] using h3, hs, hl, ?_⟩
      have : (s.addBor d).st (s.n, true) = {} := by simp [Mach.addBor, f2]
      rw [this]; simp
    · rw [if_neg hy] at hγ
      obtain ⟨l, hl, L⟩ := R.b.bors y γ hγ
      rw [← R.n] at hy
      exact ⟨l, hl, L.keep (by simp [Mach.addBor, Mach.bump]) (by simp [Mach.addBor, hy]) (by simp [Mach.addBor])
        (by simp [Mach.addBor, hy])⟩

theorem Rep.declBorrow {zero : V} {s : Mach V} {p : PState V} (R : Rep s p) {c n : Nat} {a : List V}
    (ha : p.arrays c = some a) (h1 : 1 ≤ n) (h2 : n ≤ a.length) :
    ∃ s', exec zero (.declBorrow (some c) n) s = (.ok (), s') ∧ Rep s' (p.newBor ⟨c, n, n⟩) :=
  ⟨s.addBor { p := some c, sz := n, capacity := n, allocated := true }, rfl, R.addBor (β := ⟨c, n, n⟩) (d := { p := some c, sz := n, capacity := n, allocated := true }) ha rfl rfl rfl rfl h1
    (le_refl _) h2⟩

theorem Rep.declCopyB {zero : V} {s : Mach V} {p : PState V} (R : Rep s p) {y : Nat} {β : Bor}
    (hβ : p.bors y = some β) : ∃ s', exec zero (.declCopy y) s = (.ok (), s') ∧ Rep s' (p.newBor β) := by
  obtain ⟨f1, f2, f3⟩ := R.inv.fresh s.n (le_refl _)
  obtain ⟨a, ha, K⟩ := R.b.bors y β hβ
  have B := R.inv.b y K.bor
  have hcap := B.cap
  rw [K.cap] at hcap
  have R1 := R.addBor (β := β) (d := s.st (y, false)) ha K.ptr K.sz K.cap B.al hcap K.le K.len
  set s1 := s.addBor (s.st (y, false)) with hs1
  have hyn : y ≠ s.n := by have := K.lt; omega
  have ey : s1.st (y, true) = s.st (y, true) := by simp [hs1, Mach.addBor]
  have en : s1.st (s.n, true) = {} := by simp [hs1, Mach.addBor, f2]
  have T := R1.inv.t y
  rw [ey] at T
  obtain ⟨h2, t2, e2, st2, T2, g2⟩ := copyTemp_ok R1.inv.sched T K.temp
  have hown : s1.owned (s.n, true) := Or.inl rfl
  have hbn : s1.bor s.n = true := by simp [hs1, Mach.addBor]
  refine ⟨s1.put (s.n, true) (h2, t2), ?_, ?_⟩
  · show Mach.declCopy y s = _
    unfold Mach.declCopy
    refine decl_ok (a := ()) ?_
    rw [M.bind_ok (M.get_apply _), if_pos (show s.bump.bor y = true from K.bor)]
    rw [M.bind_ok (M.modify_apply _ _)]
    refine onSlot_ok (r := (h2, t2)) (s := s1) ?_
    rw [en]; exact e2
  · have hno : ∀ b, (s1.st (s.n, true)).p ≠ some b := by rw [en]; simp
    have st2' : Step s1.heap (s1.st (s.n, true)) h2 t2 := by rw [en]; exact st2
    refine ⟨R1.inv.step (r := (h2, t2)) hown (by simp [hs1, Mach.addBor, Mach.bump]) st2' (by simp) (fun _ => T2), R1.n, fun z w hw => ?_,
      fun c l hl => ?_, fun z γ hγ => ?_⟩
    · have L := R1.vars z w hw
      have hz : z ≠ s.n := by rintro rfl; have := L.bor; rw [hbn] at this; simp at this
      exact L.frame R1.inv hown (fun h => hz h.symm) (r := (h2, t2)) st2'
    · obtain ⟨k1, k2⟩ := R1.b.arrays c l hl
      exact ⟨by have := st2.next_le; simp only [put_heap]; omega, by rw [put_heap, st2'.frame c k1 (hno c)]; exact k2⟩
    · obtain ⟨l, hl, L⟩ := R1.b.bors z γ hγ
      refine ⟨l, hl, L.lt, L.bor, by rw [put_ne _ _ (by simp)]; exact L.ptr, by rw [put_ne _ _ (by simp)]; exact L.sz,
        by rw [put_ne _ _ (by simp)]; exact L.cap, L.le, L.len, ?_⟩
      by_cases hz : z = s.n
      · subst hz; rw [put_same]; exact g2
      · rw [put_ne _ _ (by simpa using hz)]; exact L.temp

theorem Rep.declPtr {zero : V} {s : Mach V} {p : PState V} (R : Rep s p) {c n : Nat} {a : List V}
    (ha : p.arrays c = some a) (h1 : n ≤ a.length) (h2 : a.take n ≠ []) (h3 : n ≤ 2 ^ 30) :
    ∃ s', exec zero (.declPtr (some c) n) s = (.ok (), s') ∧ Rep s' (p.new 0 ⟨a.take n, .std⟩) := by
  obtain ⟨f1, f2, f3⟩ := R.inv.fresh s.n (le_refl _)
  obtain ⟨k1, k2⟩ := R.b.arrays _ _ ha
  have hl : (a.take n).length = n := by rw [List.length_take]; omega
  have hpos : 1 ≤ n := by have := List.length_pos_iff.mpr h2; omega
  obtain ⟨hh, d1, q1, R1, st1, w1, z1, c1⟩ := R.ctorSize (zero := zero) hpos h3
  have fr : ∀ h', Step s.heap {} h' d1 → h'.blk c = s.heap.blk c := fun h' st => st.frame c k1 (by simp)
  obtain ⟨hb, q2, w2, sh2, st2⟩ := slotLoop (s0 := s.bump) (z := (s.n, false))
    (g := fun i s => s.heap.load (some c) i) (L := a.take n) w1 (by rw [hl]; exact z1) (fun i hi h' _ st' => by
      have := fr h' (st1.trans (Own.default _) st')
      rw [hl] at hi
      rw [put_heap, List.getElem_take]
      exact Heap.load_some (by rw [this, k2]; rfl) (by rw [this, k2]; simp only [callerBlk]; omega)
        (by rw [this, k2]; exact List.getElem?_eq_getElem _))
  have st12 := st1.trans (Own.default _) st2
  have hD1 := R1.inv.d s.n f3
  rw [put_same] at hD1
  have R2 : Rep (s.bump.put (s.n, false) (hb, d1)) (p.new 0 ⟨a.take n, .std⟩) :=
    R.declPut (r := (hb, d1)) st12 ⟨w2, hD1.al, hD1.sz, hD1.cap⟩ sh2 h2 c1
  have R3 := R2.setMp (x := s.n) (v := ⟨a.take n, .std⟩) (by simp [PState.new, R.n]) ⟨false, 0, 0⟩
  rw [put_same, put_heap, put_put] at R3
  refine ⟨_, ?_, R3⟩
  show Mach.declPtr zero (some c) n s = _
  unfold Mach.declPtr
  refine decl_ok (a := ()) ?_
  rw [hl] at q2
  rw [M.bind_ok q1, M.bind_ok q2, onSlot_apply, put_same, put_heap, upd_apply, put_put]

theorem Rep.destroyB {zero : V} {s : Mach V} {p : PState V} (R : Rep s p) {x : Nat} {β : Bor} (hβ : p.bors x = some β) :
    ∃ s', exec zero (.destroy x) s = (.ok (), s') ∧ Rep s' { p with bors := fun y => if y = x then none else p.bors y } := by
  obtain ⟨a, ha, K⟩ := R.b.bors x β hβ
  obtain ⟨s', e, I, hn, hs1, hs2, hb, hnx, hf, hc⟩ := safe_destroy R.inv K.lt
  have hfr : ∀ b, (s.heap.blk b).newed = false → s'.heap.blk b = s.heap.blk b := by
    intro b hw
    refine hf b (fun y _ ho hyb => ?_)
    have := ((R.inv.ownOf ho).ptr b hyb).2.2.1
    rw [hw] at this; exact absurd this (by decide)
  refine ⟨s', e, I, by rw [hn]; exact R.n, fun y v hv => ?_, fun c l hl => ?_, fun y γ hγ => ?_⟩
  · have L := R.vars y v hv
    have hyx : y ≠ x := by rintro rfl; have := L.bor; rw [K.bor] at this; simp at this
    have e1 : s'.st (y, false) = s.st (y, false) := hs2 _ hyx
    have e2 : s'.st (y, true) = s.st (y, true) := hs2 _ hyx
    refine ⟨by rw [hn]; exact L.lt, by rw [hb]; simp only [hyx, if_false]; exact L.bor, ?_, ?_⟩
    · rw [e1]
      refine shows_frame (fun b hb' => hf b ?_) L.shows
      intro z hz ho hzb
      have := R.inv.inj z (y, false) b ho (Or.inr L.bor) hzb hb'
      subst this
      exact hyx hz
    · rw [e1, e2]; exact L.kind
  · obtain ⟨k1, k2⟩ := R.b.arrays c l hl
    exact ⟨by omega, by rw [hfr c (by rw [k2]; rfl)]; exact k2⟩
  · simp only [] at hγ ⊢
    by_cases hyx : y = x
    · rw [if_pos hyx] at hγ; simp at hγ
    · rw [if_neg hyx] at hγ
      obtain ⟨l, hl, L⟩ := R.b.bors y γ hγ
      exact ⟨l, hl, L.keep (by rw [hn]) (hs2 _ hyx) (hs2 _ hyx) (by rw [hb]; simp [hyx])⟩

theorem _root_.ETR.Spec.PState.view_eq {p : PState V} {x : Nat} {r : Bor × List V} (h : p.view x = some r) :
    p.bors x = some r.1 ∧ p.arrays r.1.arr = some r.2 := by
  unfold PState.view at h
  simp only [Option.bind_eq_bind, Option.pure_def, Option.bind_eq_some_iff, Option.some.injEq] at h
  obtain ⟨β, hβ, a, ha, rfl⟩ := h
  exact ⟨hβ, ha⟩

/-- One command on a variable that borrows. -/
theorem Rep.stepBor {zero : V} {s : Mach V} {p p' : PState V} (R : Rep s p) {c : Cmd V}
    (h : Spec.stepBor p c = some p') : ∃ s', exec zero c s = (.ok (), s') ∧ Rep s' p' := by
  cases c with
  | declBorrow q n =>
    cases q with
    | none => simp [Spec.stepBor] at h
    | some c =>
      simp only [Spec.stepBor, Option.bind_eq_bind, Option.bind_eq_some_iff, Option.ite_none_right_eq_some, Option.some.injEq] at h
      obtain ⟨a, ha, ⟨h1, h2⟩, rfl⟩ := h
      exact R.declBorrow ha h1 h2
  | declPtr q n =>
    cases q with
    | none => simp [Spec.stepBor] at h
    | some c =>
      simp only [Spec.stepBor, Option.bind_eq_bind, Option.bind_eq_some_iff, Option.ite_none_right_eq_some, Option.pure_def,
        Option.some.injEq] at h
      obtain ⟨a, ha, h1, l, hl, rfl⟩ := h
      obtain ⟨rfl, h4, h5⟩ := lim_eq hl
      rw [List.length_take] at h5
      exact R.declPtr ha h1 h4 (by omega)
  | declCopy y =>
    simp only [Spec.stepBor, Option.bind_eq_bind, Option.bind_eq_some_iff, Option.pure_def, Option.some.injEq] at h
    obtain ⟨β, hβ, rfl⟩ := h
    exact R.declCopyB hβ
  | assign conv x e =>
    simp only [Spec.stepBor, Option.bind_eq_bind, Option.bind_eq_some_iff, Option.pure_def, Option.ite_none_right_eq_some,
      Option.some.injEq] at h
    obtain ⟨r, hr, l, h1, L, h2, L', h3, ⟨hc1, hc2⟩, rfl⟩ := h
    obtain ⟨rfl, h4, h5⟩ := lim_eq h3
    obtain ⟨hβ, ha⟩ := PState.view_eq hr
    exact R.assignB hβ ha h1 h2 h4 h5 hc1 hc2
  | assignScalar x v =>
    simp only [Spec.stepBor, Option.bind_eq_bind, Option.bind_eq_some_iff, Option.pure_def, Option.some.injEq] at h
    obtain ⟨r, hr, rfl⟩ := h
    obtain ⟨hβ, ha⟩ := PState.view_eq hr
    exact R.assignScalarB hβ ha v
  | subAssign conv same x ind e =>
    simp only [Spec.stepBor, Option.bind_eq_bind, Option.bind_eq_some_iff, Option.pure_def, Option.ite_none_right_eq_some,
      Option.some.injEq] at h
    obtain ⟨r, hr, l, h1, L, h2, L', h3, ⟨hc1, hc2⟩, w, hw, rfl⟩ := h
    obtain ⟨rfl, h4, h5⟩ := lim_eq h3
    obtain ⟨hβ, ha⟩ := PState.view_eq hr
    exact R.subAssignB hβ ha hc2 h1 h2 h4 h5 hc1 hw
  | subAssignScalar x ind v =>
    simp only [Spec.stepBor, Option.bind_eq_bind, Option.bind_eq_some_iff, Option.pure_def, Option.ite_none_right_eq_some,
      Option.some.injEq] at h
    obtain ⟨r, hr, hc, w, hw, rfl⟩ := h
    obtain ⟨hβ, ha⟩ := PState.view_eq hr
    exact R.subAssignScalarB hβ ha hc hw
  | setElem x i v =>
    simp only [Spec.stepBor, Option.bind_eq_bind, Option.bind_eq_some_iff, Option.pure_def, Option.ite_none_right_eq_some,
      Option.some.injEq] at h
    obtain ⟨r, hr, hc, rfl⟩ := h
    obtain ⟨hβ, ha⟩ := PState.view_eq hr
    exact R.setElemB hβ ha hc v
  | resize x n =>
    simp only [Spec.stepBor, Option.bind_eq_bind, Option.bind_eq_some_iff, Option.pure_def, Option.ite_none_right_eq_some,
      Option.some.injEq] at h
    obtain ⟨r, hr, hc, rfl⟩ := h
    obtain ⟨hβ, ha⟩ := PState.view_eq hr
    exact R.resizeB hβ ha hc.1 hc.2
  | fill x v =>
    simp only [Spec.stepBor, Option.bind_eq_bind, Option.bind_eq_some_iff, Option.pure_def, Option.some.injEq] at h
    obtain ⟨r, hr, rfl⟩ := h
    obtain ⟨hβ, ha⟩ := PState.view_eq hr
    exact R.fillB hβ ha v
  | fillVec x y =>
    simp only [Spec.stepBor, Option.bind_eq_bind, Option.bind_eq_some_iff] at h
    obtain ⟨u, hu, h⟩ := h
    cases hw : p.vars x with
    | some w =>
      rw [hw] at h
      simp only [Option.ite_none_right_eq_some, Option.some.injEq] at h
      obtain ⟨hc, rfl⟩ := h
      exact R.fillVecO hw hu hc
    | none =>
      rw [hw] at h
      simp only [Option.bind_eq_some_iff, Option.ite_none_right_eq_some, Option.pure_def, Option.some.injEq] at h
      obtain ⟨r, hr, hc, rfl⟩ := h
      obtain ⟨hβ, ha⟩ := PState.view_eq hr
      exact R.fillVecB hβ ha hu hc
  | destroy x =>
    simp only [Spec.stepBor, Option.bind_eq_bind, Option.bind_eq_some_iff, Option.pure_def, Option.some.injEq] at h
    obtain ⟨β, hβ, rfl⟩ := h
    exact R.destroyB hβ
  | _ => simp [Spec.stepBor] at h

/-- One command of the library follows the naive semantics. -/
theorem Rep.step {zero : V} {s : Mach V} {p p' : PState V} (R : Rep s p) {c : Cmd V}
    (h : Spec.step zero p c = some p') : ∃ s', exec zero c s = (.ok (), s') ∧ Rep s' p' := by
  unfold Spec.step at h
  cases h1 : Spec.stepOwn zero p c with
  | some q =>
    rw [h1] at h
    simp only [Option.some.injEq] at h
    subst h
    exact R.stepOwn h1
  | none =>
    rw [h1] at h
    exact R.stepBor h

/-- The arrays of the caller. -/
theorem Rep.caller {zero : V} (ls : List (List V)) :
    ∃ s, runOk zero (ls.map .callerArray) Mach.start = (.ok (), s) ∧ Rep s (PState.caller ls) := by
  have key : ∀ (ls qs : List (List V)) (s : Mach V), Rep s (PState.caller qs) → s.heap.next = qs.length →
      ∃ s', runOk zero (ls.map .callerArray) s = (.ok (), s') ∧ Rep s' (PState.caller (qs ++ ls)) := by
    intro ls
    induction ls with
    | nil => intro qs s R _; exact ⟨s, rfl, by simpa using R⟩
    | cons l ls ih =>
      intro qs s R hn
      have R1 := R.callerArray l
      set s1 : Mach V := { s with heap := (s.heap.foreign l).1 } with hs1
      have R2 : Rep s1 (PState.caller (qs ++ [l])) := by
        refine ⟨R1.inv, R1.n, fun x v h => by simp [PState.caller] at h, fun a u h => ?_, fun x β h => by simp [PState.caller] at h⟩
        simp only [PState.caller] at h
        by_cases ha : a < qs.length
        · rw [List.getElem?_append_left ha] at h
          exact R1.b.arrays a u h
        · rw [List.getElem?_append_right (by omega)] at h
          obtain ⟨h1, h2⟩ := List.getElem?_eq_some_iff.mp h
          simp only [List.length_singleton] at h1
          have : a = s.heap.next := by omega
          subst this
          simp only [List.getElem_singleton] at h2
          subst h2
          exact ⟨by simp [hs1, Heap.foreign], by simp [hs1, Heap.foreign, Heap.setBlk, callerBlk]⟩
      obtain ⟨s', e, R'⟩ := ih (qs ++ [l]) s1 R2 (by simp [hs1, Heap.foreign, hn])
      refine ⟨s', ?_, by simpa using R'⟩
      rw [List.map_cons]
      unfold runOk
      have : exec zero (.callerArray l) s = (.ok (), s1) := rfl
      rw [M.bind_ok this, e]
  exact key ls [] Mach.start ⟨Inv.start, rfl, fun x v h => by simp [PState.caller] at h, fun a l h => by simp [PState.caller] at h,
    fun x β h => by simp [PState.caller] at h⟩ rfl

theorem runOk_append {zero : V} {bs : List (Cmd V)} : ∀ {as : List (Cmd V)} {s s1 : Mach V},
    runOk zero as s = (.ok (), s1) → runOk zero (as ++ bs) s = runOk zero bs s1 := by
  intro as
  induction as with
  | nil => intro s s1 h; simp only [runOk, M.pure_apply, Prod.mk.injEq, true_and] at h; subst h; rfl
  | cons c as ih =>
    intro s s1 h
    rw [List.cons_append]
    rw [runOk] at h ⊢
    cases hc : exec zero c s with
    | mk o s2 =>
      cases o with
      | ok a => rw [M.bind_ok hc] at h ⊢; exact ih h
      | thr => rw [M.bind_thr hc] at h; simp at h
      | ub => rw [M.bind_ub hc] at h; simp at h

end Mach
end ETR
