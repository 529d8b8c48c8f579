import Verif.Props.BorrowSEXP
import Verif.Props.Shape
import Verif.Spec.SexpOwn
import Verif.Lemmas.Fails

/-! The memory of a vector of the R-borrowing kind that owns its memory. -/

namespace ETR
namespace Sexp
open Heap Spec
variable {V : Type}

/-- No memory yet. -/
structure DNone (d : Sexp) : Prop where
  p : d.p = none
  al : d.allocated = false
  td : d.todelete = false
  sz : d.sz = 0
  cap : d.capacity = 0

/-- The vector has the block `q`, which did not exist in `h0`. -/
structure DMem (h0 h : Heap V) (d : Sexp) (q : Nat) : Prop where
  p : d.p = some q
  al : d.allocated = true
  td : d.todelete = true
  ge : h0.next ≤ q
  lt : q < h.next
  live : (h.blk q).live = true
  newed : (h.blk q).newed = true
  pos : 1 ≤ d.sz
  szc : d.sz ≤ d.capacity
  cap : d.capacity ≤ (h.blk q).len
  c31 : d.capacity < 2 ^ 31

/-- `temp` has the block `b`, which did not exist in `h0`. -/
structure TMem (h0 h : Heap V) (t : Store) (b : Nat) : Prop where
  p : t.p = some b
  al : t.allocated = true
  ge : h0.next ≤ b
  lt : b < h.next
  live : (h.blk b).live = true
  newed : (h.blk b).newed = true
  cap : t.capacity ≤ (h.blk b).len
  c31 : t.capacity < 2 ^ 31

/-- The memory of the vector is its own; everything that existed in `h0` is untouched, and of the memory obtained since then only the
blocks of the vector are in use. -/
structure XMem (h0 h : Heap V) (s : SVec) : Prop where
  sched : h.sched = []
  nx : h0.next ≤ h.next
  old : ∀ c, c < h0.next → h.blk c = h0.blk c
  rest : ∀ c, h0.next ≤ c → c < h.next → (h.blk c).live = true → s.d.p = some c ∨ s.temp.p = some c
  d : DNone s.d ∨ ∃ q, DMem h0 h s.d q
  t : (s.temp.p = none ∧ s.temp.allocated = false) ∨ ∃ b, TMem h0 h s.temp b
  ne : ∀ q, s.d.p = some q → s.temp.p ≠ some q

/-- The vector shows `l`. -/
structure XShows (h : Heap V) (d : Sexp) (l : List V) : Prop where
  sz : d.sz = l.length
  cell : ∀ q, d.p = some q → ∀ i (hi : i < l.length), (h.blk q).cell i = some l[i]

theorem XMem.start {h0 : Heap V} (hs : h0.sched = []) : XMem h0 h0 {} :=
  ⟨hs, le_refl _, fun _ _ => rfl, fun c h1 h2 => by omega, .inl ⟨rfl, rfl, rfl, rfl, rfl⟩, .inl ⟨rfl, rfl⟩, by simp⟩

theorem XShows.start (h : Heap V) : XShows h {} [] := ⟨rfl, by simp⟩

/-- The elements and the size of the vector's block change. -/
theorem XMem.setD {h0 h : Heap V} {s : SVec} {q n : Nat} {mp : MP} {f : Nat → Option V} (X : XMem h0 h s) (D : DMem h0 h s.d q)
    (hn : 1 ≤ n) (hc : n ≤ s.d.capacity) : XMem h0 (h.setCells q f) { s with d := { s.d with sz := n, mp := mp } } := by
  refine ⟨by simpa using X.sched, by simpa using X.nx, fun c hc' => ?_, fun c h1 h2 h3 => ?_, .inr ⟨q, ?_⟩, ?_, X.ne⟩
  · rw [setCells_ne _ _ (by have := D.ge; omega)]; exact X.old c hc'
  · exact X.rest c h1 (by simpa using h2) (by simpa using h3)
  · exact ⟨D.p, D.al, D.td, D.ge, by simpa using D.lt, by simpa using D.live, by simpa using D.newed, hn, hc, by simpa using D.cap, D.c31⟩
  · rcases X.t with t | ⟨b, T⟩
    · exact .inl t
    · exact .inr ⟨b, T.p, T.al, T.ge, by simpa using T.lt, by simpa using T.live, by simpa using T.newed, by simpa using T.cap, T.c31⟩

theorem XMem.setMP {h0 h : Heap V} {s : SVec} (X : XMem h0 h s) (mp : MP) : XMem h0 h { s with d := { s.d with mp := mp } } := by
  refine ⟨X.sched, X.nx, X.old, X.rest, ?_, X.t, X.ne⟩
  rcases X.d with N | ⟨q, D⟩
  · exact .inl ⟨N.p, N.al, N.td, N.sz, N.cap⟩
  · exact .inr ⟨q, D.p, D.al, D.td, D.ge, D.lt, D.live, D.newed, D.pos, D.szc, D.cap, D.c31⟩

/-- The vector gets a new block in place of the one it had. -/
theorem XMem.replaceD {h0 h h' : Heap V} {s : SVec} {d' : Sexp} {c : Nat} {f : Nat → Option V} (X : XMem h0 h s)
    (hs : h'.sched = []) (hnx : h'.next = h.next + 1) (hnew : h'.blk h.next = ⟨c, f, true, true⟩)
    (hold : ∀ b, b < h.next → s.d.p ≠ some b → h'.blk b = h.blk b) (hdead : ∀ q, s.d.p = some q → (h'.blk q).live = false)
    (hp : d'.p = some h.next) (ha : d'.allocated = true) (ht : d'.todelete = true) (h1 : 1 ≤ d'.sz) (h2 : d'.sz ≤ d'.capacity)
    (h3 : d'.capacity ≤ c) (h4 : d'.capacity < 2 ^ 31) : XMem h0 h' { s with d := d' } := by
  have hdp : ∀ q, s.d.p = some q → h0.next ≤ q ∧ q < h.next := by
    intro q hq
    rcases X.d with N | ⟨q', D⟩
    · rw [N.p] at hq; exact absurd hq (by simp)
    · rw [D.p] at hq; simp only [Option.some.injEq] at hq; subst hq; exact ⟨D.ge, D.lt⟩
  have htp : ∀ b, s.temp.p = some b → b < h.next := by
    intro b hb
    rcases X.t with ⟨t, _⟩ | ⟨b', T⟩
    · rw [t] at hb; exact absurd hb (by simp)
    · rw [T.p] at hb; simp only [Option.some.injEq] at hb; subst hb; exact T.lt
  have nx := X.nx
  refine ⟨hs, by omega, fun b hb => ?_, fun b b1 b2 b3 => ?_, .inr ⟨h.next, ?_⟩, ?_, ?_⟩
  · rw [hold b (by omega) (fun e => by have := (hdp b e).1; omega)]; exact X.old b hb
  · by_cases hb : b = h.next
    · left; subst hb; exact hp
    · right
      have hne : s.d.p ≠ some b := fun e => by rw [hdead b e] at b3; exact absurd b3 (by simp)
      rw [hold b (by omega) hne] at b3
      rcases X.rest b b1 (by omega) b3 with e | e
      · exact absurd e hne
      · exact e
  · exact ⟨hp, ha, ht, nx, by omega, by rw [hnew], by rw [hnew], h1, h2, by rw [hnew]; exact h3, h4⟩
  · rcases X.t with t | ⟨b, T⟩
    · exact .inl t
    · have e := hold b T.lt (fun e => X.ne b e T.p)
      exact .inr ⟨b, T.p, T.al, T.ge, by have := T.lt; omega, by rw [e]; exact T.live, by rw [e]; exact T.newed, by rw [e]; exact T.cap, T.c31⟩
  · intro q hq e
    have h1 := htp q e
    simp only [hp, Option.some.injEq] at hq
    omega

/-- `temp` gets a new block in place of the one it had. -/
theorem XMem.replaceT {h0 h h' : Heap V} {s : SVec} {t' : Store} {c : Nat} {f : Nat → Option V} (X : XMem h0 h s)
    (hs : h'.sched = []) (hnx : h'.next = h.next + 1) (hnew : h'.blk h.next = ⟨c, f, true, true⟩)
    (hold : ∀ b, b < h.next → s.temp.p ≠ some b → h'.blk b = h.blk b) (hdead : ∀ q, s.temp.p = some q → (h'.blk q).live = false)
    (hp : t'.p = some h.next) (ha : t'.allocated = true)
    (h3 : t'.capacity ≤ c) (h4 : t'.capacity < 2 ^ 31) : XMem h0 h' { s with temp := t' } := by
  have hdp : ∀ q, s.d.p = some q → q < h.next := by
    intro q hq
    rcases X.d with N | ⟨q', D⟩
    · rw [N.p] at hq; exact absurd hq (by simp)
    · rw [D.p] at hq; simp only [Option.some.injEq] at hq; subst hq; exact D.lt
  have htp : ∀ b, s.temp.p = some b → h0.next ≤ b := by
    intro b hb
    rcases X.t with ⟨t, _⟩ | ⟨b', T⟩
    · rw [t] at hb; exact absurd hb (by simp)
    · rw [T.p] at hb; simp only [Option.some.injEq] at hb; subst hb; exact T.ge
  have nx := X.nx
  refine ⟨hs, by omega, fun b hb => ?_, fun b b1 b2 b3 => ?_, ?_, .inr ⟨h.next, ?_⟩, ?_⟩
  · rw [hold b (by omega) (fun e => by have := htp b e; omega)]; exact X.old b hb
  · by_cases hb : b = h.next
    · right; subst hb; exact hp
    · left
      have hne : s.temp.p ≠ some b := fun e => by rw [hdead b e] at b3; exact absurd b3 (by simp)
      rw [hold b (by omega) hne] at b3
      rcases X.rest b b1 (by omega) b3 with e | e
      · exact e
      · exact absurd e hne
  · rcases X.d with N | ⟨q, D⟩
    · exact .inl N
    · have e := hold q D.lt (fun e => X.ne q D.p e)
      exact .inr ⟨q, D.p, D.al, D.td, D.ge, by have := D.lt; omega, by rw [e]; exact D.live, by rw [e]; exact D.newed, D.pos, D.szc,
        by rw [e]; exact D.cap, D.c31⟩
  · exact ⟨hp, ha, nx, by omega, by rw [hnew], by rw [hnew], by rw [hnew]; exact h3, h4⟩
  · intro q hq e
    have h1 := hdp q hq
    simp only [hp, Option.some.injEq] at e
    omega

/-- The cells of `temp`'s block change. -/
theorem XMem.setT {h0 h : Heap V} {s : SVec} {b n : Nat} {f : Nat → Option V} (X : XMem h0 h s) (T : TMem h0 h s.temp b) :
    XMem h0 (h.setCells b f) { s with temp := { s.temp with sz := n } } := by
  refine ⟨by simpa using X.sched, by simpa using X.nx, fun c hc' => ?_, fun c h1 h2 h3 => ?_, ?_, .inr ⟨b, ?_⟩, X.ne⟩
  · rw [setCells_ne _ _ (by have := T.ge; omega)]; exact X.old c hc'
  · exact X.rest c h1 (by simpa using h2) (by simpa using h3)
  · rcases X.d with N | ⟨q, D⟩
    · exact .inl N
    · exact .inr ⟨q, D.p, D.al, D.td, D.ge, by simpa using D.lt, by simpa using D.live, by simpa using D.newed, D.pos, D.szc,
        by simpa using D.cap, D.c31⟩
  · exact ⟨T.p, T.al, T.ge, by simpa using T.lt, by simpa using T.live, by simpa using T.newed, by simpa using T.cap, T.c31⟩

/-- The two blocks change places. -/
theorem XMem.swap {h0 h : Heap V} {s : SVec} {q b : Nat} (X : XMem h0 h s) (D : DMem h0 h s.d q) (T : TMem h0 h s.temp b)
    (h1 : 1 ≤ s.temp.sz) (h2 : s.temp.sz ≤ s.temp.capacity) :
    ∃ s', swapTemp (h, s) = (.ok (), (h, s')) ∧ XMem h0 h s' ∧ s'.d.p = some b ∧ s'.d.sz = s.temp.sz ∧ s'.d.mp = s.d.mp := by
  have c31 := T.c31
  refine ⟨_, rfl, ⟨X.sched, X.nx, X.old, fun c c1 c2 c3 => (X.rest c c1 c2 c3).symm, .inr ⟨b, ?_⟩, .inr ⟨q, ?_⟩, ?_⟩, T.p, ?_, rfl⟩
  · refine ⟨T.p, D.al, D.td, T.ge, T.lt, T.live, T.newed, ?_, ?_, ?_, ?_⟩ <;>
      simp only [Store.wrapI32_small c31, Store.wrapI32_small (show s.temp.sz < 2 ^ 31 by omega),
        Store.wrap64_small (show s.temp.capacity < 2 ^ 64 by omega), Store.wrap64_small (show s.temp.sz < 2 ^ 64 by omega)]
    · exact h1
    · exact h2
    · exact T.cap
    · exact c31
  · exact ⟨D.p, T.al, D.ge, D.lt, D.live, D.newed, D.cap, D.c31⟩
  · intro r hr e
    exact X.ne r e hr
  · simp only [Store.wrapI32_small (show s.temp.sz < 2 ^ 31 by omega), Store.wrap64_small (show s.temp.sz < 2 ^ 64 by omega)]

/-! ## The operations -/

@[local simp] theorem kill_add_same (h : Heap V) (q : Nat) (x : Block V) : ((h.kill q).addBlk x).blk h.next = x := addBlk_same (h.kill q) x
@[local simp] theorem kill_add_set (h : Heap V) (q : Nat) (x : Block V) (f : Nat → Option V) :
    ((h.kill q).addBlk x).setCells h.next f = (h.kill q).addBlk { x with cell := f } := addBlk_setCells (h.kill q) x f

theorem resize_zero {zero : V} (st : Heap V × SVec) : Sexp.resize zero 0 st = (.thr "Size has to be larger than 0", st) := by
  simp [Sexp.resize, M.bind_apply, M.ass]

theorem fillScalar_some {h : Heap V} {s : SVec} {q : Nat} {v : V} (hp : s.d.p = some q) (hl : (h.blk q).live = true)
    (hn : s.d.sz ≤ (h.blk q).len) :
    fillScalar v (h, s) = (.ok (), (h.setCells q (fun j => if j < s.d.sz then some v else (h.blk q).cell j), s)) := by
  unfold fillScalar
  rw [M.bind_ok (m := self) (self_apply _), heapM_apply]
  simp only [hp]
  rw [fillRange_some hl hn]

/-- `resize` gives the vector memory for `n` elements; from nothing, all of them are zero. -/
theorem XMem.resize {zero : V} {h0 h : Heap V} {s : SVec} {n : Nat} (X : XMem h0 h s) (hn : 1 ≤ n) (hb : n ≤ 2 ^ 30) :
    ∃ h' d', Sexp.resize zero n (h, s) = (.ok (), (h', { s with d := d' })) ∧ XMem h0 h' { s with d := d' } ∧ (∃ q, DMem h0 h' d' q) ∧
      d'.sz = n ∧ d'.mp = s.d.mp ∧ (∀ b, s.temp.p = some b → h'.blk b = h.blk b) ∧
      (DNone s.d → XShows h' d' (List.replicate n zero)) ∧ (n ≤ s.d.capacity → s.d.allocated = true → d' = { s.d with sz := n } ∧ h' = h) := by
  obtain ⟨c, ec, hc1, hc2⟩ := capOf_spec (n := n) (by omega)
  have tlt : ∀ b, s.temp.p = some b → b < h.next := by
    intro b hb
    rcases X.t with ⟨t, _⟩ | ⟨b', T⟩
    · rw [t] at hb; exact absurd hb (by simp)
    · rw [T.p] at hb; simp only [Option.some.injEq] at hb; subst hb; exact T.lt
  rcases X.d with N | ⟨q, D⟩
  · have e1 : Sexp.init n (h, s) = (.ok (), (h.addBlk ⟨c, fun _ => none, true, true⟩,
        { s with d := { s.d with p := some h.next, sz := n, capacity := c, allocated := true, todelete := true } })) := by
      unfold Sexp.init
      rw [M.bind_ok (m := self) (self_apply _), if_neg (by simp [N.al])]
      simp [M.bind_apply, ec, heapM_apply, new_ok X.sched (show c < 2 ^ 60 by omega)]
    have e2 : Sexp.resize zero n (h, s) = (.ok (), (h.addBlk ⟨c, fun j => if j < n then some zero else none, true, true⟩,
        { s with d := { s.d with p := some h.next, sz := n, capacity := c, allocated := true, todelete := true } })) := by
      unfold Sexp.resize
      rw [M.bind_ok (M.ass_pos hn _), M.bind_ok (m := self) (self_apply _), if_pos (by simp [N.al]), M.bind_ok e1,
        fillScalar_some (q := h.next) rfl (by simp) (by simpa using hc1)]
      simp
    have X' := X.replaceD (c := c) (f := fun j => if j < n then some zero else none) (h' := h.addBlk ⟨c, fun j => if j < n then some zero else none, true, true⟩)
      (d' := { s.d with p := some h.next, sz := n, capacity := c, allocated := true, todelete := true }) (by simpa using X.sched) (by simp)
      (by simp) (fun b hb _ => addBlk_lt _ _ hb) (fun q hq => by rw [N.p] at hq; exact absurd hq (by simp)) rfl rfl rfl hn hc1 (le_refl _)
      (by simp only []; omega)
    refine ⟨_, _, e2, X', ?_, rfl, rfl, fun b hb => addBlk_lt _ _ (tlt b hb), fun _ => ⟨by simp, fun q hq i hi => ?_⟩, fun _ h => ?_⟩
    · rcases X'.d with M | d
      · exact absurd M.p (by simp)
      · exact d
    · simp only [Option.some.injEq] at hq
      subst hq
      simp at hi
      simp [hi]
    · rw [N.al] at h; exact absurd h (by simp)
  · by_cases hc : n ≤ s.d.capacity
    · refine ⟨h, { s.d with sz := n }, resize_keep hn D.al hc, ?_, ?_, rfl, rfl, fun _ _ => rfl, fun N => ?_, fun _ _ => ⟨rfl, rfl⟩⟩
      · have := X.setD (mp := s.d.mp) (f := (h.blk q).cell) D hn hc
        rwa [setCells_self] at this
      · exact ⟨q, D.p, D.al, D.td, D.ge, D.lt, D.live, D.newed, hn, hc, D.cap, D.c31⟩
      · exact absurd D.p (by rw [N.p]; simp)
    · have e2 : Sexp.resize zero n (h, s) = (.ok (), ((h.kill q).addBlk ⟨c, fun j => if j < n then some zero else none, true, true⟩,
          { s with d := { s.d with p := some h.next, sz := n, capacity := c, allocated := true, todelete := true } })) := by
        unfold Sexp.resize
        rw [M.bind_ok (M.ass_pos hn _), M.bind_ok (m := self) (self_apply _), if_neg (by simp [D.al]), if_pos (by simp only []; omega),
          M.bind_ok (M.ass_pos (by simp [D.p]) _), M.bind_ok (a := ()) (s' := (h.kill q, s)) (by
            rw [heapM_apply]; simp only [D.p]; rw [delete_some D.newed D.live]),
          M.bind_ok (upd_apply _ _), M.bind_ok (a := c) (by rw [M.lift_apply, ec]), M.bind_ok (upd_apply _ _), M.bind_ok (by
            rw [heapM_apply, new_ok (by simpa using X.sched) (show c < 2 ^ 60 by omega)]), M.bind_ok (upd_apply _ _),
          fillScalar_some (q := (h.kill q).next) rfl (by simp) (by simpa using hc1)]
        simp
      have X' := X.replaceD (c := c) (f := fun j => if j < n then some zero else none) (h' := (h.kill q).addBlk ⟨c, fun j => if j < n then some zero else none, true, true⟩)
        (d' := { s.d with p := some h.next, sz := n, capacity := c, allocated := true, todelete := true }) (by simpa using X.sched) (by simp)
        (by simp)
        (fun b hb hq => by
          rw [addBlk_lt _ _ (by simpa using hb), kill_ne]
          intro e; subst e; exact hq D.p)
        (fun r hr => by
          rw [D.p] at hr; simp only [Option.some.injEq] at hr; subst hr
          rw [addBlk_lt _ _ (by simpa using D.lt)]; simp) rfl rfl rfl hn hc1 (le_refl _)
        (by simp only []; omega)
      refine ⟨_, _, e2, X', ?_, rfl, rfl, fun b hb => ?_, fun N => ?_, fun h _ => absurd h hc⟩
      · rcases X'.d with M | d
        · exact absurd M.p (by simp)
        · exact d
      · rw [addBlk_lt _ _ (by simpa using tlt b hb), kill_ne]
        intro e; subst e; exact X.ne _ D.p hb
      · exact absurd D.p (by rw [N.p]; simp)

/-- `resize` beyond the capacity: nothing but zeros. -/
theorem XMem.resize_over {zero : V} {h0 h : Heap V} {s : SVec} {n : Nat} (X : XMem h0 h s) (hn : 1 ≤ n) (hb : n ≤ 2 ^ 30)
    (hal : s.d.allocated = true) (hc : s.d.capacity < n) :
    ∃ h' d', Sexp.resize zero n (h, s) = (.ok (), (h', { s with d := d' })) ∧ XMem h0 h' { s with d := d' } ∧
      XShows h' d' (List.replicate n zero) ∧ d'.mp = s.d.mp := by
  obtain ⟨h', d', e, X', _, _, mp, _⟩ := X.resize (zero := zero) hn hb
  refine ⟨h', d', e, X', ?_, mp⟩
  obtain ⟨c, ec, hc1, hc2⟩ := capOf_spec (n := n) (by omega)
  rcases X.d with N | ⟨q, D⟩
  · rw [N.al] at hal; cases hal
  · have e2 : Sexp.resize zero n (h, s) = (.ok (), ((h.kill q).addBlk ⟨c, fun j => if j < n then some zero else none, true, true⟩,
        { s with d := { s.d with p := some h.next, sz := n, capacity := c, allocated := true, todelete := true } })) := by
      unfold Sexp.resize
      rw [M.bind_ok (M.ass_pos hn _), M.bind_ok (m := self) (self_apply _), if_neg (by simp [D.al]), if_pos (by simp only []; omega),
        M.bind_ok (M.ass_pos (by simp [D.p]) _), M.bind_ok (a := ()) (s' := (h.kill q, s)) (by
          rw [heapM_apply]; simp only [D.p]; rw [delete_some D.newed D.live]),
        M.bind_ok (upd_apply _ _), M.bind_ok (a := c) (by rw [M.lift_apply, ec]), M.bind_ok (upd_apply _ _), M.bind_ok (by
          rw [heapM_apply, new_ok (by simpa using X.sched) (show c < 2 ^ 60 by omega)]), M.bind_ok (upd_apply _ _),
        fillScalar_some (q := (h.kill q).next) rfl (by simp) (by simpa using hc1)]
      simp
    rw [e] at e2
    simp only [Prod.mk.injEq, true_and] at e2
    obtain ⟨rfl, e3⟩ := e2
    have e4 := congrArg SVec.d e3
    simp only at e4
    subst e4
    refine ⟨by simp, fun r hr i hi => ?_⟩
    simp only [Option.some.injEq] at hr
    subst hr
    simp only [List.length_replicate] at hi
    have : ((h.kill q).addBlk ⟨c, fun j => if j < n then some zero else none, true, true⟩).blk h.next
        = ⟨c, fun j => if j < n then some zero else none, true, true⟩ := by simp [Heap.addBlk]
    rw [this]
    simp [hi]

theorem XMem.tempResize {zero : V} {h0 h : Heap V} {s : SVec} {n : Nat} (X : XMem h0 h s) (hn : 1 ≤ n) (hb : n ≤ 2 ^ 30) :
    ∃ h' t' b, Store.resize zero n (h, s.temp) = (.ok (), (h', t')) ∧ XMem h0 h' { s with temp := t' } ∧ TMem h0 h' t' b ∧
      t'.sz = n ∧ n ≤ t'.capacity ∧ (∀ q, s.d.p = some q → h'.blk q = h.blk q) := by
  obtain ⟨c, ec, hc1, hc2⟩ := capOf_spec (n := n) (by omega)
  have dlt : ∀ b, s.d.p = some b → b < h.next := by
    intro b hb
    rcases X.d with N | ⟨b', T⟩
    · rw [N.p] at hb; exact absurd hb (by simp)
    · rw [T.p] at hb; simp only [Option.some.injEq] at hb; subst hb; exact T.lt
  rcases X.t with ⟨hp, ha⟩ | ⟨b, T⟩
  · have e := Store.resize_fresh (zero := zero) (s := s.temp) X.sched hn (by omega) ec hc1 ha
    have X' := X.replaceT (h' := h.addBlk (Store.zeroBlk zero c n)) (t' := { s.temp with p := some h.next, sz := n, capacity := c, allocated := true })
      (c := c) (f := (Store.zeroBlk zero c n).cell) (by simpa using X.sched) (by simp)
      (by simp [Store.zeroBlk]) (fun b hb _ => addBlk_lt _ _ hb) (fun q hq => by rw [hp] at hq; exact absurd hq (by simp)) rfl rfl (le_refl _)
      (by simp only []; omega)
    refine ⟨_, _, h.next, e, X', ?_, rfl, hc1, fun q hq => addBlk_lt _ _ (dlt q hq)⟩
    rcases X'.t with ⟨t, _⟩ | ⟨b, T⟩
    · exact absurd t (by simp)
    · obtain rfl : h.next = b := by simpa using T.p
      exact T
  · by_cases hc : n ≤ s.temp.capacity
    · refine ⟨h, _, b, Store.resize_keep hn T.al hc, ?_, ?_, rfl, hc, fun _ _ => rfl⟩
      · have := X.setT (n := n) (f := (h.blk b).cell) T
        rwa [setCells_self] at this
      · exact ⟨T.p, T.al, T.ge, T.lt, T.live, T.newed, T.cap, T.c31⟩
    · have own : Store.Own h s.temp := ⟨fun r hr => by
        rw [T.p] at hr; simp only [Option.some.injEq] at hr; subst hr; exact ⟨T.lt, T.live, T.newed, T.cap, T.al⟩, fun e => absurd T.p (by rw [e]; simp)⟩
      have e := Store.resize_grow (zero := zero) (s := s.temp) X.sched hn (by omega) ec hc1 own T.p (by omega)
      have X' := X.replaceT (h' := (h.kill b).addBlk (Store.zeroBlk zero c n)) (t' := { s.temp with p := some h.next, sz := n, capacity := c, allocated := true })
        (c := c) (f := (Store.zeroBlk zero c n).cell) (by simpa using X.sched) (by simp)
        (by simp [Store.zeroBlk])
        (fun r hr hq => by
          rw [addBlk_lt _ _ (by simpa using hr), kill_ne]
          intro e; subst e; exact hq T.p)
        (fun r hr => by
          rw [T.p] at hr; simp only [Option.some.injEq] at hr; subst hr
          rw [addBlk_lt _ _ (by simpa using T.lt)]; simp) rfl rfl (le_refl _)
        (by simp only []; omega)
      refine ⟨_, _, h.next, e, X', ?_, rfl, hc1, fun q hq => ?_⟩
      · rcases X'.t with ⟨t, _⟩ | ⟨b, T⟩
        · exact absurd t (by simp)
        · obtain rfl : h.next = b := by simpa using T.p
          exact T
      · rw [addBlk_lt _ _ (by simpa using dlt q hq), kill_ne]
        intro e; subst e; exact X.ne _ hq T.p

theorem loopX_store {h : Heap V} {s : SVec} {b n : Nat} {g : Heap V × SVec → Nat → Out V}
    {f : Nat → V} (h1 : (h.blk b).live = true) (h2 : n ≤ (h.blk b).len)
    (hg : ∀ i, i < n → ∀ cells, g (h.setCells b cells, s) i = .ok (f i)) :
    M.forN n (fun i => do
        let v ← M.reads (fun st => g st i)
        heapM (Heap.store (some b) i v)) (h, s)
      = (.ok (), (h.setCells b (fun j => if j < n then some (f j) else (h.blk b).cell j), s)) := by
  induction n with
  | zero => simp
  | succ n ih =>
    rw [M.forN_succ, M.bind_ok (ih (by omega) (fun i hi => hg i (by omega)))]
    rw [M.bind_ok (s' := (h.setCells b
      (fun j => if j < n then some (f j) else (h.blk b).cell j), s)) (a := f n)
      (by rw [M.reads_apply, hg n (by omega)])]
    rw [heapM_apply, store_some (by simpa using h1) (by simp only [setCells_len]; omega)]
    simp only [setCells_cell, setCells_setCells]
    congr 3; funext j
    rcases Nat.lt_trichotomy j n with hj | hj | hj
    · simp [hj, show j ≠ n by omega, show j < n + 1 by omega]
    · simp [hj]
    · simp [show ¬ j < n by omega, show j ≠ n by omega, show ¬ j < n + 1 by omega]

theorem loopX_const {h : Heap V} {s : SVec} {b n k : Nat} {v : V} (h1 : (h.blk b).live = true)
    (h2 : n + k ≤ (h.blk b).len) :
    M.forN k (fun i => heapM (Heap.store (some b) (n + i) v)) (h, s)
      = (.ok (), (h.setCells b
          (fun j => if n ≤ j ∧ j < n + k then some v else (h.blk b).cell j), s)) := by
  induction k with
  | zero =>
    have : ∀ j, ¬ (n ≤ j ∧ j < n + 0) := by omega
    simp only [M.forN_zero, M.pure_apply, if_neg (this _)]
    rw [setCells_self]
  | succ k ih =>
    rw [M.forN_succ, M.bind_ok (ih (by omega))]
    rw [heapM_apply, store_some (by simpa using h1) (by simp only [setCells_len]; omega)]
    simp only [setCells_cell, setCells_setCells]
    congr 3; funext j
    by_cases hj : j = n + k
    · rw [if_pos hj, if_pos (by omega)]
    · rw [if_neg hj]
      by_cases hj2 : n ≤ j ∧ j < n + k
      · rw [if_pos hj2, if_pos (by omega)]
      · rw [if_neg hj2, if_neg (by omega)]

theorem DMem.load {h0 h : Heap V} {d : Sexp} {q : Nat} {l : List V} (D : DMem h0 h d q) (S : XShows h d l) {i : Nat} (hi : i < l.length) :
    h.load d.p i = .ok l[i] := by
  rw [D.p]
  have h1 := D.szc
  have h2 := D.cap
  have h3 := S.sz
  exact load_some D.live (by omega) (S.cell q D.p i hi)

theorem DMem.sees {h0 h : Heap V} {d : Sexp} {q : Nat} {l : List V} (D : DMem h0 h d q) (S : XShows h d l) : Sees h d q l := by
  have h1 := D.szc
  have h2 := D.cap
  have h3 := S.sz
  exact ⟨D.p, S.sz, D.live, by omega, S.cell q D.p⟩

/-- The old memory is released, if there is any. -/
def drop (h : Heap V) : Ptr → Heap V
  | none => h
  | some q => h.kill q

theorem XMem.lt {h0 h : Heap V} {s : SVec} (X : XMem h0 h s) {q : Nat} (hq : s.d.p = some q) : q < h.next := by
  rcases X.d with N | ⟨q', D⟩
  · rw [N.p] at hq; exact absurd hq (by simp)
  · rw [D.p] at hq; simp only [Option.some.injEq] at hq; subst hq; exact D.lt

/-- `push_back` appends an element. -/
theorem XMem.push {zero v : V} {h0 h : Heap V} {s : SVec} {l : List V} (X : XMem h0 h s) (S : XShows h s.d l) (hl : l.length < 2 ^ 29) :
    ∃ h' d', Sexp.pushBack zero v (h, s) = (.ok (), (h', { s with d := d' })) ∧ XMem h0 h' { s with d := d' } ∧ XShows h' d' (l ++ [v]) ∧
      d'.mp = s.d.mp := by
  have hsz := S.sz
  by_cases hcap : s.d.sz = s.d.capacity
  · -- new memory
    obtain ⟨N, hN⟩ : ∃ N, N = (if s.d.sz = 0 then 1 else s.d.sz * 2) := ⟨_, rfl⟩
    have hN1 : s.d.sz < N := by rw [hN]; split <;> omega
    have hN2 : N ≤ 2 ^ 30 := by rw [hN]; split <;> omega
    obtain ⟨c, ec, _, hc1, hc2⟩ := capOfI32_spec (n := N) (by omega)
    obtain ⟨g, hg⟩ : ∃ g : Nat → V, ∀ i (hi : i < l.length), g i = l[i] :=
      ⟨fun i => (l[i]?).getD zero, fun i hi => by simp [hi]⟩
    have eloop : M.forN s.d.sz (fun i => do
        let v ← M.reads (fun st => st.1.load s.d.p i)
        heapM (Heap.store (some h.next) i v)) (h.addBlk ⟨c, fun _ => none, true, true⟩, { s with d := { s.d with capacity := c } })
        = (.ok (), (h.addBlk ⟨c, fun j => if j < s.d.sz then some (g j) else none, true, true⟩, { s with d := { s.d with capacity := c } })) := by
      rw [loopX_store (f := g) (by simp) (by simp; omega)]
      · simp
      · intro i hi cells
        rcases X.d with M | ⟨q, D⟩
        · rw [M.sz] at hi; omega
        · have e : ((h.addBlk ⟨c, fun _ => none, true, true⟩).setCells h.next cells).blk q = h.blk q := by
            rw [setCells_ne _ _ (by have := D.lt; omega), addBlk_lt _ _ D.lt]
          have h1 := D.szc
          have h2 := D.cap
          simp only [D.p]
          rw [load_some (v := l[i]'(by omega)) (by rw [e]; exact D.live) (by rw [e]; omega) (by rw [e]; exact S.cell q D.p i (by omega)), hg i (by omega)]
    have edel : Heap.delete s.d.p (h.addBlk ⟨c, fun j => if s.d.sz ≤ j ∧ j < s.d.sz + (N - s.d.sz) then some zero else
          if j < s.d.sz then some (g j) else none, true, true⟩)
        = (.ok (), drop (h.addBlk ⟨c, fun j => if s.d.sz ≤ j ∧ j < s.d.sz + (N - s.d.sz) then some zero else
          if j < s.d.sz then some (g j) else none, true, true⟩) s.d.p) := by
      rcases X.d with M | ⟨q, D⟩
      · rw [M.p]; rfl
      · rw [D.p, delete_some (by rw [addBlk_lt _ _ D.lt]; exact D.newed) (by rw [addBlk_lt _ _ D.lt]; exact D.live)]; rfl
    have er : Sexp.realloc zero N (h, s) = (.ok (), (drop (h.addBlk ⟨c, fun j => if s.d.sz ≤ j ∧ j < s.d.sz + (N - s.d.sz) then some zero else
          if j < s.d.sz then some (g j) else none, true, true⟩) s.d.p,
          { s with d := { s.d with p := some h.next, capacity := c, allocated := true, todelete := true, sz := N } })) := by
      unfold Sexp.realloc
      rw [M.bind_ok (m := self) (self_apply _)]
      dsimp only
      rw [if_neg (by omega), M.bind_ok (a := c) (by rw [M.lift_apply, ec]), M.bind_ok (upd_apply _ _), M.bind_ok (by
        rw [heapM_apply, new_ok X.sched (show c < 2 ^ 60 by omega)]), M.bind_ok eloop, M.bind_ok (loopX_const (by simp) (by simp; omega))]
      rw [M.bind_ok (upd_apply _ _), M.bind_ok (a := ()) (by rw [heapM_apply, addBlk_same, addBlk_setCells, edel])]
      rfl
    obtain ⟨H, hH⟩ : ∃ H, H = drop (h.addBlk ⟨c, fun j => if s.d.sz ≤ j ∧ j < s.d.sz + (N - s.d.sz) then some zero else
          if j < s.d.sz then some (g j) else none, true, true⟩) s.d.p := ⟨_, rfl⟩
    rw [← hH] at er
    have hne : s.d.p ≠ some h.next := fun e => by have := X.lt e; omega
    have Hnew : H.blk h.next = ⟨c, fun j => if s.d.sz ≤ j ∧ j < s.d.sz + (N - s.d.sz) then some zero else
          if j < s.d.sz then some (g j) else none, true, true⟩ := by
      rw [hH]
      cases hp : s.d.p with
      | none => simp [drop]
      | some q =>
        simp only [drop]
        rw [kill_ne _ (by intro e; rw [hp, e] at hne; exact hne rfl), addBlk_same]
    have Hold : ∀ b, b < h.next → s.d.p ≠ some b → H.blk b = h.blk b := by
      intro b hb hq
      rw [hH]
      cases hp : s.d.p with
      | none => exact addBlk_lt _ _ hb
      | some q =>
        simp only [drop]
        rw [kill_ne _ (by intro e; rw [hp, e] at hq; exact hq rfl), addBlk_lt _ _ hb]
    have Hdead : ∀ q, s.d.p = some q → (H.blk q).live = false := by
      intro q hq
      rw [hH, hq]
      simp [drop]
    have Hnx : H.next = h.next + 1 := by rw [hH]; cases s.d.p <;> rfl
    have Hs : H.sched = [] := by rw [hH]; cases s.d.p <;> exact X.sched
    refine ⟨H.setCells h.next (fun j => if j = s.d.sz then some v else (H.blk h.next).cell j),
      { s.d with p := some h.next, capacity := N, allocated := true, todelete := true, sz := s.d.sz + 1 }, ?_, ?_, ?_, rfl⟩
    · unfold Sexp.pushBack
      rw [M.bind_ok (m := self) (self_apply _)]
      dsimp only
      rw [if_pos hcap, ← hN, M.bind_ok er, M.bind_ok (upd_apply _ _), M.bind_ok (m := self) (self_apply _), M.bind_ok (a := ()) (by
        rw [heapM_apply, store_some (by rw [Hnew]) (by rw [Hnew]; simp only []; omega)])]
      rfl
    · exact X.replaceD (c := c) (f := fun j => if j = s.d.sz then some v else (H.blk h.next).cell j) (by simpa using Hs) (by simpa using Hnx)
        (by simp [setCells, Hnew]) (fun b hb hq => by rw [setCells_ne _ _ (by omega)]; exact Hold b hb hq)
        (fun q hq => by rw [setCells_live]; exact Hdead q hq) rfl rfl rfl (by simp) (by simp only []; omega) (by simp only []; omega) (by simp only []; omega)
    · refine ⟨by simp [hsz], fun q hq i hi => ?_⟩
      simp only [Option.some.injEq] at hq
      subst hq
      simp only [setCells_cell]
      simp only [List.length_append, List.length_cons, List.length_nil] at hi
      by_cases he : i = s.d.sz
      · rw [if_pos he]; simp [List.getElem_append, show ¬ i < l.length by omega]
      · rw [if_neg he, Hnew]
        dsimp only
        rw [if_neg (by omega), if_pos (by omega), hg i (by omega), List.getElem_append_left (by omega)]
  · rcases X.d with M | ⟨q, D⟩
    · exact absurd (by rw [M.sz, M.cap]) hcap
    · have h1 := D.szc
      have h2 := D.cap
      refine ⟨h.setCells q (fun j => if j = s.d.sz then some v else (h.blk q).cell j), { s.d with sz := s.d.sz + 1 }, ?_, ?_, ?_, rfl⟩
      · unfold Sexp.pushBack
        rw [M.bind_ok (m := self) (self_apply _)]
        dsimp only
        rw [if_neg hcap, if_pos (by omega), M.bind_ok (a := ()) (by rw [heapM_apply, D.p, store_some D.live (by omega)])]
        rfl
      · exact X.setD (mp := s.d.mp) D (by omega) (by omega)
      · refine ⟨by simp [hsz], fun r hr i hi => ?_⟩
        simp only [D.p, Option.some.injEq] at hr
        subst hr
        simp only [setCells_cell]
        simp only [List.length_append, List.length_cons, List.length_nil] at hi
        by_cases he : i = s.d.sz
        · rw [if_pos he]; simp [List.getElem_append, show ¬ i < l.length by omega]
        · rw [if_neg he, S.cell q D.p i (by omega), List.getElem_append_left (by omega)]

/-- Other vectors, which live in the memory that existed before. -/
structure Others (h0 : Heap V) (os : List Sexp) (ls : List (OwnVal V)) : Prop where
  len : os.length = ls.length
  sees : ∀ i (hi : i < ls.length), ∃ q, q < h0.next ∧ Sees h0 (os.getD i {}) q ls[i].1
  dims : ∀ i (hi : i < ls.length), dimMP (os.getD i {}).mp = ls[i].2

theorem Others.agrees {h0 h : Heap V} {os : List Sexp} {ls : List (OwnVal V)} {s : SVec} {l : List V} (O : Others h0 os ls)
    (X : XMem h0 h s) (S : XShows h s.d l) : Agrees (envWith os h s.d) (ownVals l ls) := by
  intro x l' hl
  cases x with
  | zero =>
    simp only [ownVals, Option.some.injEq] at hl
    subst hl
    refine ⟨S.sz, fun i hi => ?_⟩
    rcases X.d with N | ⟨q, D⟩
    · have := S.sz; rw [N.sz] at this; omega
    · exact (D.sees S).get hi
  | succ i =>
    simp only [ownVals, Option.map_eq_some_iff] at hl
    obtain ⟨a, ha, rfl⟩ := hl
    obtain ⟨hi, rfl⟩ := List.getElem?_eq_some_iff.mp ha
    obtain ⟨q, hq, Q⟩ := O.sees i hi
    have Q' : Sees h (os.getD i {}) q ls[i].1 := Q.frame (X.old q hq)
    exact ⟨Q'.sz, fun j hj => Q'.get hj⟩

theorem Others.dimsOf {h0 : Heap V} {os : List Sexp} {ls : List (OwnVal V)} (O : Others h0 os ls) (h : Heap V) (d : Sexp) :
    (fun x => dimMP ((envWith os h d).mp x)) = ownDims (dimMP d.mp) ls := by
  funext x
  cases x with
  | zero => rfl
  | succ i =>
    simp only [envWith, ownDims]
    by_cases hi : i < ls.length
    · rw [O.dims i hi, List.getElem?_eq_getElem hi]
    · have : os[i]? = none := List.getElem?_eq_none (by rw [O.len]; omega)
      rw [List.getElem?_eq_none (by omega), List.getD_eq_getElem?_getD, this]
      rfl

theorem Others.agreesX {h0 h : Heap V} {os : List Sexp} {ls : List (OwnVal V)} {s : SVec} {l : List V} (O : Others h0 os ls)
    (X : XMem h0 h s) (S : XShows h s.d l) : AgreesX (envWith os h s.d) (ownVals l ls) := by
  have far : ∀ {h : Heap V} {d : Sexp} {q : Nat} {l : List V} {i : Nat}, Sees h d q l → l.length ≤ i → d.get h i = .thr beyond := by
    intro h d q l i Q hi
    unfold Sexp.get checkIdx
    rw [Out.ass_pos (by rw [Q.p]; simp), Out.ok_bind, Out.ass_neg (by rw [Q.sz]; omega)]
    rfl
  refine ⟨O.agrees X S, fun x l' hl hne i hi => ?_⟩
  cases x with
  | zero =>
    simp only [ownVals, Option.some.injEq] at hl
    subst hl
    rcases X.d with N | ⟨q, D⟩
    · have h1 := S.sz
      rw [N.sz] at h1
      exact absurd (List.length_eq_zero_iff.mp h1.symm) hne
    · exact far (D.sees S) hi
  | succ j =>
    simp only [ownVals, Option.map_eq_some_iff] at hl
    obtain ⟨a, ha, rfl⟩ := hl
    obtain ⟨hj, rfl⟩ := List.getElem?_eq_some_iff.mp ha
    obtain ⟨q, hq, Q⟩ := O.sees j hj
    exact far (Q.frame (X.old q hq) : Sees h (os.getD j {}) q ls[j].1) hi

/-- The loop that fills `temp`, up to a position before which all elements of the expression have values. -/
theorem XMem.fillTempUp {h0 h : Heap V} {s : SVec} {os : List Sexp} {l l' : List V} {e : Expr V} {b : Nat}
    (X : XMem h0 h s) (S : XShows h s.d l) (T : TMem h0 h s.temp b) (hz : l'.length ≤ s.temp.sz)
    (hn : l'.length ≤ s.temp.capacity) (he : ∀ h', XMem h0 h' s → XShows h' s.d l → ∀ i (hi : i < l'.length),
      e.el (envWith os h' s.d) i = .ok l'[i]) :
    M.forN l'.length (fun i => do
      let v ← M.reads (fun st => e.el (envWith os st.1 st.2.d) i)
      tempM (Store.set i v)) (h, s)
    = (.ok (), (h.setCells b (fun j => if j < l'.length then l'[j]? else (h.blk b).cell j), s)) := by
  have key : ∀ n, n ≤ l'.length → M.forN n (fun i => do
      let v ← M.reads (fun st => e.el (envWith os st.1 st.2.d) i)
      tempM (Store.set i v)) (h, s)
    = (.ok (), (h.setCells b (fun j => if j < n then l'[j]? else (h.blk b).cell j), s)) := by
    intro n
    induction n with
    | zero => intro _; simp
    | succ n ih =>
      intro hnl
      have X' : XMem h0 (h.setCells b (fun j => if j < n then l'[j]? else (h.blk b).cell j)) s := X.setT (n := s.temp.sz) T
      have S' : XShows (h.setCells b (fun j => if j < n then l'[j]? else (h.blk b).cell j)) s.d l :=
        ⟨S.sz, fun q hq i hi => by
          rw [setCells_ne _ _ (by intro e; subst e; exact X.ne _ hq T.p)]; exact S.cell q hq i hi⟩
      have hel := he _ X' S'
      rw [M.forN_succ, M.bind_ok (ih (by omega)), M.bind_ok (a := l'[n]) (s' := (h.setCells b (fun j => if j < n then l'[j]? else (h.blk b).cell j), s)) (by
        rw [M.reads_apply, hel n (by omega)])]
      have es : Store.set n l'[n] (h.setCells b (fun j => if j < n then l'[j]? else (h.blk b).cell j), s.temp)
          = (.ok (), (h.setCells b (fun j => if j < n + 1 then l'[j]? else (h.blk b).cell j), s.temp)) := by
        have hcap := T.cap
        unfold Store.set
        rw [M.bind_ok (m := Store.self) (Store.self_apply _), M.bind_ok (a := ()) (s' := (h.setCells b (fun j => if j < n then l'[j]? else (h.blk b).cell j), s.temp)) (by
          rw [M.lift_apply]; simp [Store.checkIdx, T.al, show n < s.temp.sz by omega])]
        rw [Store.heapM_apply, T.p, store_some (by simpa using T.live) (by simp only [setCells_len]; omega)]
        simp only [setCells_cell, setCells_setCells]
        congr 3
        funext j
        rcases Nat.lt_trichotomy j n with hj | hj | hj
        · simp [hj, show j ≠ n by omega, show j < n + 1 by omega]
        · subst hj; simp [show j < l'.length by omega]
        · simp [show ¬ j < n by omega, show j ≠ n by omega, show ¬ j < n + 1 by omega]
      exact tempM_ok es
  exact key _ (le_refl _)

/-- The loop that fills `temp`. -/
theorem XMem.fillTemp {h0 h : Heap V} {s : SVec} {os : List Sexp} {ls : List (OwnVal V)} {l l' : List V} {e : Expr V} {b : Nat}
    (O : Others h0 os ls) (X : XMem h0 h s) (S : XShows h s.d l) (T : TMem h0 h s.temp b) (hz : s.temp.sz = l'.length)
    (hn : l'.length ≤ s.temp.capacity) (he : eval (ownVals l ls) e = some l') :
    M.forN l'.length (fun i => do
      let v ← M.reads (fun st => e.el (envWith os st.1 st.2.d) i)
      tempM (Store.set i v)) (h, s)
    = (.ok (), (h.setCells b (fun j => if j < l'.length then l'[j]? else (h.blk b).cell j), s)) :=
  X.fillTempUp S T (by omega) hn (fun h' X' S' => (eval_sound (O.agrees X' S') e he).2.2)

/-- `x = e` for an expression that throws: the vector is as before. -/
theorem XMem.assign_throws {zero : V} {h0 h : Heap V} {s : SVec} {os : List Sexp} {ls : List (OwnVal V)} {l : List V} {e : Expr V}
    {D : List (Out V)} {m : String} (O : Others h0 os ls) (X : XMem h0 h s) (S : XShows h s.d l)
    (he : cellsOf (ownVals l ls) e = some D) (hm : failure D = some m) (hl : D.length ≤ 2 ^ 30) :
    ∃ h' s', Sexp.assignBy zero (envWith os) e (h, s) = (.thr m, (h', s')) ∧ XMem h0 h' s' ∧ XShows h' s'.d l ∧ s'.d.mp = s.d.mp := by
  obtain ⟨hne, hsz, _⟩ := cells_sound (O.agreesX X S) e he
  have hpos := List.length_pos_iff.mpr hne
  obtain ⟨L, hn, g1, g2⟩ := Mach.failure_get hm
  obtain ⟨h1, t1, b, er, X1, T1, tz, tc, fr⟩ := X.tempResize (zero := zero) (n := D.length) hpos hl
  have S1 : XShows h1 s.d l := ⟨S.sz, fun q hq i hi => by rw [fr q hq]; exact S.cell q hq i hi⟩
  have ef := X1.fillTempUp (os := os) (l' := L) (e := e) S1 T1 (by simp only [tz]; omega) (by simp only []; omega) (fun h' X' S' i hi => by
    rw [(cells_sound (O.agreesX X' S') e he).2.2 i (by omega)]
    exact g1 i hi)
  have X2 : XMem h0 (h1.setCells b (fun j => if j < L.length then L[j]? else (h1.blk b).cell j)) { s with temp := t1 } :=
    X1.setT (n := t1.sz) T1
  have S2 : XShows (h1.setCells b (fun j => if j < L.length then L[j]? else (h1.blk b).cell j)) s.d l :=
    ⟨S1.sz, fun q hq i hi => by
      rw [setCells_ne _ _ (by intro e; subst e; exact X1.ne _ hq T1.p)]; exact S1.cell q hq i hi⟩
  refine ⟨_, _, ?_, X2, S2, rfl⟩
  have e0 : (M.reads (fun st : Heap V × SVec => Out.ok (e.size (envWith os st.1 st.2.d)))) (h, s) = (.ok D.length, (h, s)) := by
    rw [M.reads_apply, hsz]
  unfold Sexp.assignBy
  rw [M.bind_ok e0, M.bind_ok (tempM_ok (s := s) er)]
  refine M.bind_thr (Mach.forN_thr ef ?_ _ hn)
  refine M.bind_thr ?_
  rw [M.reads_apply, (cells_sound (O.agreesX X2 S2) e he).2.2 _ hn, g2]

theorem dimMP_some (r c : Nat) : dimMP ⟨true, r, c⟩ = some (r, c) := by simp [dimMP]

/-- `x = e`: the vector shows the value of the expression and has its dimensions, if it has any. -/
theorem XMem.assign {zero : V} {h0 h : Heap V} {s : SVec} {os : List Sexp} {ls : List (OwnVal V)} {l l' : List V} {e : Expr V}
    (O : Others h0 os ls) (X : XMem h0 h s) (S : XShows h s.d l) (he : eval (ownVals l ls) e = some l') (hl : l'.length ≤ 2 ^ 30) :
    ∃ h' s', Sexp.assignBy zero (envWith os) e (h, s) = (.ok (), (h', s')) ∧ XMem h0 h' s' ∧ XShows h' s'.d l' ∧
      dimMP s'.d.mp = (Spec.dimsOf (ownDims (dimMP s.d.mp) ls) e).or (dimMP s.d.mp) := by
  obtain ⟨hne, hsz, _⟩ := eval_sound (O.agrees X S) e he
  have hpos := List.length_pos_iff.mpr hne
  obtain ⟨h1, t1, b, er, X1, T1, tz, tc, fr⟩ := X.tempResize (zero := zero) (n := l'.length) hpos hl
  have S1 : XShows h1 s.d l := ⟨S.sz, fun q hq i hi => by rw [fr q hq]; exact S.cell q hq i hi⟩
  have ef := X1.fillTemp O S1 T1 tz tc he
  obtain ⟨h2, hh2⟩ : ∃ h2, h2 = h1.setCells b (fun j => if j < l'.length then l'[j]? else (h1.blk b).cell j) := ⟨_, rfl⟩
  rw [← hh2] at ef
  have X2 : XMem h0 h2 { s with temp := t1 } := by rw [hh2]; exact X1.setT (n := t1.sz) T1
  have T2 : TMem h0 h2 t1 b := by
    rw [hh2]
    exact ⟨T1.p, T1.al, T1.ge, by simpa using T1.lt, by simpa using T1.live, by simpa using T1.newed, by simpa using T1.cap, T1.c31⟩
  have C2 : ∀ i (hi : i < l'.length), (h2.blk b).cell i = some l'[i] := by
    intro i hi
    rw [hh2, setCells_cell, if_pos hi, List.getElem?_eq_getElem hi]
  -- memory of the vector itself
  obtain ⟨h3, d3, e3, X3, D3, mp3, fr3⟩ : ∃ h3 d3, (if l'.length > s.d.sz then Sexp.resize zero l'.length else pure ()) (h2, { s with temp := t1 })
      = (.ok (), (h3, { d := d3, temp := t1 })) ∧ XMem h0 h3 { d := d3, temp := t1 } ∧ (∃ q, DMem h0 h3 d3 q) ∧ d3.mp = s.d.mp ∧
      h3.blk b = h2.blk b := by
    by_cases hg : l'.length > s.d.sz
    · rw [if_pos hg]
      obtain ⟨h3, d3, e3, X3, D3, _, mp3, fr3, _⟩ := X2.resize (zero := zero) (n := l'.length) hpos hl
      exact ⟨h3, d3, e3, X3, D3, mp3, fr3 b T2.p⟩
    · rw [if_neg hg]
      refine ⟨h2, s.d, rfl, X2, ?_, rfl, rfl⟩
      rcases X2.d with N | D
      · have := N.sz; simp only at this; omega
      · exact D
  have T3 : TMem h0 h3 t1 b := by
    rcases X3.t with ⟨t, _⟩ | ⟨b', T⟩
    · exact absurd T2.p (by simp only at t; rw [t]; simp)
    · have : b' = b := by have := T.p; simp only [T2.p, Option.some.injEq] at this; exact this.symm
      rw [this] at T; exact T
  obtain ⟨q, D3⟩ := D3
  obtain ⟨s4, e4, X4, p4, z4, mp4⟩ := X3.swap D3 T3 (by simp only [tz]; exact hpos) (by simp only [tz]; exact tc)
  have em : moveit zero (h3, { d := d3, temp := t1 }) = (.ok (), (h3, s4)) := by
    unfold moveit
    rw [M.bind_ok (m := self) (self_apply _), if_neg (by simp [D3.td]), e4]
  have S4 : XShows h3 s4.d l' := by
    refine ⟨by rw [z4]; exact tz, fun r hr i hi => ?_⟩
    rw [p4] at hr
    simp only [Option.some.injEq] at hr
    subst hr
    rw [fr3]; exact C2 i hi
  obtain ⟨A1, A2⟩ := Mach.dims_agree (envWith os h3 s4.d) e
  rw [O.dimsOf] at A1 A2
  have hmp : s4.d.mp = s.d.mp := by rw [mp4]; exact mp3
  rw [hmp] at A1 A2
  have e0 : (M.reads (fun st : Heap V × SVec => Out.ok (e.size (envWith os st.1 st.2.d)))) (h, s) = (.ok l'.length, (h, s)) := by
    rw [M.reads_apply, hsz]
  have pre : ∀ s5, (if e.im (envWith os h3 s4.d) then (do
        let r ← M.lift (e.nr (envWith os h3 s4.d))
        let c ← M.lift (e.nc (envWith os h3 s4.d))
        upd (fun s => { s with mp := ⟨true, r, c⟩ }) : XM V Unit) else pure ()) (h3, s4) = (.ok (), (h3, s5)) →
      Sexp.assignBy zero (envWith os) e (h, s) = (.ok (), (h3, s5)) := by
    intro s5 h5
    unfold Sexp.assignBy
    rw [M.bind_ok e0, M.bind_ok (tempM_ok (s := s) er), M.bind_ok ef, M.bind_ok (m := self) (self_apply _)]
    dsimp only
    split
    · rename_i hg
      rw [if_pos hg] at e3
      rw [M.bind_ok e3, M.bind_ok em, M.bind_ok (M.get_apply _)]
      exact h5
    · rename_i hg
      rw [if_neg hg] at e3
      have e3' : (h2, ({ s with temp := t1 } : SVec)) = (h3, { d := d3, temp := t1 }) := (Prod.mk.inj e3).2
      rw [e3', M.bind_ok em, M.bind_ok (M.get_apply _)]
      exact h5
  cases hd : Spec.dimsOf (ownDims (dimMP s.d.mp) ls) e with
  | none =>
    rw [hd] at A1
    refine ⟨h3, s4, pre s4 ?_, X4, S4, by rw [hmp]; rfl⟩
    rw [if_neg (by rw [A1]; simp)]
    rfl
  | some dm =>
    obtain ⟨n1, n2⟩ := A2 dm hd
    refine ⟨h3, { s4 with d := { s4.d with mp := ⟨true, dm.1, dm.2⟩ } }, pre _ ?_, X4.setMP _, ⟨S4.sz, S4.cell⟩, ?_⟩
    · rw [if_pos (A1.mpr (by rw [hd]; rfl)), n1, n2]
      rfl
    · simp only [dimMP_some]
      rfl

theorem drop_ne (h : Heap V) {p : Ptr} {c : Nat} (hp : p ≠ some c) : (drop h p).blk c = h.blk c := by
  cases p with
  | none => rfl
  | some q => exact kill_ne _ (by intro e; subst e; exact hp rfl)
theorem drop_dead (h : Heap V) {p : Ptr} {c : Nat} (hp : p = some c) : ((drop h p).blk c).live = false := by
  subst hp
  simp [drop]
theorem drop_next (h : Heap V) (p : Ptr) : (drop h p).next = h.next := by cases p <;> rfl
theorem drop_sched (h : Heap V) (p : Ptr) : (drop h p).sched = h.sched := by cases p <;> rfl

/-- Destruction of the buffer `temp`. -/
theorem dropTemp {h0 h : Heap V} {t : Store} (ht : (t.p = none ∧ t.allocated = false) ∨ ∃ b, TMem h0 h t b) :
    ∃ t', Store.dtor (h, t) = (.ok (), (drop h t.p, t')) := by
  rcases ht with ⟨e, _⟩ | ⟨b, T⟩
  · exact ⟨_, by rw [Store.dtor_none e, e]; rfl⟩
  · have own : Store.Own h t := ⟨fun r hr => by
      rw [T.p] at hr; simp only [Option.some.injEq] at hr; subst hr; exact ⟨T.lt, T.live, T.newed, T.cap, T.al⟩, fun e => absurd T.p (by rw [e]; simp)⟩
    exact ⟨_, by rw [Store.dtor_some own T.p, T.p]; rfl⟩

/-- Destruction of a vector with its own memory. -/
theorem destroy_own {h0 h : Heap V} {s : SVec} (hd : DNone s.d ∨ ∃ q, DMem h0 h s.d q)
    (ht : (s.temp.p = none ∧ s.temp.allocated = false) ∨ ∃ b, TMem h0 h s.temp b) (ne : ∀ q, s.d.p = some q → s.temp.p ≠ some q) :
    ∃ s', Sexp.destroy (h, s) = (.ok (), (drop (drop h s.temp.p) s.d.p, s')) := by
  obtain ⟨t', et⟩ := dropTemp ht
  have cd : ∃ s', Sexp.dtor (drop h s.temp.p, { s with temp := t' }) = (.ok (), (drop (drop h s.temp.p) s.d.p, s')) := by
    unfold Sexp.dtor
    rw [M.bind_ok (m := self) (self_apply _)]
    dsimp only
    rcases hd with N | ⟨q, D⟩
    · rw [if_neg (by simp [N.td]), N.p]; exact ⟨_, rfl⟩
    · have e : (drop h s.temp.p).blk q = h.blk q := drop_ne _ (ne q D.p)
      rw [if_pos (by simp [D.td]), M.bind_ok (a := ()) (by
        rw [heapM_apply, D.p, delete_some (by rw [e]; exact D.newed) (by rw [e]; exact D.live)])]
      exact ⟨_, by rw [D.p]; rfl⟩
  obtain ⟨s', ed⟩ := cd
  refine ⟨s', ?_⟩
  unfold Sexp.destroy
  rw [M.bind_ok (tempM_ok (s := s) et), ed]

theorem XMem.d_ge {h0 h : Heap V} {s : SVec} (X : XMem h0 h s) {c : Nat} (e : s.d.p = some c) : h0.next ≤ c := by
  rcases X.d with N | ⟨q, D⟩
  · rw [N.p] at e; exact absurd e (by simp)
  · have := D.ge; rw [D.p] at e; simp only [Option.some.injEq] at e; omega

theorem XMem.t_ge {h0 h : Heap V} {s : SVec} (X : XMem h0 h s) {c : Nat} (e : s.temp.p = some c) : h0.next ≤ c := by
  rcases X.t with ⟨t, _⟩ | ⟨b, T⟩
  · rw [t] at e; exact absurd e (by simp)
  · have := T.ge; rw [T.p] at e; simp only [Option.some.injEq] at e; omega

/-- Destruction gives back all memory. -/
theorem XMem.destroy {h0 h : Heap V} {s : SVec} (X : XMem h0 h s) :
    ∃ h' s', Sexp.destroy (h, s) = (.ok (), (h', s')) ∧ (∀ c, c < h0.next → h'.blk c = h0.blk c) ∧
      (∀ c, h0.next ≤ c → c < h'.next → (h'.blk c).live = false) := by
  obtain ⟨s', ed⟩ := destroy_own X.d X.t X.ne
  refine ⟨_, s', ed, fun c hc => ?_, fun c c1 c2 => ?_⟩
  · rw [drop_ne _ (fun e => by have := X.d_ge e; omega), drop_ne _ (fun e => by have := X.t_ge e; omega)]
    exact X.old c hc
  · by_cases hd : s.d.p = some c
    · exact drop_dead _ hd
    · rw [drop_ne _ hd]
      by_cases ht : s.temp.p = some c
      · exact drop_dead _ ht
      · rw [drop_ne _ ht]
        cases hl : (h.blk c).live with
        | false => rfl
        | true =>
          rw [drop_next, drop_next] at c2
          rcases X.rest c c1 c2 hl with e | e
          · exact absurd e hd
          · exact absurd e ht

end Sexp
end ETR
