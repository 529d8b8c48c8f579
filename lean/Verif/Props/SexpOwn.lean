import Verif.Lemmas.SexpOwn

/-! C93: vectors of the R-borrowing kind that have memory of their own, copies of R objects, and binding to an R object. -/

namespace ETR
namespace Sexp
open Heap Spec
variable {V : Type}

/-- Run an operation; `os` are other vectors of the same kind. -/
def ownOp (zero : V) (os : List Sexp) : OwnOp V → XM V Unit
  | .push v => pushBack zero v
  | .write i v => Sexp.set i v
  | .number v => assignScalar zero v
  | .fill v => fillScalar v
  | .resize n => Sexp.resize zero n
  | .assign e => assignBy zero (envWith os) e

/-- Run operations one after the other, catching exceptions; the result says which of them threw. -/
def runOwn (zero : V) (os : List Sexp) : List (OwnOp V) → XM V (List Bool)
  | [] => pure []
  | o :: ops => fun st => match ownOp zero os o st with
    | (.ub k, st') => (.ub k, st')
    | (.ok _, st') => match runOwn zero os ops st' with
      | (.ok bs, st'') => (.ok (false :: bs), st'')
      | r => r
    | (.thr _, st') => match runOwn zero os ops st' with
      | (.ok bs, st'') => (.ok (true :: bs), st'')
      | r => r

/-- The vector has its own memory, the elements and the dimensions `a`. -/
structure XVal (h0 h : Heap V) (s : SVec) (a : OwnVal V) : Prop where
  mem : XMem h0 h s
  val : XShows h s.d a.1
  dim : dimMP s.d.mp = a.2

theorem ownOp_step {zero : V} {h0 h : Heap V} {s : SVec} {os : List Sexp} {ls : List (OwnVal V)} {a : OwnVal V} (O : Others h0 os ls)
    (X : XVal h0 h s a) (o : OwnOp V) (hf : o.Fits ls a) :
    ∃ h' s', XVal h0 h' s' ((o.spec zero ls a).getD a) ∧
      match o.spec zero ls a with
      | some _ => ownOp zero os o (h, s) = (.ok (), (h', s'))
      | none => ∃ m, ownOp zero os o (h, s) = (.thr m, (h', s')) := by
  obtain ⟨l, dm⟩ := a
  obtain ⟨X, S, hd⟩ := X
  simp only at S hd
  have hsz := S.sz
  cases o with
  | push v =>
    obtain ⟨h', d', e, X', S', mp'⟩ := X.push (zero := zero) (v := v) S hf
    exact ⟨h', { s with d := d' }, ⟨X', S', by simp only [OwnOp.spec, mp', hd]; rfl⟩, e⟩
  | write i v =>
    by_cases hi : i < l.length
    · rcases X.d with N | ⟨q, D⟩
      · rw [N.sz] at hsz; omega
      · have h1 := D.szc
        have h2 := D.cap
        have e := set_ok (h := h) (s := s) (v := v) D.p (i := i) (by omega) D.live (by omega)
        refine ⟨h.setCells q (fun j => if j = i then some v else (h.blk q).cell j), s, ⟨?_, ⟨?_, fun r hr j hj => ?_⟩, ?_⟩, ?_⟩
        · exact X.setD (mp := s.d.mp) (n := s.d.sz) D D.pos D.szc
        · simp [OwnOp.spec, hi, hsz]
        · rw [D.p] at hr
          simp only [Option.some.injEq] at hr
          subst hr
          simp only [OwnOp.spec, hi, if_true, Option.getD_some, List.length_set] at hj ⊢
          rw [setCells_cell, List.getElem_set]
          by_cases hji : j = i
          · subst hji; simp
          · rw [if_neg hji, if_neg (Ne.symm hji)]; exact S.cell q D.p j hj
        · simp [OwnOp.spec, hi, hd]
        · simp only [OwnOp.spec, hi, if_true]
          exact e
    · refine ⟨h, s, ?_, ?_⟩
      · simp only [OwnOp.spec, hi, if_false, Option.getD_none]
        exact ⟨X, S, hd⟩
      · simp only [OwnOp.spec, hi, if_false]
        have : ∃ m, s.d.checkIdx i = .thr m := by
          unfold checkIdx
          by_cases hp : s.d.p = none
          · exact ⟨_, by rw [Out.ass_neg (by simp [hp]), Out.thr_bind]⟩
          · exact ⟨_, by rw [Out.ass_pos (by simpa using hp), Out.ok_bind, Out.ass_neg (by omega)]⟩
        obtain ⟨m, hm⟩ := this
        refine ⟨m, ?_⟩
        show Sexp.set i v (h, s) = _
        unfold Sexp.set
        rw [M.bind_ok (m := self) (self_apply _), M.bind_thr (by rw [M.lift_apply, hm])]
  | number v =>
    obtain ⟨h1, d1, e1, X1, ⟨q, D1⟩, z1, mp1, _, _, _⟩ := X.resize (zero := zero) (n := 1) (le_refl _) (by norm_num)
    have c1 := D1.szc
    have c2 := D1.cap
    have e2 := set_ok (h := h1) (s := { s with d := d1 }) (v := v) D1.p (i := 0) (by simp only [z1]; omega) D1.live (by simp only []; omega)
    refine ⟨h1.setCells q (fun j => if j = 0 then some v else (h1.blk q).cell j), { s with d := d1 }, ⟨X1.setD (mp := d1.mp) (n := d1.sz) D1 D1.pos D1.szc, ⟨?_, fun r hr j hj => ?_⟩, ?_⟩, ?_⟩
    · simp [OwnOp.spec, z1]
    · simp only [D1.p, Option.some.injEq] at hr
      subst hr
      simp only [OwnOp.spec, Option.getD_some, List.length_cons, List.length_nil] at hj
      obtain rfl : j = 0 := by omega
      simp [OwnOp.spec]
    · simp [OwnOp.spec, mp1, hd]
    · simp only [OwnOp.spec]
      show assignScalar zero v (h, s) = _
      unfold assignScalar
      rw [M.bind_ok e1, e2]
  | fill v =>
    rcases X.d with N | ⟨q, D⟩
    · have hl : l = [] := by rw [N.sz] at hsz; exact List.length_eq_zero_iff.mp hsz.symm
      subst hl
      refine ⟨h, s, ⟨X, S, hd⟩, ?_⟩
      simp only [OwnOp.spec]
      show fillScalar v (h, s) = _
      unfold fillScalar
      rw [M.bind_ok (m := self) (self_apply _), heapM_apply]
      simp only [N.sz, fillRange_zero]
    · have h1 := D.szc
      have h2 := D.cap
      have e := fillScalar_some (h := h) (s := s) (v := v) D.p D.live (by omega)
      refine ⟨h.setCells q (fun j => if j < s.d.sz then some v else (h.blk q).cell j), s, ⟨X.setD (mp := s.d.mp) (n := s.d.sz) D D.pos D.szc, ⟨by simp [OwnOp.spec, hsz], fun r hr j hj => ?_⟩, by simp [OwnOp.spec, hd]⟩, e⟩
      rw [D.p] at hr
      simp only [Option.some.injEq] at hr
      subst hr
      simp only [OwnOp.spec, Option.getD_some, List.length_replicate] at hj
      simp [OwnOp.spec, hsz, hj]
  | resize n =>
    obtain ⟨hb, hfit⟩ := hf
    by_cases hn : n = 0
    · subst hn
      refine ⟨h, s, ?_, ?_⟩
      · simp only [OwnOp.spec, if_true, Option.getD_none]; exact ⟨X, S, hd⟩
      · simp only [OwnOp.spec, if_true]; exact ⟨_, resize_zero _⟩
    · obtain ⟨h1, d1, e1, X1, ⟨q, D1⟩, z1, mp1, _, fresh, keep⟩ := X.resize (zero := zero) (n := n) (by omega) hb
      cases l with
      | nil =>
        have N : DNone s.d := by
          rcases X.d with N | ⟨q, D⟩
          · exact N
          · have := D.pos; simp at hsz; omega
        refine ⟨h1, { s with d := d1 }, ?_, ?_⟩
        · simp only [OwnOp.spec, hn, if_false, Option.getD_some]; exact ⟨X1, fresh N, by simp [mp1, hd]⟩
        · simp only [OwnOp.spec, hn, if_false]; exact e1
      | cons x t =>
        have hnl : n ≤ (x :: t).length := by
          rcases hfit with h | h
          · exact absurd h (by simp)
          · exact h
        rcases X.d with N | ⟨q', D⟩
        · rw [N.sz] at hsz; simp at hsz
        · have c1 := D.szc
          obtain ⟨k1, k2⟩ := keep (by omega) D.al
          subst k2
          refine ⟨h1, { s with d := d1 }, ?_, ?_⟩
          · simp only [OwnOp.spec, hn, if_false, Option.getD_some]
            refine ⟨X1, ⟨by rw [z1, List.length_take]; omega, fun r hr j hj => ?_⟩, by simp [mp1, hd]⟩
            rw [List.length_take] at hj
            rw [S.cell r (by rw [k1] at hr; exact hr) j (by omega), List.getElem_take]
          · simp only [OwnOp.spec, hn, if_false]; exact e1
  | assign e =>
    rcases hf with ⟨l', he, hl⟩ | ⟨C, m, hC, hm, hl⟩
    · obtain ⟨h', s', ea, X', S', d'⟩ := X.assign (zero := zero) O S he hl
      refine ⟨h', s', ?_, ?_⟩
      · simp only [OwnOp.spec, he, Option.map_some, Option.getD_some]
        exact ⟨X', S', by rw [d', hd]⟩
      · simp only [OwnOp.spec, he, Option.map_some]
        exact ea
    · have he : eval (ownVals l ls) e = none := by
        rcases h1 : eval (ownVals l ls) e with _ | l'
        · rfl
        · have h2 := cells_eval e h1
          rw [hC, Option.some.injEq] at h2
          obtain ⟨L, T, h3⟩ := failure_split hm
          rw [h2] at h3
          have h4 : Out.thr m ∈ l'.map Out.ok := by rw [h3]; simp
          simp at h4
      obtain ⟨h', s', ea, X', S', d'⟩ := X.assign_throws (zero := zero) O S hC hm hl
      refine ⟨h', s', ?_, ?_⟩
      · simp only [OwnOp.spec, he, Option.map_none, Option.getD_none]
        exact ⟨X', S', by rw [d', hd]⟩
      · simp only [OwnOp.spec, he, Option.map_none]
        exact ⟨m, ea⟩

theorem runOwn_ok {zero : V} {h0 : Heap V} {os : List Sexp} {ls : List (OwnVal V)} (O : Others h0 os ls) (ops : List (OwnOp V)) :
    ∀ {h : Heap V} {s : SVec} {a : OwnVal V}, XVal h0 h s a → OwnFits zero ls ops a →
      ∃ h' s', runOwn zero os ops (h, s) = (.ok (ownThrows zero ls ops a), (h', s')) ∧ XVal h0 h' s' (ownRun zero ls ops a) := by
  induction ops with
  | nil => intro h s a X _; exact ⟨h, s, rfl, X⟩
  | cons o ops ih =>
    intro h s a X hf
    obtain ⟨h1, s1, X1, e1⟩ := ownOp_step (zero := zero) O X o hf.1
    obtain ⟨h2, s2, e2, X2⟩ := ih X1 hf.2
    refine ⟨h2, s2, ?_, X2⟩
    unfold runOwn
    cases hs : o.spec zero ls a with
    | none =>
      rw [hs] at e1
      obtain ⟨m, hm⟩ := e1
      rw [hm]
      dsimp only
      rw [e2]
      simp [ownThrows, hs]
    | some a' =>
      rw [hs] at e1
      simp only at e1
      rw [e1]
      dsimp only
      rw [e2]
      simp [ownThrows, hs]

/-- The vector `s` in the heap `h` acts like the elements and dimensions `a`: every sequence of operations, on expressions over it and
over other vectors that existed in `h0`, throws where it should and leaves the elements and dimensions it should; the memory that existed
in `h0` does not change; and the destruction of the vector afterwards gives back all memory obtained since `h0`. -/
def ActsLike (zero : V) (h0 h : Heap V) (s : SVec) (a : OwnVal V) : Prop :=
  ∀ (os : List Sexp) (ls : List (OwnVal V)) (ops : List (OwnOp V)), Others h0 os ls → OwnFits zero ls ops a →
    ∃ h' s', runOwn zero os ops (h, s) = (.ok (ownThrows zero ls ops a), (h', s')) ∧
      s'.d.sz = (ownRun zero ls ops a).1.length ∧
      (∀ i (hi : i < (ownRun zero ls ops a).1.length), s'.d.get h' i = .ok (ownRun zero ls ops a).1[i]) ∧
      dimMP s'.d.mp = (ownRun zero ls ops a).2 ∧
      (∀ c, c < h0.next → h'.blk c = h0.blk c) ∧
      ∃ h'' s'', destroy (h', s') = (.ok (), (h'', s'')) ∧ (∀ c, c < h0.next → h''.blk c = h0.blk c) ∧
        ∀ c, h0.next ≤ c → c < h''.next → (h''.blk c).live = false

theorem XVal.acts {zero : V} {h0 h : Heap V} {s : SVec} {a : OwnVal V} (X : XVal h0 h s a) : ActsLike zero h0 h s a := by
  intro os ls ops O hf
  obtain ⟨h', s', e, X'⟩ := runOwn_ok (zero := zero) O ops X hf
  refine ⟨h', s', e, X'.val.sz, fun i hi => ?_, X'.dim, X'.mem.old, X'.mem.destroy⟩
  rcases X'.mem.d with N | ⟨q, D⟩
  · have := X'.val.sz; rw [N.sz] at this; omega
  · exact (D.sees X'.val).get hi

/-- C93 for a vector that starts without memory. -/
theorem C93_list_partial {zero : V} {h0 : Heap V} (hs : h0.sched = []) : ActsLike zero h0 h0 {} ([], none) :=
  XVal.acts ⟨XMem.start hs, XShows.start h0, rfl⟩

/-! ## Copies -/

/-- The buffer of a vector that can be copied. -/
def TempFine (h : Heap V) (t : Store) : Prop :=
  (t.p = none ∧ t.allocated = false) ∨ (∃ b, t.p = some b) ∧ Store.Own h t ∧ t.capacity < 2 ^ 31

theorem copyVec_ok {zero : V} {h0 : Heap V} {x : SVec} {q : Nat} {l : List V} (hs : h0.sched = []) (Q : Sees h0 x.d q l) (hq : q < h0.next)
    (ht : TempFine h0 x.temp) (hne : l ≠ []) (hl : l.length ≤ 2 ^ 30) :
    ∃ h' s', copyVec zero x (h0, {}) = (.ok (), (h', s')) ∧ XVal h0 h' s' (l, dimMP x.d.mp) := by
  have hpos := List.length_pos_iff.mpr hne
  obtain ⟨h1, d1, e1, X1, ⟨q1, D1⟩, z1, mp1, _, _, _⟩ := (XMem.start hs).resize (zero := zero) (n := l.length) hpos hl
  have c1 := D1.szc
  have c2 := D1.cap
  obtain ⟨g, hg⟩ : ∃ g : Nat → V, ∀ i (hi : i < l.length), g i = l[i] :=
    ⟨fun i => (l[i]?).getD zero, fun i hi => by simp [hi]⟩
  have eloop : M.forN d1.sz (fun i => do
      let v ← M.reads (fun st => x.d.get st.1 i)
      heapM (Heap.store d1.p i v)) (h1, (⟨d1, {}⟩ : SVec))
      = (.ok (), (h1.setCells q1 (fun j => if j < d1.sz then some (g j) else (h1.blk q1).cell j), ⟨d1, {}⟩)) := by
    rw [D1.p]
    refine loopX_store (g := fun st i => x.d.get st.1 i) D1.live (by omega) fun i hi cells => ?_
    have Q' : Sees (h1.setCells q1 cells) x.d q l := Q.frame (by
      rw [setCells_ne _ _ (by have := D1.ge; omega)]; exact X1.old q hq)
    rw [Q'.get (i := i) (by omega), hg]
  have X2 : XMem h0 (h1.setCells q1 (fun j => if j < d1.sz then some (g j) else (h1.blk q1).cell j)) ⟨{ d1 with mp := x.d.mp }, {}⟩ :=
    X1.setD (mp := x.d.mp) (n := d1.sz) D1 D1.pos D1.szc
  have S2 : XShows (h1.setCells q1 (fun j => if j < d1.sz then some (g j) else (h1.blk q1).cell j)) { d1 with mp := x.d.mp } l := by
    refine ⟨z1, fun r hr i hi => ?_⟩
    simp only [D1.p, Option.some.injEq] at hr
    subst hr
    rw [setCells_cell, if_pos (by omega), hg i hi]
  have e2 : copyCtor zero x.d (h0, ({} : SVec)) = (.ok (), (h1.setCells q1 (fun j => if j < d1.sz then some (g j) else (h1.blk q1).cell j),
      ⟨{ d1 with mp := x.d.mp }, {}⟩)) := by
    unfold copyCtor
    rw [Q.sz, M.bind_ok e1, M.bind_ok (m := self) (self_apply _), M.bind_ok eloop]
    rfl
  obtain ⟨h2, hh2⟩ : ∃ h2, h2 = h1.setCells q1 (fun j => if j < d1.sz then some (g j) else (h1.blk q1).cell j) := ⟨_, rfl⟩
  rw [← hh2] at X2 S2 e2
  unfold copyVec
  rw [M.bind_ok e2]
  rcases ht with ⟨tp, ta⟩ | ⟨⟨b, tp⟩, own, tc⟩
  · refine ⟨h2, _, tempM_ok (s := ⟨{ d1 with mp := x.d.mp }, {}⟩) (Store.copyCtor_unalloc ta), ⟨?_, S2, rfl⟩⟩
    exact ⟨X2.sched, X2.nx, X2.old, X2.rest, X2.d, .inl ⟨rfl, rfl⟩, by simp⟩
  · obtain ⟨b1, b2, b3, b4, b5⟩ := own.ptr b tp
    have eb : h2.blk b = h0.blk b := X2.old b b1
    have own2 : Store.Own h2 x.temp := ⟨fun r hr => by
      rw [tp] at hr; simp only [Option.some.injEq] at hr; subst hr
      rw [eb]; exact ⟨by have := X2.nx; omega, b2, b3, b4, b5⟩, fun e => absurd tp (by rw [e]; simp)⟩
    refine ⟨_, _, tempM_ok (s := ⟨{ d1 with mp := x.d.mp }, {}⟩) (Store.copyCtor_some X2.sched own2 tp (by omega)), ⟨?_, ?_, rfl⟩⟩
    · exact X2.replaceT (c := x.temp.capacity) (f := fun j => if j < x.temp.capacity then (h2.blk b).cell j else none)
        (by simpa using X2.sched) (by simp) (by simp) (fun r hr _ => addBlk_lt _ _ hr)
        (fun r hr => by simp at hr) rfl rfl (le_refl _) tc
    · refine ⟨S2.sz, fun r hr i hi => ?_⟩
      rw [addBlk_lt _ _ (X2.lt hr)]
      exact S2.cell r hr i hi

/-- C93 for a copy `Vec y(x)` of a vector that shows the memory of an R object (or other memory that exists already): the copy has the
elements and the dimensions of `x`, and memory of its own, so that everything that is done with it leaves the R object alone. -/
theorem C93_copy_partial {zero : V} {h0 : Heap V} {x : SVec} {q : Nat} {l : List V} (hs : h0.sched = []) (Q : Sees h0 x.d q l)
    (hq : q < h0.next) (ht : TempFine h0 x.temp) (hne : l ≠ []) (hl : l.length ≤ 2 ^ 30) :
    ∃ h' s', copyVec zero x (h0, {}) = (.ok (), (h', s')) ∧ ActsLike zero h0 h' s' (l, dimMP x.d.mp) := by
  obtain ⟨h', s', e, X⟩ := copyVec_ok (zero := zero) hs Q hq ht hne hl
  exact ⟨h', s', e, X.acts⟩

/-- The copy of an empty vector, for instance of one that borrows the R vector `numeric(0)`, is an exception. -/
theorem C93_copy_empty {zero : V} {h0 : Heap V} {x : SVec} (hx : x.d.sz = 0) :
    ∃ m, copyVec zero x (h0, {}) = (.thr m, (h0, {})) := by
  refine ⟨"Size has to be larger than 0", ?_⟩
  unfold copyVec copyCtor
  rw [M.bind_thr (M.bind_thr (by rw [hx]; exact resize_zero _))]

/-! ## Copying into a vector that borrows an R object -/

/-- The vector borrows the R object at `b` and shows the first `n` of its elements. -/
def borrows (b n cap : Nat) (mp : MP) : SVec := ⟨{ p := some b, sz := n, capacity := cap, allocated := true, mp := mp }, {}⟩

/-- C67 for `x.d = y.d`, when `y` is another vector, which has some elements but not more than the R object: they are copied into the R object
in place, no other memory is touched, and the destruction of `x` leaves the R object alone. -/
theorem C67_copy_partial {zero : V} {h : Heap V} {b q n : Nat} {l lo : List V} {o : Sexp} (R : RHolds h b l) (Q : Sees h o q lo) (hq : q ≠ b)
    (hn : lo ≠ []) (hl : lo.length ≤ l.length) (mp : MP) :
    ∃ h', copyAssign zero o (h, borrows b n l.length mp) = (.ok (), (h', borrows b lo.length l.length o.mp)) ∧
      RHolds h' b (lo ++ l.drop lo.length) ∧ (∀ c, c ≠ b → h'.blk c = h.blk c) ∧
      destroy (h', borrows b lo.length l.length o.mp) = (.ok (), (h', borrows b lo.length l.length o.mp)) := by
  have hpos := List.length_pos_iff.mpr hn
  obtain ⟨g, hg⟩ : ∃ g : Nat → V, ∀ i (hi : i < lo.length), g i = lo[i] :=
    ⟨fun i => (lo[i]?).getD zero, fun i hi => by simp [hi]⟩
  have eloop : M.forN lo.length (fun i => do
      let v ← M.reads (fun st => o.get st.1 i)
      heapM (Heap.store (some b) i v)) (h, borrows b lo.length l.length mp)
      = (.ok (), (h.setCells b (fun j => if j < lo.length then some (g j) else (h.blk b).cell j), borrows b lo.length l.length mp)) := by
    refine loopX_store (g := fun st i => o.get st.1 i) R.live (by rw [R.len]; exact hl) fun i hi cells => ?_
    have Q' : Sees (h.setCells b cells) o q lo := Q.frame (setCells_ne _ _ hq)
    rw [Q'.get hi, hg]
  refine ⟨h.setCells b (fun j => if j < lo.length then some (g j) else (h.blk b).cell j), ?_, ?_, fun c hc => setCells_ne _ _ hc, rfl⟩
  · unfold copyAssign
    rw [Q.sz, M.bind_ok (resize_keep (s := borrows b n l.length mp) hpos rfl hl), M.bind_ok (m := self) (self_apply _)]
    exact M.bind_ok eloop
  · refine R.setCells (by simp; omega) fun j => ?_
    by_cases hj : j < lo.length
    · rw [if_pos hj, List.getElem?_append_left hj, hg j hj]; simp [hj]
    · rw [if_neg hj, List.getElem?_append_right (by omega), R.cell, List.getElem?_drop]
      congr 1; omega

/-- C67 is false for `x.d = y.d` with a longer vector `y`: the memory of R is freed. -/
theorem C67_copy_false {zero : V} {h : Heap V} {b n : Nat} {l : List V} {o : Sexp} (R : RHolds h b l) (hl : l.length < o.sz) (mp : MP) :
    ∃ st, copyAssign zero o (h, borrows b n l.length mp) = (.ub .badFree, st) := by
  refine ⟨(h, borrows b n l.length mp), ?_⟩
  unfold copyAssign Sexp.resize
  rw [M.bind_ub]
  rw [M.bind_ok (M.ass_pos (by omega) _), M.bind_ok (m := self) (self_apply _), if_neg (by simp [borrows]), if_pos (by simpa [borrows] using hl),
    M.bind_ok (M.ass_pos (by simp [borrows]) _), M.bind_ub]
  rw [heapM_apply]
  simp only [borrows]
  rw [delete_foreign R.newed]

/-- C67 for `x.d.fill(y)` with a named vector `y` (or an operation whose elements do not depend on the R object): with as many elements as `x`
they are written into the R object, otherwise there is an exception and nothing changes. -/
theorem C67_fill_partial {h : Heap V} {b n : Nat} {l lo : List V} {f : Heap V → Nat → Out V} (R : RHolds h b l) (hn : n ≤ l.length)
    (hf : ∀ h', (∀ c, c ≠ b → h'.blk c = h.blk c) → ∀ i (hi : i < lo.length), f h' i = .ok lo[i]) (mp : MP) :
    (lo.length = n → ∃ h', fillLoop lo.length f (h, borrows b n l.length mp) = (.ok (), (h', borrows b n l.length mp)) ∧
      RHolds h' b (lo ++ l.drop n) ∧ (∀ c, c ≠ b → h'.blk c = h.blk c)) ∧
    (lo.length ≠ n → ∃ m, fillLoop lo.length f (h, borrows b n l.length mp) = (.thr m, (h, borrows b n l.length mp))) := by
  constructor
  · rintro rfl
    by_cases he : lo = []
    · subst he
      exact ⟨h, rfl, by simpa using R, fun _ _ => rfl⟩
    obtain ⟨v0, t, hv⟩ := List.exists_cons_of_ne_nil he
    obtain ⟨g, hg⟩ : ∃ g : Nat → V, ∀ i (hi : i < lo.length), g i = lo[i] :=
      ⟨fun i => (lo[i]?).getD v0, fun i hi => by simp [hi]⟩
    have eloop : M.forN lo.length (fun i => do
        let v ← M.reads (fun st => f st.1 i)
        heapM (Heap.store (some b) i v)) (h, borrows b lo.length l.length mp)
        = (.ok (), (h.setCells b (fun j => if j < lo.length then some (g j) else (h.blk b).cell j), borrows b lo.length l.length mp)) := by
      refine loopX_store (g := fun st i => f st.1 i) R.live (by rw [R.len]; exact hn) fun i hi cells => ?_
      simp only []
      rw [hf _ (fun c hc => setCells_ne _ _ hc) i hi, hg]
    refine ⟨h.setCells b (fun j => if j < lo.length then some (g j) else (h.blk b).cell j), ?_, ?_, fun c hc => setCells_ne _ _ hc⟩
    · unfold fillLoop
      rw [M.bind_ok (m := self) (self_apply _), M.bind_ok (M.ass_pos (by rfl) _)]
      exact eloop
    · refine R.setCells (by simp; omega) fun j => ?_
      by_cases hj : j < lo.length
      · rw [if_pos hj, List.getElem?_append_left hj, hg j hj]; simp [hj]
      · rw [if_neg hj, List.getElem?_append_right (by omega), R.cell, List.getElem?_drop]
        congr 1; omega
  · intro hne
    exact ⟨_, by unfold fillLoop; rw [M.bind_ok (m := self) (self_apply _), M.bind_thr (M.ass_neg (by exact hne) _)]⟩

/-- C67 is false for `x.d.fill(y)` with the result `y` of a function (`colon`, `rep`, ...): the memory of R is freed. -/
theorem C67_fill_false {h : Heap V} {b n : Nat} {l : List V} {t : Store} (R : RHolds h b l) (ht : t.sz = n) (mp : MP) :
    ∃ st, Sexp.fillRVec t (h, borrows b n l.length mp) = (.ub .badFree, st) := by
  refine ⟨(h, borrows b n l.length mp), ?_⟩
  unfold Sexp.fillRVec
  rw [M.bind_ok (m := self) (self_apply _), M.bind_ok (M.ass_pos (by exact ht) _), M.bind_ub]
  rw [heapM_apply]
  simp only [borrows]
  rw [delete_foreign R.newed]

/-- `x.d.fill(y)` with the result `y` of a function, for a vector that has memory of its own: afterwards it has the elements of the result,
its old memory is released and no other memory is touched, and the result, which ends then, releases nothing.  Other lengths are rejected
without any change. -/
theorem C93_fill_temporary_partial {h0 h : Heap V} {x : SVec} {q c : Nat} {t : Store} {l : List V} (D : DMem h0 h x.d q) (w : Store.WF h t)
    (sh : ETR.Shows h t l) (hc : t.p = some c) (hqc : q ≠ c) :
    (x.d.sz ≠ l.length → ∃ m, Sexp.fillRVec t (h, x) = (.thr m, (h, x))) ∧
    (x.d.sz = l.length → ∃ t' h' d', Sexp.fillRVec t (h, x) = (.ok t', (h', { x with d := d' })) ∧ Sees h' d' c l ∧
      (h'.blk q).live = false ∧ (∀ a, a ≠ q → h'.blk a = h.blk a) ∧ Store.dtor (h', t') = (.ok (), (h', t'))) := by
  obtain ⟨g1, g2, g3, g4, g5, g6⟩ := w.ptr c hc
  have hl := sh.1
  constructor
  · intro hne
    refine ⟨"cannot use fill with vectors of different lengths", ?_⟩
    unfold Sexp.fillRVec
    rw [M.bind_ok (m := self) (self_apply _), M.bind_thr (M.ass_neg (by show ¬ t.sz = x.d.sz; omega) _)]
  · intro heq
    have hk : (h.kill q).blk c = h.blk c := Heap.kill_ne _ (Ne.symm hqc)
    refine ⟨{ t with p := none, allocated := false }, h.kill q, { x.d with p := t.p }, ?_, ⟨hc, heq, by rw [hk]; exact g2, by rw [hk]; omega, fun i hi => ?_⟩,
      by simp [Heap.kill], fun a ha => Heap.kill_ne _ ha, rfl⟩
    · unfold Sexp.fillRVec
      rw [M.bind_ok (m := self) (self_apply _), M.bind_ok (M.ass_pos (by show t.sz = x.d.sz; omega) _)]
      rw [M.bind_ok (m := heapM (Heap.delete x.d.p)) (a := ()) (s' := (h.kill q, x)) (by rw [heapM_apply, D.p]; simp [Heap.delete_some D.newed D.live])]
      rfl
    · have h7 := sh.2 i hi
      rw [Store.get_eq_load g6 (by omega), hc] at h7
      rw [hk]
      have hlen : ¬ (h.blk c).len ≤ i := by omega
      simp only [Heap.load, Heap.cellAt, g2, not_true_eq_false, if_false, if_neg hlen] at h7
      split at h7
      · rename_i e; injection h7 with h7; subst h7; injection e
      all_goals cases h7

/-- A vector of three zeros is filled from three sevens. -/
example :
    let r := Sexp.resize (0 : Int) 3 ((Heap.empty : Heap Int), ({} : SVec))
    let t := (do Store.ctorSize 0 3; Store.fillScalar 7 : SM Int Unit) (r.2.1, {})
    let f := Sexp.fillRVec t.2.2 (t.2.1, r.2.2)
    f.1.isOk = true ∧ (List.range 3).map (f.2.2.d.get f.2.1) = [7, 7, 7].map Out.ok ∧ (f.2.1.blk 0).live = false := by
  decide +kernel

/-- Two R vectors (1, 2, 3) and (7, 8): `x.d = y.d` makes the first (7, 8, 3). -/
example : ∃ h', copyAssign 0 (ofR 1 2 none) ((((Heap.empty.foreign [1, 2, 3]).1.foreign [7, 8]).1 : Heap Nat), borrows 0 3 3 {})
      = (.ok (), (h', borrows 0 2 3 {})) ∧ RHolds h' 0 [7, 8, 3] := by
  obtain ⟨h', e, R, -⟩ := C67_copy_partial (zero := 0) (n := 3) (h := ((Heap.empty.foreign [1, 2, 3]).1.foreign [7, 8]).1) (b := 0) (q := 1)
    (l := [1, 2, 3]) (lo := [7, 8]) (o := ofR 1 2 none)
    ⟨rfl, rfl, rfl, fun _ => rfl⟩ ⟨rfl, rfl, rfl, by decide, fun i hi => by match i, hi with
      | 0, _ => rfl
      | 1, _ => rfl⟩ (by decide) (by simp) (by decide) {}
  exact ⟨h', e, R⟩

/-! ## Variables of the derivative machinery -/

/-- C93 for a variable that `initBorrowSEXP` fills from a vector that borrows an R object: the variable is a copy with its own memory, and
the copy that was made for passing the argument is gone. -/
theorem C93_init_partial {zero : V} {h0 : Heap V} {x : SVec} {q : Nat} {l : List V} (hs : h0.sched = []) (Q : Sees h0 x.d q l)
    (hq : q < h0.next) (ht : TempFine h0 x.temp) (hne : l ≠ []) (hl : l.length ≤ 2 ^ 30) :
    ∃ h' s', initVar zero x (h0, {}) = (.ok (), (h', s')) ∧ ActsLike zero h0 h' s' (l, dimMP x.d.mp) := by
  obtain ⟨h1, arg, e1, X1⟩ := copyVec_ok (zero := zero) hs Q hq ht hne hl
  obtain ⟨q1, D1⟩ : ∃ q1, DMem h0 h1 arg.d q1 := by
    rcases X1.mem.d with N | D
    · have := X1.val.sz; rw [N.sz] at this
      exact absurd (List.length_eq_zero_iff.mp this.symm) hne
    · exact D
  have O : Others h1 [arg.d] [(l, dimMP x.d.mp)] := by
    refine ⟨rfl, fun i hi => ?_, fun i hi => ?_⟩ <;> simp at hi <;> subst hi
    · exact ⟨q1, D1.lt, D1.sees X1.val⟩
    · exact X1.dim
  have hev : eval (ownVals [] [(l, dimMP x.d.mp)]) (.leaf 1) = some l := by
    simp [eval, ownVals, nonEmpty, hne]
  obtain ⟨h2, s2, e2, X2, S2, dm2⟩ := (XMem.start (V := V) X1.mem.sched).assign (zero := zero) O (XShows.start h1) hev hl
  have fr : ∀ c, c < h1.next → h2.blk c = h1.blk c := X2.old
  have nx := X2.nx
  have nx1 := X1.mem.nx
  obtain ⟨s3, e3⟩ := destroy_own (h0 := h0) (h := h2) (s := arg)
    (.inr ⟨q1, D1.p, D1.al, D1.td, D1.ge, by have := D1.lt; omega, by rw [fr _ D1.lt]; exact D1.live, by rw [fr _ D1.lt]; exact D1.newed,
      D1.pos, D1.szc, by rw [fr _ D1.lt]; exact D1.cap, D1.c31⟩)
    (by
      rcases X1.mem.t with t | ⟨b, T⟩
      · exact .inl t
      · exact .inr ⟨b, T.p, T.al, T.ge, by have := T.lt; omega, by rw [fr _ T.lt]; exact T.live, by rw [fr _ T.lt]; exact T.newed,
          by rw [fr _ T.lt]; exact T.cap, T.c31⟩) X1.mem.ne
  have alt : ∀ c, arg.d.p = some c → c < h1.next := fun c e => X1.mem.lt e
  have tlt : ∀ c, arg.temp.p = some c → c < h1.next := by
    intro c e
    rcases X1.mem.t with ⟨t, _⟩ | ⟨b, T⟩
    · rw [t] at e; exact absurd e (by simp)
    · have := T.lt; rw [T.p] at e; simp only [Option.some.injEq] at e; omega
  have keep : ∀ c, h1.next ≤ c → (drop (drop h2 arg.temp.p) arg.d.p).blk c = h2.blk c := by
    intro c hc
    rw [drop_ne _ (fun e => by have := alt c e; omega), drop_ne _ (fun e => by have := tlt c e; omega)]
  refine ⟨drop (drop h2 arg.temp.p) arg.d.p, s2, ?_, XVal.acts ⟨⟨by rw [drop_sched, drop_sched]; exact X2.sched,
    by rw [drop_next, drop_next]; omega, fun c hc => ?_, fun c c1 c2 c3 => ?_, ?_, ?_, X2.ne⟩, ⟨S2.sz, fun r hr i hi => ?_⟩, ?_⟩⟩
  · unfold initVar
    rw [M.bind_ok (a := arg) (s' := (h1, {})) (by unfold copyArg; simp only [e1]), M.bind_ok e2]
    unfold dropArg
    simp only [e3]
  · rw [drop_ne _ (fun e => by have := X1.mem.d_ge e; omega), drop_ne _ (fun e => by have := X1.mem.t_ge e; omega), fr c (by omega)]
    exact X1.mem.old c hc
  · rw [drop_next, drop_next] at c2
    by_cases hc : c < h1.next
    · exfalso
      by_cases hd : arg.d.p = some c
      · rw [drop_dead _ hd] at c3; exact absurd c3 (by simp)
      · rw [drop_ne _ hd] at c3
        by_cases htp : arg.temp.p = some c
        · rw [drop_dead _ htp] at c3; exact absurd c3 (by simp)
        · rw [drop_ne _ htp, fr c hc] at c3
          rcases X1.mem.rest c c1 hc c3 with e | e
          · exact hd e
          · exact htp e
    · rw [keep c (by omega)] at c3
      exact X2.rest c (by omega) c2 c3
  · rcases X2.d with N | ⟨r, D⟩
    · exact .inl N
    · exact .inr ⟨r, D.p, D.al, D.td, by have := D.ge; omega, by rw [drop_next, drop_next]; exact D.lt, by rw [keep r D.ge]; exact D.live,
        by rw [keep r D.ge]; exact D.newed, D.pos, D.szc, by rw [keep r D.ge]; exact D.cap, D.c31⟩
  · rcases X2.t with t | ⟨b, T⟩
    · exact .inl t
    · exact .inr ⟨b, T.p, T.al, by have := T.ge; omega, by rw [drop_next, drop_next]; exact T.lt, by rw [keep b T.ge]; exact T.live,
        by rw [keep b T.ge]; exact T.newed, by rw [keep b T.ge]; exact T.cap, T.c31⟩
  · rw [keep r (X2.d_ge hr)]
    exact S2.cell r hr i hi
  · rw [dm2]
    show (Option.or _ _) = _
    simp [Spec.dimsOf, ownDims, dimMP]

/-! ## Binding to an R object -/

/-- C93 for binding: after any operations that gave the vector memory of its own, `x.d = s` for an R object `s` gives this memory back;
the vector shows the elements of the R object, and its dimensions if it has any (otherwise the dimensions that the vector had before, see
`C93_false`); the destruction of the vector leaves the R object as it is, with all memory of the vector given back. -/
theorem C93_bind_partial {zero : V} {h0 : Heap V} {b : Nat} {l : List V} (hs : h0.sched = []) (R : RHolds h0 b l) (hb : b < h0.next)
    (dim : Option (Nat × Nat)) {os : List Sexp} {ls : List (OwnVal V)} {ops : List (OwnOp V)} (O : Others h0 os ls)
    (hf : OwnFits zero ls ops ([], none)) {h : Heap V} {s : SVec} {bs : List Bool}
    (hr : runOwn zero os ops (h0, {}) = (.ok bs, (h, s))) :
    ∃ h' s', assignSEXP b l.length dim (h, s) = (.ok (), (h', s')) ∧ s'.d.sz = l.length ∧
      (∀ i (hi : i < l.length), s'.d.get h' i = .ok l[i]) ∧ dimMP s'.d.mp = dim.or (ownRun zero ls ops ([], none)).2 ∧
      ∃ h'' s'', destroy (h', s') = (.ok (), (h'', s'')) ∧ (∀ c, c < h0.next → h''.blk c = h0.blk c) ∧
        ∀ c, h0.next ≤ c → c < h''.next → (h''.blk c).live = false := by
  obtain ⟨h1, s1, e1, X⟩ := runOwn_ok (zero := zero) O ops ⟨XMem.start hs, XShows.start h0, rfl⟩ hf
  rw [hr] at e1
  obtain ⟨-, rfl, rfl⟩ : bs = _ ∧ h = h1 ∧ s = s1 := by
    simp only [Prod.mk.injEq, Out.ok.injEq] at e1; exact e1
  obtain ⟨mp', hmp, ea⟩ : ∃ mp', dimMP mp' = dim.or (dimMP s.d.mp) ∧ assignSEXP b l.length dim (h, s) = (.ok (), (drop h s.d.p,
      ⟨{ p := some b, sz := l.length, capacity := l.length, todelete := false, allocated := true, mp := mp' }, s.temp⟩)) := by
    unfold assignSEXP
    rcases X.mem.d with N | ⟨q, D⟩
    · cases dim with
      | none => exact ⟨s.d.mp, rfl, by
          rw [M.bind_ok (m := self) (self_apply _), if_neg (by simp [N.al]), N.p]; rfl⟩
      | some rc => exact ⟨⟨true, rc.1, rc.2⟩, by simp [dimMP], by
          rw [M.bind_ok (m := self) (self_apply _), if_neg (by simp [N.al]), N.p]; rfl⟩
    · have edel : (heapM (Heap.delete s.d.p) : XM V Unit) (h, s) = (.ok (), (h.kill q, s)) := by
        rw [heapM_apply, D.p, delete_some D.newed D.live]
      cases dim with
      | none => exact ⟨s.d.mp, rfl, by
          rw [M.bind_ok (m := self) (self_apply _), if_pos (by simp [D.al]), M.bind_ok (M.ass_pos (by simp [D.p]) _),
            M.bind_ok edel, D.p]; rfl⟩
      | some rc => exact ⟨⟨true, rc.1, rc.2⟩, by simp [dimMP], by
          rw [M.bind_ok (m := self) (self_apply _), if_pos (by simp [D.al]), M.bind_ok (M.ass_pos (by simp [D.p]) _),
            M.bind_ok edel, D.p]; rfl⟩
  have old : ∀ c, c < h0.next → (drop h s.d.p).blk c = h0.blk c := by
    intro c hc
    rw [drop_ne _ (fun e => by have := X.mem.d_ge e; omega)]
    exact X.mem.old c hc
  have R' : RHolds (drop h s.d.p) b l := by
    have e := old b hb
    exact ⟨by rw [e]; exact R.live, by rw [e]; exact R.newed, by rw [e]; exact R.len, by rw [e]; exact R.cell⟩
  have Q : Sees (drop h s.d.p) { p := some b, sz := l.length, capacity := l.length, todelete := false, allocated := true, mp := mp' } b l :=
    ⟨rfl, rfl, R'.live, by rw [R'.len], fun i hi => by rw [R'.cell, List.getElem?_eq_getElem hi]⟩
  refine ⟨_, _, ea, rfl, fun i hi => Q.get hi, by rw [← X.dim]; exact hmp, ?_⟩
  have ht : (s.temp.p = none ∧ s.temp.allocated = false) ∨ ∃ t, TMem h0 (drop h s.d.p) s.temp t := by
    rcases X.mem.t with t | ⟨t, T⟩
    · exact .inl t
    · have e : (drop h s.d.p).blk t = h.blk t := drop_ne _ (fun e => X.mem.ne t e T.p)
      exact .inr ⟨t, T.p, T.al, T.ge, by rw [drop_next]; exact T.lt, by rw [e]; exact T.live, by rw [e]; exact T.newed, by rw [e]; exact T.cap, T.c31⟩
  obtain ⟨t', et⟩ := dropTemp ht
  refine ⟨drop (drop h s.d.p) s.temp.p,
    ⟨{ p := some b, sz := l.length, capacity := l.length, todelete := false, allocated := true, mp := mp' }, t'⟩, ?_, fun c hc => ?_, fun c c1 c2 => ?_⟩
  · unfold destroy
    rw [M.bind_ok (tempM_ok (s := ⟨{ p := some b, sz := l.length, capacity := l.length, todelete := false, allocated := true, mp := mp' }, s.temp⟩) et)]
    rfl
  · rw [drop_ne _ (fun e => by have := X.mem.t_ge e; omega)]
    exact old c hc
  · rw [drop_next, drop_next] at c2
    by_cases htp : s.temp.p = some c
    · exact drop_dead _ htp
    · rw [drop_ne _ htp]
      by_cases hd : s.d.p = some c
      · exact drop_dead _ hd
      · rw [drop_ne _ hd]
        cases hl : (h.blk c).live with
        | false => rfl
        | true =>
          rcases X.mem.rest c c1 c2 hl with e | e
          · exact absurd e hd
          · exact absurd e htp

/-! ## Examples -/

/-- Two elements, then `x = x + x`, a write beyond the end (an exception), and `x = x + m` for a matrix `m` with 2 x 2 elements. -/
example : ownRun 0 [([1, 1, 1, 1], some (2, 2))] [.push 1, .push 2, .assign (.bin (fun a b => .ok (a + b)) (.leaf 0) (.leaf 0)), .write 5 9,
      .assign (.bin (fun a b => .ok (a + b)) (.leaf 0) (.leaf 1))] (([], none) : OwnVal Int) = ([3, 5, 3, 5], some (2, 2)) ∧
    ownThrows 0 [([1, 1, 1, 1], some (2, 2))] [.push 1, .push 2, .assign (.bin (fun a b => .ok (a + b)) (.leaf 0) (.leaf 0)), .write 5 9,
      .assign (.bin (fun a b => .ok (a + b)) (.leaf 0) (.leaf 1))] (([], none) : OwnVal Int) = [false, false, false, true, false] := by
  decide

/-- What `resize` to more elements does, after any operations that gave the vector elements: beyond the capacity the elements are lost and
the vector is one of zeros; within the capacity the elements stay (those that are added are whatever the memory holds). -/
theorem C93_resize_characterised {zero : V} {h0 : Heap V} (hs : h0.sched = []) {os : List Sexp} {ls : List (OwnVal V)}
    {ops : List (OwnOp V)} (O : Others h0 os ls) (hf : OwnFits zero ls ops ([], none)) {h : Heap V} {s : SVec} {bs : List Bool}
    (hr : runOwn zero os ops (h0, {}) = (.ok bs, (h, s))) {l : List V} {d : Option (Nat × Nat)}
    (hl : ownRun zero ls ops ([], none) = (l, d)) (hne : l ≠ []) {n : Nat} (hn : l.length < n) (hb : n ≤ 2 ^ 30) :
    (s.d.capacity < n → ∃ h' s', ownOp zero os (.resize n) (h, s) = (.ok (), (h', s')) ∧
      ActsLike zero h0 h' s' (List.replicate n zero, d)) ∧
    (n ≤ s.d.capacity → ∃ s', ownOp zero os (.resize n) (h, s) = (.ok (), (h, s')) ∧ s'.d.sz = n ∧
      (∀ i (hi : i < l.length), s'.d.get h i = .ok l[i]) ∧ dimMP s'.d.mp = d) := by
  obtain ⟨h1, s1, e1, X⟩ := runOwn_ok (zero := zero) O ops ⟨XMem.start hs, XShows.start h0, rfl⟩ hf
  rw [hr] at e1
  obtain ⟨-, rfl, rfl⟩ : bs = _ ∧ h = h1 ∧ s = s1 := by
    simp only [Prod.mk.injEq, Out.ok.injEq] at e1; exact e1
  rw [hl] at X
  obtain ⟨X, S, hd⟩ := X
  simp only at S hd
  have hsz := S.sz
  have hpos := List.length_pos_iff.mpr hne
  rcases hX : X.d with N | ⟨q, D⟩
  · rw [N.sz] at hsz; omega
  · constructor
    · intro hc
      obtain ⟨h', d', e, X', S', mp⟩ := X.resize_over (zero := zero) (n := n) (by omega) hb D.al hc
      exact ⟨h', _, e, XVal.acts ⟨X', S', by simp only [mp, hd]⟩⟩
    · intro hc
      refine ⟨{ s with d := { s.d with sz := n } }, resize_keep (by omega) D.al hc, rfl, fun i hi => ?_, hd⟩
      have h1 := D.szc
      have h2 := D.cap
      unfold Sexp.get
      rw [checkIdx_ok (s := { s.d with sz := n }) D.p (show i < n by omega), Out.ok_bind]
      simp only [D.p]
      exact load_some D.live (by omega) (S.cell q D.p i hi)

example : ∃ h s h' s', runOwn 0 [] [.push 5, .push 6] ((Heap.empty : Heap Int), {}) = (.ok [false, false], (h, s)) ∧
    ownOp 0 [] (.resize 3) (h, s) = (.ok (), (h', s')) ∧ ActsLike 0 Heap.empty h' s' ([0, 0, 0], none) := by
  have e : runOwn 0 [] [.push 5, .push 6] ((Heap.empty : Heap Int), {}) = (.ok [false, false], _) := Prod.ext (by decide +kernel) rfl
  obtain ⟨h', s', e', A⟩ := (C93_resize_characterised (zero := (0 : Int)) (h0 := Heap.empty) rfl (os := []) (ls := []) (ops := [.push 5, .push 6])
    ⟨rfl, fun i hi => absurd hi (by simp), fun i hi => absurd hi (by simp)⟩
    ⟨show (0 : Nat) < _ by decide, show (1 : Nat) < _ by decide, trivial⟩ e (l := [5, 6]) (d := none) rfl (by simp)
    (n := 3) (by decide) (by decide)).1 (by decide +kernel)
  exact ⟨_, _, h', s', e, e', A⟩

/-- A 2 x 2 R matrix at block 0. -/
def sampleR : Heap Int := (Heap.empty.foreign [1, 2, 3, 4]).1

theorem sampleR_sees : Sees sampleR (ofR 0 4 (some (2, 2))) 0 [1, 2, 3, 4] :=
  ⟨rfl, rfl, rfl, le_refl _, fun i hi => by
    simp only [List.length_cons, List.length_nil] at hi
    rcases (by omega : i = 0 ∨ i = 1 ∨ i = 2 ∨ i = 3) with h | h | h | h <;> subst h <;> rfl⟩

/-- A copy of a vector that borrows this R matrix is a 2 x 2 matrix with the same elements. -/
example : ∃ h' s', copyVec 0 ⟨ofR 0 4 (some (2, 2)), {}⟩ (sampleR, {}) = (.ok (), (h', s')) ∧
    ActsLike 0 sampleR h' s' ([1, 2, 3, 4], some (2, 2)) :=
  C93_copy_partial rfl sampleR_sees (by decide) (.inl ⟨rfl, rfl⟩) (by simp) (by simp)

example : ∃ h' s', initVar 0 ⟨ofR 0 4 (some (2, 2)), {}⟩ (sampleR, {}) = (.ok (), (h', s')) ∧
    ActsLike 0 sampleR h' s' ([1, 2, 3, 4], some (2, 2)) :=
  C93_init_partial rfl sampleR_sees (by decide) (.inl ⟨rfl, rfl⟩) (by simp) (by simp)

/-! ## Where it fails -/

/-- C93 fails for the dimensions after binding: a vector that was a matrix and is bound to an R vector without dimensions is still a
matrix, with the old dimensions. -/
theorem C93_false : ¬ ∀ (h0 : Heap Int) (b : Nat) (l : List Int) (dim : Option (Nat × Nat)) (ops : List (OwnOp Int)) (bs : List Bool)
    (h : Heap Int) (s : SVec) (h' : Heap Int) (s' : SVec), RHolds h0 b l → runOwn 0 [] ops (h0, {}) = (.ok bs, (h, s)) →
      assignSEXP b l.length dim (h, s) = (.ok (), (h', s')) → dimMP s'.d.mp = dim := by
  intro H
  have := H (Heap.empty.foreign [7, 8, 9]).1 0 [7, 8, 9] none [.assign (.rvec [1, 2, 3, 4] ⟨true, 2, 2⟩)] [false]
    (runOwn 0 [] [.assign (.rvec [1, 2, 3, 4] ⟨true, 2, 2⟩)] ((Heap.empty.foreign [7, 8, 9]).1, {})).2.1
    (runOwn 0 [] [.assign (.rvec [1, 2, 3, 4] ⟨true, 2, 2⟩)] ((Heap.empty.foreign [7, 8, 9]).1, {})).2.2
    (assignSEXP 0 3 none (runOwn 0 [] [.assign (.rvec [1, 2, 3, 4] ⟨true, 2, 2⟩)] ((Heap.empty.foreign [7, 8, 9]).1, {})).2).2.1
    (assignSEXP 0 3 none (runOwn 0 [] [.assign (.rvec [1, 2, 3, 4] ⟨true, 2, 2⟩)] ((Heap.empty.foreign [7, 8, 9]).1, {})).2).2.2
    (RHolds.foreign _ _) (Prod.ext (by decide +kernel) rfl) (Prod.ext (by decide +kernel) rfl)
  revert this
  decide +kernel

/-- C93 fails for a `resize` that asks for more elements than the vector has: the elements can get lost (here those of the vector with
the elements 1 and 2 after `resize(3)`), and there can be elements without a value (here element 7 after `resize(7)` and
`resize(8)`). -/
theorem C93_resize_false :
    ¬ (∀ (ops : List (OwnOp Int)) (n : Nat) (bs : List Bool) (h : Heap Int) (s : SVec) (i : Nat),
      runOwn 0 [] (ops ++ [.resize n]) (Heap.empty, {}) = (.ok bs, (h, s)) → i < (ownRun 0 [] ops ([], none)).1.length → i < n →
      s.d.get h i = Out.ok ((ownRun 0 [] ops ([], none)).1.getD i 0)) ∧
    ¬ (∀ (ops : List (OwnOp Int)) (bs : List Bool) (h : Heap Int) (s : SVec) (i : Nat),
      runOwn 0 [] ops (Heap.empty, {}) = (.ok bs, (h, s)) → i < s.d.sz → (s.d.get h i).isUB = false) := by
  constructor
  · intro H
    have := H [.push 1, .push 2] 3 [false, false, false] (runOwn 0 [] ([.push 1, .push 2] ++ [.resize 3]) (Heap.empty, {})).2.1
      (runOwn 0 [] ([.push 1, .push 2] ++ [.resize 3]) (Heap.empty, {})).2.2 0 (Prod.ext (by decide +kernel) rfl) (by decide) (by decide)
    revert this
    decide +kernel
  · intro H
    have := H [.resize 7, .resize 8] [false, false] (runOwn 0 [] [.resize 7, .resize 8] (Heap.empty, {})).2.1
      (runOwn 0 [] [.resize 7, .resize 8] (Heap.empty, {})).2.2 7 (Prod.ext (by decide +kernel) rfl) (by decide +kernel)
    revert this
    decide +kernel

example : ∃ h' s', runOwn 0 [] [.push 5, .push 6, .write 7 1] ((Heap.empty : Heap Int), {}) = (.ok [false, false, true], (h', s')) ∧ s'.d.sz = 2 := by
  obtain ⟨h', s', e, hz, _⟩ := C93_list_partial (zero := (0 : Int)) (h0 := Heap.empty) rfl [] [] [.push 5, .push 6, .write 7 1]
    ⟨rfl, fun i hi => absurd hi (by simp), fun i hi => absurd hi (by simp)⟩ ⟨show (0 : Nat) < _ by decide, show (1 : Nat) < _ by decide, trivial, trivial⟩
  exact ⟨h', s', e, hz⟩

/-- `x = x(c(1, 4)) + x` for `x = c(5, 6)` throws at the second element, and `x = x + x` follows. -/
example : ∃ h' s', runOwn 0 [] [.push 5, .push 6, .assign (.bin (fun a b => .ok (a + b)) (.sub (.leaf 0) [0, 3] {}) (.leaf 0)),
      .assign (.bin (fun a b => .ok (a + b)) (.leaf 0) (.leaf 0))] ((Heap.empty : Heap Int), {})
      = (.ok [false, false, true, false], (h', s')) ∧ s'.d.sz = 2 ∧ s'.d.get h' 1 = .ok 12 := by
  obtain ⟨h', s', e, hz, hg, _⟩ := C93_list_partial (zero := (0 : Int)) (h0 := Heap.empty) rfl [] []
    [.push 5, .push 6, .assign (.bin (fun a b => .ok (a + b)) (.sub (.leaf 0) [0, 3] {}) (.leaf 0)),
      .assign (.bin (fun a b => .ok (a + b)) (.leaf 0) (.leaf 0))]
    ⟨rfl, fun i hi => absurd hi (by simp), fun i hi => absurd hi (by simp)⟩
    ⟨show (0 : Nat) < _ by decide, show (1 : Nat) < _ by decide, .inr ⟨[.ok 10, .thr beyond], beyond, rfl, rfl, by decide⟩,
      .inl ⟨[10, 12], rfl, by decide⟩, trivial⟩
  exact ⟨h', s', e, hz, hg 1 (by decide)⟩

example : ∃ m, copyVec 0 {} ((Heap.empty : Heap Int), {}) = (.thr m, (Heap.empty, {})) := C93_copy_empty rfl

/-- A vector with the elements 5 and 6 is bound to the 2 x 2 R matrix and destroyed. -/
example : ∃ h s h' s', runOwn 0 [] [.push 5, .push 6] (sampleR, {}) = (.ok [false, false], (h, s)) ∧
    assignSEXP 0 4 (some (2, 2)) (h, s) = (.ok (), (h', s')) ∧ s'.d.get h' 3 = .ok 4 ∧ dimMP s'.d.mp = some (2, 2) ∧
    ∃ h'' s'', destroy (h', s') = (.ok (), (h'', s'')) ∧ h''.blk 0 = sampleR.blk 0 := by
  have e : runOwn 0 [] [.push 5, .push 6] (sampleR, {}) = (.ok [false, false], _) := Prod.ext (by decide +kernel) rfl
  obtain ⟨h', s', e', -, hg, hd, h'', s'', e'', hk, -⟩ := C93_bind_partial (zero := (0 : Int)) (h0 := sampleR) (b := 0) (l := [1, 2, 3, 4]) rfl
    (RHolds.foreign _ _) (by decide) (some (2, 2)) (os := []) (ls := []) (ops := [.push 5, .push 6])
    ⟨rfl, fun i hi => absurd hi (by simp), fun i hi => absurd hi (by simp)⟩
    ⟨show (0 : Nat) < _ by decide, show (1 : Nat) < _ by decide, trivial⟩ e
  exact ⟨_, _, h', s', e, e', hg 3 (by decide), hd, h'', s'', e'', hk 0 (by decide)⟩

/-- `x.d.fill(y)` with `y = (7, 8)` for a vector that shows the first two elements of the R vector (1, 2, 3), and for one that shows all. -/
example : (∃ h', fillLoop 2 (fun _ i => getL [7, 8] i) ((Heap.empty.foreign [1, 2, (3 : Int)]).1, borrows 0 2 3 {}) = (.ok (), (h', borrows 0 2 3 {})) ∧
      RHolds h' 0 [7, 8, 3]) ∧
    ∃ m, fillLoop 2 (fun _ i => getL [7, 8] i) ((Heap.empty.foreign [1, 2, (3 : Int)]).1, borrows 0 3 3 {}) =
      (.thr m, ((Heap.empty.foreign [1, 2, 3]).1, borrows 0 3 3 {})) := by
  have hf : ∀ h' : Heap Int, (∀ c, c ≠ 0 → h'.blk c = (Heap.empty.foreign [1, 2, (3 : Int)]).1.blk c) → ∀ i (hi : i < [7, 8].length),
      (fun (_ : Heap Int) i => getL [7, 8] i) h' i = .ok ([7, 8] : List Int)[i] := fun _ _ i hi => match i, hi with
        | 0, _ => rfl
        | 1, _ => rfl
  obtain ⟨h', e, R, _⟩ := (C67_fill_partial (n := 2) (lo := [7, 8]) (RHolds.foreign Heap.empty [1, 2, (3 : Int)]) (by decide) hf {}).1 rfl
  exact ⟨⟨h', e, R⟩, (C67_fill_partial (n := 3) (lo := [7, 8]) (RHolds.foreign Heap.empty [1, 2, (3 : Int)]) (by decide) hf {}).2 (by decide)⟩

end Sexp
end ETR
