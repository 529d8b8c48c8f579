import Verif.Lemmas.MachInv
import Verif.Spec.History

/-! Memory safety of every operation of the vector machine. -/

namespace ETR

theorem Out.NoMem.bind {α β : Type} {o : Out α} {f : α → Out β} (h : o.NoMem)
    (hf : ∀ a, (f a).NoMem) : (o >>= f).NoMem := by
  intro k e
  cases o with
  | ok a => exact hf a k e
  | thr m => simp at e
  | ub k' => simp only [Out.ub_bind, Out.ub.injEq] at e; subst e; exact h _ rfl

theorem Out.NoMem.ok {α : Type} (a : α) : (Out.ok a).NoMem := by intro k e; simp at e

theorem modz_noMem (i n : Nat) : (modz i n).NoMem := by
  intro k e; unfold modz at e
  split at e
  · simp only [Out.ub.injEq] at e; subst e; rfl
  · simp at e

theorem posOf_noMem (c : Bool) (n i : Nat) : (posOf c n i).NoMem := by
  unfold posOf; split
  · exact Out.NoMem.ok _
  · exact modz_noMem _ _

theorem getL_noMem {α : Type} (l : List α) (i : Nat) : (getL l i).NoMem := by
  intro k e; unfold getL at e
  split at e <;> simp at e

namespace Expr
variable {V : Type}

theorem el_noMem {env : Env V} (he : ∀ x i, (env.get x i).NoMem) (e : Expr V) (hf : e.FunSafe) :
    ∀ i, (e.el env i).NoMem := by
  induction e with
  | leaf x => intro i; exact he x i
  | rvec l mp => intro i; exact getL_noMem _ _
  | scal v => intro i; exact Out.NoMem.ok _
  | un f e ih =>
    intro i
    unfold el
    exact Out.NoMem.bind (posOf_noMem _ _ _) (fun k => Out.NoMem.bind (ih hf.2 _) (fun a => hf.1 a))
  | bin f l r ihl ihr =>
    intro i
    unfold el
    exact Out.NoMem.bind (posOf_noMem _ _ _) (fun k => Out.NoMem.bind (ihl hf.2.1 _) (fun a =>
      Out.NoMem.bind (posOf_noMem _ _ _) (fun k' => Out.NoMem.bind (ihr hf.2.2 _)
        (fun b => hf.1 a b))))
  | sub e ind mp ih =>
    intro i
    unfold el
    exact Out.NoMem.bind (modz_noMem _ _) (fun k => Out.NoMem.bind (getL_noMem _ _)
      (fun j => ih hf _))

theorem nr_noMem {env : Env V} (e : Expr V) : (e.nr env).NoMem := by
  induction e with
  | leaf x => exact Out.NoMem.ok _
  | rvec l mp => exact Out.NoMem.ok _
  | scal v => exact Out.NoMem.ok _
  | un f e ih => unfold nr; split; exacts [Out.NoMem.ok _, ih]
  | bin f l r ihl ihr =>
    unfold nr
    split_ifs
    · exact ihr
    · exact ihl
    · exact ihl.bind (fun a => ihr.bind (fun b => Out.NoMem.ok _))
    · exact ihr
    · exact ihl
    · intro k e; simp at e
  | sub e ind mp ih => exact Out.NoMem.ok _

theorem nc_noMem {env : Env V} (e : Expr V) : (e.nc env).NoMem := by
  induction e with
  | leaf x => exact Out.NoMem.ok _
  | rvec l mp => exact Out.NoMem.ok _
  | scal v => exact Out.NoMem.ok _
  | un f e ih => unfold nc; split; exacts [Out.NoMem.ok _, ih]
  | bin f l r ihl ihr =>
    unfold nc
    split_ifs
    · exact ihr
    · exact ihl
    · exact ihl.bind (fun a => ihr.bind (fun b => Out.NoMem.ok _))
    · exact ihr
    · exact ihl
    · intro k e; simp at e
  | sub e ind mp ih => exact Out.NoMem.ok _

end Expr

namespace Expr
variable {V : Type}

theorem size_congr {env env' : Env V} (h : ∀ x, env.size x = env'.size x) (e : Expr V) :
    e.size env = e.size env' := by
  induction e with
  | leaf x => exact h x
  | rvec l mp => rfl
  | scal v => rfl
  | un f e ih => exact ih
  | bin f l r ihl ihr => unfold size; rw [ihl, ihr]
  | sub e ind mp ih => rfl

end Expr

namespace Mach
variable {V : Type}
open Store

theorem BInv.get_noMem {h : Heap V} {s : Store} (w : BInv h s) (i : Nat) : (s.get h i).NoMem := by
  obtain ⟨b, hp, _, hl, _, hc⟩ := w.ptr
  intro k e
  by_cases hi : i < s.sz
  · rw [get_eq_load w.al hi, hp] at e
    have := w.sz
    exact load_no_memory hl (by omega) k e
  · obtain ⟨m, e1⟩ := get_of_ge (h := h) (s := s) (i := i) (by omega)
    rw [e1] at e; simp at e

/-- Reading an element of any named vector makes no memory error. -/
theorem Inv.env_noMem {s : Mach V} (I : Inv s) (x i : Nat) : (s.env.get x i).NoMem := by
  cases hx : s.bor x with
  | false => exact fun k e => get_no_memory (I.d x hx).wf i k e
  | true => exact (I.b x hx).get_noMem i

theorem Inv.el_noMem {s : Mach V} (I : Inv s) {e : Expr V} (hf : e.FunSafe) (i : Nat) :
    (e.el s.env i).NoMem := Expr.el_noMem I.env_noMem e hf i

/-- The invariant, with the number of identifiers and the kinds of the objects fixed. -/
structure J (k : Nat) (bo : Nat → Bool) (s : Mach V) : Prop where
  inv : Inv s
  n : s.n = k
  bor : s.bor = bo

theorem safe_onSlot {α : Type} {y : Slot} {m : SM V α} {s0 : Mach V}
    {Q : α → Heap V × Store → Prop} {E : Heap V × Store → Prop}
    (h : M.Safe (fun st => st = (s0.heap, s0.st y)) m Q E) :
    M.Safe (fun s => s = s0) (onSlot y m) (fun a s => ∃ st, Q a st ∧ s = s0.put y st)
      (fun s => ∃ st, E st ∧ s = s0.put y st) := by
  intro s1 hs1
  subst hs1
  have := h _ rfl
  rw [onSlot_apply]
  rcases hm : m (s1.heap, s1.st y) with ⟨o, st⟩
  rw [hm] at this
  cases o with
  | ok a => exact ⟨st, this, rfl⟩
  | thr e => exact ⟨st, this, rfl⟩
  | ub k => exact this

/-- An operation on the data member of a `Buffer` vector. -/
theorem safe_d {α : Type} {x : Nat} {m : SM V α} {s0 : Mach V} {k : Nat} {bo : Nat → Bool}
    (I : J k bo s0) (hx : bo x = false) (hlt : x < k)
    {Q : α → Heap V × Store → Prop} {E : Heap V × Store → Prop}
    (h : M.Safe (fun st => st = (s0.heap, s0.st (x, false))) m Q E)
    (hQ : ∀ a st, Q a st → Keeps s0.heap (s0.st (x, false)) st)
    (hE : ∀ st, E st → Keeps s0.heap (s0.st (x, false)) st) :
    M.Safe (fun s => s = s0) (onSlot (x, false) m)
      (fun a s => J k bo s ∧ ∃ st, Q a st ∧ s = s0.put (x, false) st)
      (fun s => J k bo s ∧ ∃ st, E st ∧ s = s0.put (x, false) st) := by
  have hb : s0.bor x = false := by rw [I.bor]; exact hx
  have key : ∀ st, Keeps s0.heap (s0.st (x, false)) st → J k bo (s0.put (x, false) st) :=
    fun st hk => ⟨I.inv.step (Or.inr hb) (by rw [I.n]; exact hlt) hk.2 (fun _ => hk.1)
      (fun h => by simp at h), I.n, I.bor⟩
  refine M.Safe.conseq (safe_onSlot h) (fun _ h => h) ?_ ?_
  · rintro a s ⟨st, hq, rfl⟩
    exact ⟨key st (hQ a st hq), st, hq, rfl⟩
  · rintro s ⟨st, hq, rfl⟩
    exact ⟨key st (hE st hq), st, hq, rfl⟩

/-- An operation on a `temp` member. -/
theorem safe_t {α : Type} {x : Nat} {m : SM V α} {s0 : Mach V} {k : Nat} {bo : Nat → Bool}
    (I : J k bo s0) (hlt : x < k)
    {Q : α → Heap V × Store → Prop} {E : Heap V × Store → Prop}
    (h : M.Safe (fun st => st = (s0.heap, s0.st (x, true))) m Q E)
    (hQ : ∀ a st, Q a st → TInv st.1 st.2 ∧ Step s0.heap (s0.st (x, true)) st.1 st.2)
    (hE : ∀ st, E st → TInv st.1 st.2 ∧ Step s0.heap (s0.st (x, true)) st.1 st.2) :
    M.Safe (fun s => s = s0) (onSlot (x, true) m)
      (fun a s => J k bo s ∧ ∃ st, Q a st ∧ s = s0.put (x, true) st)
      (fun s => J k bo s ∧ ∃ st, E st ∧ s = s0.put (x, true) st) := by
  have key : ∀ st, TInv st.1 st.2 → Step s0.heap (s0.st (x, true)) st.1 st.2 →
      J k bo (s0.put (x, true) st) :=
    fun st h1 h2 => ⟨I.inv.step (Or.inl rfl) (by rw [I.n]; exact hlt) h2 (fun h => by simp at h)
      (fun _ => h1), I.n, I.bor⟩
  refine M.Safe.conseq (safe_onSlot h) (fun _ h => h) ?_ ?_
  · rintro a s ⟨st, hq, rfl⟩
    exact ⟨key st (hQ a st hq).1 (hQ a st hq).2, st, hq, rfl⟩
  · rintro s ⟨st, hq, rfl⟩
    exact ⟨key st (hE st hq).1 (hE st hq).2, st, hq, rfl⟩

theorem DInv.tinv {h : Heap V} {s : Store} (i : DInv h s) : TInv h s := ⟨i.wf.own, i.cap⟩

/-! ### Writes through a `Borrow` -/

/-- Caller memory keeps its shape; only the cells of the block of the slot change. -/
structure BKeeps (h0 : Heap V) (s0 : Store) (st : Heap V × Store) : Prop where
  next : st.1.next = h0.next
  sched : st.1.sched = h0.sched
  frame : ∀ b, s0.p ≠ some b → st.1.blk b = h0.blk b
  shape : ∀ b, (st.1.blk b).live = (h0.blk b).live ∧ (st.1.blk b).newed = (h0.blk b).newed ∧
    (st.1.blk b).len = (h0.blk b).len
  inv : BInv st.1 st.2
  ptr : st.2.p = s0.p

theorem BKeeps.refl {h : Heap V} {s : Store} (i : BInv h s) : BKeeps h s (h, s) :=
  ⟨rfl, rfl, fun _ _ => rfl, fun _ => ⟨rfl, rfl, rfl⟩, i, rfl⟩

theorem BKeeps.setCells {h : Heap V} {s : Store} {b : Nat} (i : BInv h s) (hp : s.p = some b)
    (f : Nat → Option V) : BKeeps h s (h.setCells b f, s) := by
  have sh : ∀ c, ((h.setCells b f).blk c).live = (h.blk c).live ∧
      ((h.setCells b f).blk c).newed = (h.blk c).newed ∧
      ((h.setCells b f).blk c).len = (h.blk c).len := by
    intro c; simp
  exact ⟨by simp, by simp, fun c hc => Heap.setCells_ne _ _ (by rintro rfl; exact hc hp), sh,
    i.frame (by simp) (fun c _ => sh c), rfl⟩

theorem BKeeps.trans {h0 : Heap V} {s0 : Store} {st st' : Heap V × Store}
    (a : BKeeps h0 s0 st) (b : BKeeps st.1 st.2 st') : BKeeps h0 s0 st' := by
  refine ⟨by rw [b.next, a.next], by rw [b.sched, a.sched], ?_, ?_, b.inv, by rw [b.ptr, a.ptr]⟩
  · intro c hc
    rw [b.frame c (by rw [a.ptr]; exact hc), a.frame c hc]
  · intro c
    obtain ⟨a1, a2, a3⟩ := a.shape c
    obtain ⟨b1, b2, b3⟩ := b.shape c
    exact ⟨by rw [b1, a1], by rw [b2, a2], by rw [b3, a3]⟩

theorem safe_b {α : Type} {x : Nat} {m : SM V α} {s0 : Mach V} {k : Nat} {bo : Nat → Bool}
    (I : J k bo s0) (hx : bo x = true)
    {Q : α → Heap V × Store → Prop} {E : Heap V × Store → Prop}
    (h : M.Safe (fun st => st = (s0.heap, s0.st (x, false))) m Q E)
    (hQ : ∀ a st, Q a st → BKeeps s0.heap (s0.st (x, false)) st)
    (hE : ∀ st, E st → BKeeps s0.heap (s0.st (x, false)) st) :
    M.Safe (fun s => s = s0) (onSlot (x, false) m)
      (fun a s => J k bo s ∧ ∃ st, Q a st ∧ s = s0.put (x, false) st)
      (fun s => J k bo s ∧ ∃ st, E st ∧ s = s0.put (x, false) st) := by
  have hb : s0.bor x = true := by rw [I.bor]; exact hx
  have key : ∀ st, BKeeps s0.heap (s0.st (x, false)) st → J k bo (s0.put (x, false) st) :=
    fun st hk => ⟨I.inv.stepB hb hk.next hk.sched hk.frame hk.shape hk.inv, I.n, I.bor⟩
  refine M.Safe.conseq (safe_onSlot h) (fun _ h => h) ?_ ?_
  · rintro a s ⟨st, hq, rfl⟩
    exact ⟨key st (hQ a st hq), st, hq, rfl⟩
  · rintro s ⟨st, hq, rfl⟩
    exact ⟨key st (hE st hq), st, hq, rfl⟩

theorem set_safeB {h : Heap V} {s : Store} {j : Nat} {v : V} (i : BInv h s) :
    M.Safe (fun st => st = (h, s)) (Store.set j v) (fun _ => BKeeps h s) (BKeeps h s) := by
  rintro _ rfl
  obtain ⟨b, hp, _, hl, _, hc⟩ := i.ptr
  have hsz := i.sz
  by_cases hj : j < s.sz
  · have e : Store.set j v (h, s) = (.ok (), (h.setCells b (fun i => if i = j then some v
        else (h.blk b).cell i), s)) := by
      unfold Store.set
      rw [M.bind_ok (self_apply _)]
      have : s.checkIdx j = .ok () := by
        unfold checkIdx; simp [i.al, hj]
      simp only [this]
      rw [M.bind_ok (M.lift_apply _ _), hp, heapM_ok _ (Heap.store_some hl (by omega))]
    rw [e]
    exact BKeeps.setCells i hp _
  · obtain ⟨m, e⟩ := set_thr (h := h) (s := s) (i := j) (v := v) (by omega)
    rw [e]
    exact BKeeps.refl i

theorem fillScalar_safeB {h : Heap V} {s : Store} {v : V} (i : BInv h s) :
    M.Safe (fun st => st = (h, s)) (fillScalar v) (fun _ => BKeeps h s) (BKeeps h s) := by
  rintro _ rfl
  obtain ⟨b, hp, _, hl, _, hc⟩ := i.ptr
  have hsz := i.sz
  rw [fillScalar_ok hp hl (by omega)]
  exact BKeeps.setCells i hp _

theorem BInv.setSz {h : Heap V} {s : Store} (i : BInv h s) {n : Nat} (hn : n ≤ s.capacity) :
    BInv h { s with sz := n } := ⟨i.ptr, hn, i.cap, i.al⟩

theorem upd_safeB {h : Heap V} {s : Store} {f : Store → Store} (i : BInv h (f s))
    (hp : (f s).p = s.p) :
    M.Safe (fun st => st = (h, s)) (upd f) (fun _ => BKeeps h s) (BKeeps h s) := by
  rintro _ rfl
  exact ⟨rfl, rfl, fun _ _ => rfl, fun _ => ⟨rfl, rfl, rfl⟩, i, hp⟩

theorem borrowResize_safe {h : Heap V} {s : Store} {n : Nat} (i : BInv h s) :
    M.Safe (fun st => st = (h, s)) (borrowResize n) (fun _ => BKeeps h s) (BKeeps h s) := by
  unfold borrowResize
  refine M.Safe.bind (M.Safe.ass (fun _ h => by subst h; exact BKeeps.refl i)) (fun _ => ?_)
  refine M.Safe.bind (R := fun a st => a = s ∧ st = (h, s)) (by rintro _ ⟨rfl, _⟩; exact ⟨rfl, rfl⟩)
    (fun a => M.Safe.fix ?_)
  rintro _ ⟨rfl, rfl⟩
  refine M.Safe.ite (fun hc => upd_safeB (i.setSz hc) rfl) (fun _ => ?_)
  rintro _ rfl
  exact BKeeps.refl i

/-! ### Operations on the data member of either kind -/

section ops
variable {k : Nat} {bo : Nat → Bool}

/-- Element write on any named vector. -/
theorem safe_set {x j : Nat} {v : V} (hlt : x < k) :
    M.Safe (J k bo) (onSlot (x, false) (Store.set j v)) (fun _ => J k bo) (J k bo) := by
  refine M.Safe.fix (fun s0 I => ?_)
  cases hx : bo x with
  | false =>
    have i := I.inv.d x (by rw [I.bor]; exact hx)
    exact M.Safe.conseq (safe_d I hx hlt (set_safe i) (fun _ _ h => h.1)
      (fun st h => by subst h; exact ⟨i, Step.refl _ _⟩)) (fun _ h => h) (fun _ _ h => h.1)
      (fun _ h => h.1)
  | true =>
    have i := I.inv.b x (by rw [I.bor]; exact hx)
    exact M.Safe.conseq (safe_b I hx (set_safeB i) (fun _ _ h => h) (fun _ h => h)) (fun _ h => h)
      (fun _ _ h => h.1) (fun _ h => h.1)

/-- A step of one slot does not touch the memory of another owner. -/
theorem Inv.frame_step {s : Mach V} (I : Inv s) {y z : Slot} (hy : s.owned y) (hz : s.owned z)
    (hne : z ≠ y) {r : Heap V × Store} (st : Step s.heap (s.st y) r.1 r.2) :
    ∀ b, (s.st z).p = some b → r.1.blk b = s.heap.blk b := fun b hb =>
  st.frame b ((I.ownOf hz).ptr b hb).1 (fun hyb => hne (I.inj z y b hz hy hb hyb))

theorem Inv.frame_bor {s : Mach V} (I : Inv s) {x : Nat} {z : Slot} (hx : s.bor x = true)
    (hz : s.owned z) {r : Heap V × Store} (st : BKeeps s.heap (s.st (x, false)) r) :
    ∀ b, (s.st z).p = some b → r.1.blk b = s.heap.blk b := by
  intro b hb
  refine st.frame b (fun h => ?_)
  obtain ⟨b0, hb0, _, _, hnw, _⟩ := (I.b x hx).ptr
  rw [hb0] at h; simp only [Option.some.injEq] at h; subst h
  have := ((I.ownOf hz).ptr _ hb).2.2.1
  rw [hnw] at this; simp at this

/-- Element write on any named vector while `temp` of an object is in use. -/
theorem safe_set_keep {x j t : Nat} {v : V} (hlt : x < k) :
    M.Safe (fun s => J k bo s ∧ DInv s.heap (s.st (t, true)))
      (onSlot (x, false) (Store.set j v))
      (fun _ s => J k bo s ∧ DInv s.heap (s.st (t, true))) (J k bo) := by
  refine M.Safe.fix (fun s0 ⟨I, D⟩ => ?_)
  cases hx : bo x with
  | false =>
    have hb : s0.bor x = false := by rw [I.bor]; exact hx
    have i := I.inv.d x hb
    refine M.Safe.conseq (safe_d I hx hlt (set_safe i) (fun _ _ h => h.1)
      (fun st h => by subst h; exact ⟨i, Step.refl _ _⟩)) (fun _ h => h) ?_ (fun _ h => h.1)
    rintro _ s ⟨h1, st, ⟨⟨_, h2⟩, _⟩, rfl⟩
    refine ⟨h1, ?_⟩
    rw [put_ne _ _ (by simp)]
    exact DInv.frame' D h2.next_le (I.inv.frame_step (Or.inr hb) (Or.inl rfl) (by simp) h2)
  | true =>
    have hb : s0.bor x = true := by rw [I.bor]; exact hx
    have i := I.inv.b x hb
    refine M.Safe.conseq (safe_b I hx (set_safeB i) (fun _ _ h => h) (fun _ h => h)) (fun _ h => h)
      ?_ (fun _ h => h.1)
    rintro _ s ⟨h1, st, h2, rfl⟩
    refine ⟨h1, ?_⟩
    rw [put_ne _ _ (by simp)]
    exact DInv.frame' D (le_of_eq h2.next.symm) (I.inv.frame_bor hb (Or.inl rfl) h2)

theorem safe_resize_keep {zero : V} {x n t : Nat} (hlt : x < k) (hn : n ≤ 2 ^ 30) :
    M.Safe (fun s => J k bo s ∧ DInv s.heap (s.st (t, true))) (resize zero x n)
      (fun _ s => J k bo s ∧ DInv s.heap (s.st (t, true))) (J k bo) := by
  unfold resize
  refine M.Safe.fix (fun s0 ⟨I, D⟩ => ?_)
  refine M.Safe.bind M.Safe.get (fun a => M.Safe.fix ?_)
  rintro _ ⟨rfl, rfl⟩
  have hb : a.bor x = bo x := by rw [I.bor]
  refine M.Safe.ite (fun hx => ?_) (fun hx => ?_)
  · have i := I.inv.b x hx
    refine M.Safe.conseq (safe_b I (by rw [← hb]; exact hx) (borrowResize_safe i) (fun _ _ h => h)
      (fun _ h => h)) (fun _ h => h) ?_ (fun _ h => h.1)
    rintro _ s ⟨h1, st, h2, rfl⟩
    refine ⟨h1, ?_⟩
    rw [put_ne _ _ (by simp)]
    exact DInv.frame' D (le_of_eq h2.next.symm) (I.inv.frame_bor hx (Or.inl rfl) h2)
  · simp only [Bool.not_eq_true] at hx
    have i := I.inv.d x hx
    refine M.Safe.conseq (safe_d I (by rw [← hb]; exact hx) hlt (resize_safe I.inv.sched i hn)
      (fun _ _ h => h.1) (fun _ h => h)) (fun _ h => h) ?_ (fun _ h => h.1)
    rintro _ s ⟨h1, st, ⟨⟨_, h2⟩, _⟩, rfl⟩
    refine ⟨h1, ?_⟩
    rw [put_ne _ _ (by simp)]
    exact DInv.frame' D h2.next_le (I.inv.frame_step (Or.inr hx) (Or.inl rfl) (by simp) h2)

theorem safe_fill {x : Nat} {v : V} (hlt : x < k) :
    M.Safe (J k bo) (fill x v) (fun _ => J k bo) (J k bo) := by
  unfold fill
  refine M.Safe.fix (fun s0 I => ?_)
  cases hx : bo x with
  | false =>
    have i := I.inv.d x (by rw [I.bor]; exact hx)
    exact M.Safe.conseq (safe_d I hx hlt (fillScalar_safe i) (fun _ _ h => h.1)
      (fun st h => absurd h id)) (fun _ h => h) (fun _ _ h => h.1)
      (fun _ h => h.1)
  | true =>
    have i := I.inv.b x (by rw [I.bor]; exact hx)
    exact M.Safe.conseq (safe_b I hx (fillScalar_safeB i) (fun _ _ h => h) (fun _ h => h))
      (fun _ h => h) (fun _ _ h => h.1) (fun _ h => h.1)

theorem safe_resize {zero : V} {x n : Nat} (hlt : x < k) (hn : n ≤ 2 ^ 30) :
    M.Safe (J k bo) (resize zero x n) (fun _ => J k bo) (J k bo) := by
  unfold resize
  refine M.Safe.fix (fun s0 I => ?_)
  refine M.Safe.bind M.Safe.get (fun a => M.Safe.fix ?_)
  rintro _ ⟨rfl, rfl⟩
  have hb : a.bor x = bo x := by rw [I.bor]
  refine M.Safe.ite (fun hx => ?_) (fun hx => ?_)
  · have i := I.inv.b x hx
    exact M.Safe.conseq (safe_b I (by rw [← hb]; exact hx) (borrowResize_safe i) (fun _ _ h => h)
      (fun _ h => h)) (fun _ h => h) (fun _ _ h => h.1) (fun _ h => h.1)
  · simp only [Bool.not_eq_true] at hx
    have i := I.inv.d x hx
    exact M.Safe.conseq (safe_d I (by rw [← hb]; exact hx) hlt (resize_safe I.inv.sched i hn)
      (fun _ _ h => h.1) (fun _ h => h)) (fun _ h => h) (fun _ _ h => h.1) (fun _ h => h.1)

/-- Change of the matrix parameter. -/
theorem safe_mp {x : Nat} {mp : MP} (hlt : x < k) :
    M.Safe (J k bo) (onSlot (V := V) (x, false) (Store.upd (fun d => { d with mp := mp })))
      (fun _ => J k bo) (J k bo) := by
  refine M.Safe.fix (fun s0 I => ?_)
  cases hx : bo x with
  | false =>
    have i := I.inv.d x (by rw [I.bor]; exact hx)
    refine M.Safe.conseq (safe_d I hx hlt (Q := fun _ => Keeps s0.heap (s0.st (x, false)))
      (E := Keeps s0.heap (s0.st (x, false))) ?_ (fun _ _ h => h) (fun _ h => h)) (fun _ h => h)
      (fun _ _ h => h.1) (fun _ h => h.1)
    rintro _ rfl
    exact ⟨⟨⟨i.wf.ptr, i.wf.null⟩, i.al, i.sz, i.cap⟩, Step.of_ptr rfl⟩
  | true =>
    have i := I.inv.b x (by rw [I.bor]; exact hx)
    exact M.Safe.conseq (safe_b I hx (upd_safeB ⟨i.ptr, i.sz, i.cap, i.al⟩ rfl) (fun _ _ h => h)
      (fun _ h => h)) (fun _ h => h) (fun _ _ h => h.1) (fun _ h => h.1)

theorem safe_setDims {x : Nat} {e : Expr V} (hlt : x < k) :
    M.Safe (J k bo) (setDims x e) (fun _ => J k bo) (J k bo) := by
  unfold setDims
  refine M.Safe.bind (R := fun _ => J k bo) (M.Safe.conseq M.Safe.get (fun _ h => h)
    (fun _ _ h => h.2) (fun _ h => h)) (fun a => ?_)
  refine M.Safe.ite (fun _ => ?_) (fun _ => M.Safe.pure (fun _ h => h))
  refine M.Safe.bind (M.Safe.lift (Expr.nr_noMem e) (fun _ h => h)) (fun r => ?_)
  refine M.Safe.bind (M.Safe.conseq (M.Safe.lift (P := J k bo) (Expr.nc_noMem e) (fun _ h => h))
    (fun _ h => h.1) (fun _ _ h => h) (fun _ h => h)) (fun c => ?_)
  exact M.Safe.conseq (safe_mp hlt) (fun _ h => h.1) (fun _ _ h => h) (fun _ h => h)

/-- State of `temp` after it has been filled. -/
structure FT (s : Mach V) (t n : Nat) : Prop where
  inv : DInv s.heap (s.st (t, true))
  al : (s.st (t, true)).allocated = true
  ptr : (s.st (t, true)).p ≠ none
  sz : (s.st (t, true)).sz = n

theorem safe_get {α : Type} {P : Mach V → Prop} {f : Mach V → M (Mach V) α} {Q : α → Mach V → Prop}
    {E : Mach V → Prop} (h : ∀ s0, P s0 → M.Safe (fun s => s = s0) (f s0) Q E) :
    M.Safe P (M.get >>= f) Q E := by
  intro s hs
  exact h s hs s rfl

theorem safe_fillTemp {zero : V} {conv : V → Out V} {t : Nat} {e : Expr V} (hlt : t < k)
    (hc : ∀ v, (conv v).NoMem) (hf : e.FunSafe) {s0 : Mach V} (I : J k bo s0)
    (hn : e.size s0.env ≤ 2 ^ 30) :
    M.Safe (fun s => s = s0) (fillTemp zero conv t e)
      (fun _ s => J k bo s ∧ FT s t (e.size s0.env) ∧
        ∀ z, z ≠ (t, true) → s.st z = s0.st z) (J k bo) := by
  unfold fillTemp
  refine safe_get ?_
  rintro _ rfl
  rename_i a
  set n := e.size a.env with hsz
  set K : Mach V → Prop := fun s => J k bo s ∧ FT s t n ∧ ∀ z, z ≠ (t, true) → s.st z = a.st z
    with hK
  refine M.Safe.bind (R := fun _ => K) ?_ (fun _ => ?_)
  · refine M.Safe.conseq (safe_t I hlt (resize_temp_safe I.inv.sched (I.inv.t t).own
      (I.inv.t t).cap hn) (fun _ _ h => ⟨DInv.tinv h.1.1, h.1.2⟩)
      (fun st h => by subst h; exact ⟨I.inv.t t, Step.refl _ _⟩)) (fun _ h => h) ?_ (fun _ h => h.1)
    rintro _ s ⟨h1, st, ⟨⟨h2, _⟩, h3, h4, h5⟩, rfl⟩
    exact ⟨h1, ⟨by rw [put_same]; exact h2, by rw [put_same]; exact h5, by rw [put_same]; exact h4,
      by rw [put_same]; exact h3⟩, fun z hz => put_ne _ _ hz⟩
  · refine M.Safe.conseq (M.Safe.forN (I := fun _ => K) (E := J k bo) n ?_)
      (fun _ h => h) (fun _ _ h => h) (fun _ h => h)
    intro i _
    refine M.Safe.bind (M.Safe.reads (fun s h => h.1.inv.el_noMem hf i) (fun _ h => h.1))
      (fun v => ?_)
    refine M.Safe.bind (M.Safe.conseq (M.Safe.lift (P := K) (hc v)
      (fun _ h => h.1)) (fun _ h => h.1) (fun _ _ h => h) (fun _ h => h)) (fun w => ?_)
    refine M.Safe.fix ?_
    rintro s1 ⟨⟨I1, F1, D1⟩, _⟩
    refine M.Safe.conseq (safe_t I1 hlt (set_safe F1.inv) (fun _ _ h => ⟨DInv.tinv h.1.1, h.1.2⟩)
      (fun st h => by subst h; exact ⟨I1.inv.t t, Step.refl _ _⟩)) (fun _ h => h) ?_ (fun _ h => h.1)
    rintro _ s ⟨h1, st, ⟨⟨h2, _⟩, h3⟩, rfl⟩
    have e : (s1.put (t, true) st).st (t, true) = s1.st (t, true) := by rw [put_same, h3]
    exact ⟨h1, ⟨by rw [put_same]; exact h2, by rw [e]; exact F1.al, by rw [e]; exact F1.ptr,
      by rw [e]; exact F1.sz⟩, fun z hz => by rw [put_ne _ _ hz]; exact D1 z hz⟩

theorem safe_moveTemp {x n : Nat} (hlt : x < k) (hx : bo x = false) :
    M.Safe (fun s : Mach V => J k bo s ∧ FT s x n) (moveTemp x) (fun _ => J k bo) (J k bo) := by
  rintro s ⟨I, F⟩
  have hb : s.bor x = false := by rw [I.bor]; exact hx
  have i := I.inv.d x hb
  have f := F.inv
  have e1 : wrap64 (wrapI32 (s.st (x, true)).sz) = (s.st (x, true)).sz := by
    have := f.sz
    rw [wrapI32_small (by omega), wrap64_small (by omega)]
  have e2 : wrap64 (wrapI32 (s.st (x, true)).capacity) = (s.st (x, true)).capacity := by
    have := f.cap
    rw [wrapI32_small (by omega), wrap64_small (by omega)]
  unfold moveTemp
  rw [M.modify_apply]
  refine ⟨I.inv.swap hb (by rw [I.n]; exact hlt) (d' := (Store.moveit (s.st (x, false))
    (s.st (x, true))).1) (t' := (Store.moveit (s.st (x, false)) (s.st (x, true))).2) ?_ ?_ rfl rfl,
    I.n, I.bor⟩
  · unfold Store.moveit
    simp only [e1, e2]
    refine ⟨⟨?_, ?_⟩, fun _ => F.ptr, f.sz, f.cap⟩
    · intro b hb
      obtain ⟨h1, h2, h3, h4, h5, _⟩ := f.wf.ptr b hb
      exact ⟨h1, h2, h3, h4, h5, rfl⟩
    · intro hp; exact absurd hp F.ptr
  · unfold Store.moveit
    refine ⟨⟨?_, fun hp => (i.wf.null hp).2⟩, i.cap⟩
    intro b hb
    obtain ⟨h1, h2, h3, h4, h5, _⟩ := i.wf.ptr b hb
    exact ⟨h1, h2, h3, h5, F.al⟩

theorem safe_assign {zero : V} {conv : V → Out V} {x : Nat} {e : Expr V} (hlt : x < k)
    (hc : ∀ v, (conv v).NoMem) (hf : e.FunSafe) :
    M.Safe (fun s => J k bo s ∧ e.size s.env ≤ 2 ^ 30) (assign zero conv x e)
      (fun _ => J k bo) (J k bo) := by
  unfold assign
  refine safe_get ?_
  rintro a ⟨I, hsz⟩
  have hb : a.bor x = bo x := by rw [I.bor]
  refine M.Safe.ite (fun hx => ?_) (fun hx => ?_)
  · -- Borrow
    have hx' : bo x = true := by rw [← hb]; exact hx
    unfold assignBorrow
    refine safe_get ?_
    rintro _ rfl
    rename_i a
    have i := I.inv.b x hx
    refine M.Safe.bind (M.Safe.ass (fun _ h => by subst h; exact I)) (fun _ => M.Safe.fix ?_)
    rintro _ ⟨rfl, hcap⟩
    rename_i a
    refine M.Safe.bind (safe_fillTemp (zero := zero) hlt hc hf I hsz) (fun _ => ?_)
    refine safe_get ?_
    rintro s2 ⟨I2, F2, D2⟩
    have esz : e.size s2.env = e.size a.env := by
      refine Expr.size_congr ?_ e
      intro y
      show (s2.st (y, false)).sz = (a.st (y, false)).sz
      rw [D2 _ (by simp)]
    refine M.Safe.bind (M.Safe.ass (fun _ h => by subst h; exact I2)) (fun _ => M.Safe.fix ?_)
    rintro _ ⟨rfl, _⟩
    rename_i s2
    have i2 := I2.inv.b x (by rw [I2.bor]; exact hx')
    refine M.Safe.bind (R := fun _ s => J k bo s ∧ DInv s.heap (s.st (x, true))) ?_ (fun _ => ?_)
    · refine M.Safe.conseq (safe_b I2 hx' (upd_safeB (i2.setSz ?_) rfl) (fun _ _ h => h)
        (fun _ h => h)) (fun _ h => h) ?_ (fun _ h => h.1)
      · rw [esz, D2 _ (by simp)]; exact hcap
      · rintro _ s ⟨h1, st, h2, rfl⟩
        refine ⟨h1, ?_⟩
        rw [put_ne _ _ (by simp)]
        exact DInv.frame' F2.inv (le_of_eq h2.next.symm)
          (I2.inv.frame_bor (by rw [I2.bor]; exact hx') (Or.inl rfl) h2)
    refine safe_get ?_
    rintro s3 ⟨I3, D3⟩
    refine M.Safe.bind (R := fun _ => J k bo) ?_ (fun _ => safe_setDims hlt)
    refine M.Safe.conseq (M.Safe.forN (I := fun _ s => J k bo s ∧ DInv s.heap (s.st (x, true)))
      (E := J k bo) _ ?_) ?_ (fun _ _ h => h.1) (fun _ h => h)
    · intro j _
      refine M.Safe.bind (M.Safe.reads (fun s h => get_no_memory h.2.wf j) (fun _ h => h.1))
        (fun v => ?_)
      exact M.Safe.conseq (safe_set_keep hlt) (fun _ h => h.1) (fun _ _ h => h) (fun _ h => h)
    · rintro _ rfl; exact ⟨I3, D3⟩
  · have hx' : bo x = false := by rw [← hb]; simpa using hx
    unfold assignBuffer
    refine M.Safe.bind (safe_fillTemp (zero := zero) hlt hc hf I hsz) (fun _ => ?_)
    refine M.Safe.bind (M.Safe.conseq (safe_moveTemp hlt hx') (fun _ h => ⟨h.1, h.2.1⟩)
      (fun _ _ h => h) (fun _ h => h)) (fun _ => safe_setDims hlt)

theorem safe_assignScalar {zero : V} {x : Nat} {v : V} (hlt : x < k) :
    M.Safe (J k bo) (assignScalar zero x v) (fun _ => J k bo) (J k bo) := by
  unfold assignScalar
  refine safe_get (fun a I => ?_)
  have hb : a.bor x = bo x := by rw [I.bor]
  by_cases hx : a.bor x = true
  · rw [if_pos hx]
    have i := I.inv.b x hx
    refine M.Safe.bind (R := fun _ => J k bo) ?_ (fun _ => safe_set hlt)
    exact M.Safe.conseq (safe_b I (by rw [← hb]; exact hx) (upd_safeB (i.setSz i.cap) rfl)
      (fun _ _ h => h) (fun _ h => h)) (fun _ h => h) (fun _ _ h => h.1) (fun _ h => h.1)
  · rw [if_neg hx]
    simp only [Bool.not_eq_true] at hx
    have i := I.inv.d x hx
    refine M.Safe.bind (R := fun _ => J k bo) ?_ (fun _ => safe_set hlt)
    exact M.Safe.conseq (safe_d I (by rw [← hb]; exact hx) hlt (resize_safe I.inv.sched i (by omega))
      (fun _ _ h => h.1) (fun _ h => h)) (fun _ h => h) (fun _ _ h => h.1) (fun _ h => h.1)

theorem safe_subSet_keep {x t pos : Nat} {ind : List Nat} {v : V} (hlt : x < k) :
    M.Safe (fun s => J k bo s ∧ DInv s.heap (s.st (t, true))) (subSet x ind pos v)
      (fun _ s => J k bo s ∧ DInv s.heap (s.st (t, true))) (J k bo) := by
  unfold subSet
  refine safe_get ?_
  rintro a ⟨I, D⟩
  refine M.Safe.bind (M.Safe.lift (modz_noMem _ _) (fun _ h => by subst h; exact I)) (fun p => ?_)
  refine M.Safe.bind (M.Safe.conseq (M.Safe.lift (P := fun s => s = a) (getL_noMem _ _)
    (fun _ h => h)) (fun _ h => h.1) (fun _ _ h => h) (fun _ h => by subst h; exact I)) (fun j => ?_)
  exact M.Safe.conseq (safe_set_keep hlt) (fun _ h => by rw [h.1]; exact ⟨I, D⟩) (fun _ _ h => h)
    (fun _ h => h)

theorem safe_subSet {x pos : Nat} {ind : List Nat} {v : V} (hlt : x < k) :
    M.Safe (J k bo) (subSet x ind pos v) (fun _ => J k bo) (J k bo) := by
  unfold subSet
  refine safe_get (fun a I => ?_)
  refine M.Safe.bind (M.Safe.lift (modz_noMem _ _) (fun _ h => by subst h; exact I)) (fun p => ?_)
  refine M.Safe.bind (M.Safe.conseq (M.Safe.lift (P := fun s => s = a) (getL_noMem _ _)
    (fun _ h => h)) (fun _ h => h.1) (fun _ _ h => h) (fun _ h => by subst h; exact I)) (fun j => ?_)
  exact M.Safe.conseq (safe_set hlt) (fun _ h => by rw [h.1]; exact I) (fun _ _ h => h)
    (fun _ h => h)

theorem safe_subAssignScalar {x : Nat} {ind : List Nat} {v : V} (hlt : x < k) :
    M.Safe (J k bo) (subAssignScalar x ind v) (fun _ => J k bo) (J k bo) := by
  unfold subAssignScalar
  exact M.Safe.forN (I := fun _ => J k bo) _ (fun i _ => safe_subSet hlt)

theorem safe_subAssignBody {zero : V} {conv : V → Out V} {same : Bool} {x t : Nat} {ind : List Nat}
    {e : Expr V} (hlt : x < k) (hlt' : t < k) (hc : ∀ v, (conv v).NoMem) (hf : e.FunSafe)
    (hi : ind.length ≤ 2 ^ 30) :
    M.Safe (J k bo) (subAssignBody zero conv same x ind e t) (fun _ => J k bo) (J k bo) := by
  unfold subAssignBody
  refine safe_get (fun a I => ?_)
  refine M.Safe.bind (M.Safe.ass (fun _ h => by subst h; exact I)) (fun _ => M.Safe.fix ?_)
  rintro _ ⟨rfl, hsz⟩
  rename_i a
  refine M.Safe.bind (safe_fillTemp (zero := zero) hlt' hc hf I (by rw [hsz]; exact hi)) (fun _ => ?_)
  refine safe_get ?_
  rintro s2 ⟨I2, F2, D2⟩
  have loop : M.Safe (fun s : Mach V => J k bo s ∧ DInv s.heap (s.st (t, true)))
      (M.forN ind.length (fun i => do
        let v ← M.reads (fun s => (s.st (t, true)).get s.heap i)
        subSet x ind (i % ind.length) v)) (fun _ => J k bo) (J k bo) := by
    refine M.Safe.conseq (M.Safe.forN (I := fun _ s => J k bo s ∧ DInv s.heap (s.st (t, true)))
      (E := J k bo) _ ?_) (fun _ h => h) (fun _ _ h => h.1) (fun _ h => h)
    intro j _
    refine M.Safe.bind (M.Safe.reads (fun s h => get_no_memory h.2.wf j) (fun _ h => h.1))
      (fun v => ?_)
    exact M.Safe.conseq (safe_subSet_keep hlt) (fun _ h => h.1) (fun _ _ h => h) (fun _ h => h)
  split
  · refine M.Safe.bind (M.Safe.conseq (safe_resize_keep hlt ?_) ?_ (fun _ _ h => h) (fun _ h => h))
      (fun _ => loop)
    · rw [F2.sz, hsz]; exact hi
    · rintro _ rfl; exact ⟨I2, F2.inv⟩
  · exact M.Safe.conseq loop (by rintro _ rfl; exact ⟨I2, F2.inv⟩) (fun _ _ h => h) (fun _ h => h)

theorem safe_pushBack {zero : V} {x : Nat} {v : V} (hlt : x < k) (hx : bo x = false) :
    M.Safe (fun s => J k bo s ∧ (s.st (x, false)).sz < 2 ^ 29) (pushBack zero x v)
      (fun _ => J k bo) (J k bo) := by
  refine M.Safe.fix ?_
  rintro s0 ⟨I, hs⟩
  have i := I.inv.d x (by rw [I.bor]; exact hx)
  exact M.Safe.conseq (safe_d I hx hlt (pushBack_safe I.inv.sched i hs)
      (fun _ _ h => h) (fun _ h => h)) (fun _ h => h) (fun _ _ h => h.1) (fun _ h => h.1)

theorem safe_storeAssign {zero : V} {x y : Nat} (hlt : x < k) (hx : bo x = false)
    (hy : bo y = false) (hne : x ≠ y) :
    M.Safe (J k bo) (storeAssign zero x y) (fun _ => J k bo) (J k bo) := by
  unfold storeAssign
  refine safe_get (fun s0 I => ?_)
  have hbx : s0.bor x = false := by rw [I.bor]; exact hx
  have hby : s0.bor y = false := by rw [I.bor]; exact hy
  have i := I.inv.d x hbx
  have i' := I.inv.d y hby
  refine M.Safe.conseq (safe_d I hx hlt (assign_safe I.inv.sched i i' ?_)
      (fun _ _ h => h) (fun _ h => h)) (fun _ h => h) (fun _ _ h => h.1) (fun _ h => h.1)
  intro b hb hb'
  have := I.inv.inj (x, false) (y, false) b (Or.inr hbx) (Or.inr hby) hb' hb
  simp only [Prod.mk.injEq, and_true] at this
  exact hne this

/-- Memory behind a data member: enough for its size, or size zero. -/
theorem Inv.readable {s : Mach V} (I : Inv s) (x : Nat) : (s.st (x, false)).sz = 0 ∨
    ∃ b, (s.st (x, false)).p = some b ∧ (s.heap.blk b).live = true ∧
      (s.st (x, false)).sz ≤ (s.heap.blk b).len := by
  cases hx : s.bor x with
  | false =>
    have i := I.d x hx
    cases hp : (s.st (x, false)).p with
    | none => exact Or.inl (i.wf.null hp).1
    | some b =>
      obtain ⟨_, h1, _, h3, _, _⟩ := i.wf.ptr b hp
      exact Or.inr ⟨b, rfl, h1, h3⟩
  | true =>
    have i := I.b x hx
    obtain ⟨b, hp, _, hl, _, hc⟩ := i.ptr
    have := i.sz
    exact Or.inr ⟨b, hp, hl, by omega⟩

theorem get_no_memory' {h : Heap V} {o : Store} (ho : o.sz = 0 ∨ ∃ c, o.p = some c ∧ (h.blk c).live = true ∧ o.sz ≤ (h.blk c).len)
    (i : Nat) (k : UB) (e : o.get h i = .ub k) : k.memory = false := by
  unfold Store.get Store.checkIdx at e
  by_cases ha : o.allocated = true
  · by_cases hi : i < o.sz
    · rw [Out.ass_pos ha, Out.ok_bind, Out.ass_pos hi, Out.ok_bind] at e
      rcases ho with h0 | ⟨c, hc, h1, h2⟩
      · omega
      · rw [hc] at e
        exact load_no_memory h1 (by omega) k e
    · rw [Out.ass_pos ha, Out.ok_bind, Out.ass_neg hi] at e
      simp at e
  · rw [Out.ass_neg ha] at e; simp at e

/-- `fill` from any vector whose memory can be read. -/
theorem fillVec_safe {h : Heap V} {s o : Store} {b : Nat} (hp : s.p = some b) (hl : (h.blk b).live = true)
    (hlen : s.sz ≤ (h.blk b).len) (ho : o.sz = 0 ∨ ∃ c, o.p = some c ∧ (h.blk c).live = true ∧ o.sz ≤ (h.blk c).len) :
    M.Safe (fun st => st = (h, s)) (Store.fillVec o) (fun _ st => ∃ f, st = (h.setCells b f, s))
      (fun st => ∃ f, st = (h.setCells b f, s)) := by
  have h0 : ∀ st : Heap V × Store, st = (h, s) → ∃ f, st = (h.setCells b f, s) := fun _ e => ⟨(h.blk b).cell, by rw [e, Heap.setCells_self]⟩
  unfold Store.fillVec Store.fillLoop
  intro st e
  subst e
  rw [M.bind_ok (self_apply _)]
  refine M.Safe.bind (P := fun st => st = (h, s)) (M.Safe.ass h0) (fun _ => ?_) (h, s) rfl
  refine M.Safe.conseq (M.Safe.forN (I := fun _ st => ∃ f, st = (h.setCells b f, s)) (E := fun st => ∃ f, st = (h.setCells b f, s)) _ ?_)
    (fun st h => h0 st h.1) (fun _ _ h => h) (fun _ h => h)
  intro i hi
  refine M.Safe.bind (M.Safe.reads ?_ (fun _ h => h)) (fun v => ?_)
  · rintro _ ⟨f, rfl⟩ k e
    refine get_no_memory' (h := h.setCells b f) ?_ i k e
    simpa using ho
  · rintro _ ⟨⟨f, rfl⟩, _⟩
    simp only [] at hi
    have e := heapM_ok s (Heap.store_some (h := h.setCells b f) (b := b) (i := i) (v := v) (by simpa using hl)
      (by simp only [Heap.setCells_len]; omega))
    rw [← hp] at e
    simp only [e]
    exact ⟨_, by rw [Heap.setCells_setCells]⟩

theorem safe_fillVec {x y : Nat} (hlt : x < k) :
    M.Safe (fun s : Mach V => J k bo s) (fillVec x y) (fun _ => J k bo) (J k bo) := by
  unfold fillVec
  refine safe_get ?_
  intro s0 I
  have ho := I.inv.readable y
  -- what the loop does
  have key : M.Safe (fun st => st = (s0.heap, s0.st (x, false))) (Store.fillVec (s0.st (y, false)))
      (fun _ st => st = (s0.heap, s0.st (x, false)) ∨ ∃ b f, (s0.st (x, false)).p = some b ∧ st = (s0.heap.setCells b f, s0.st (x, false)))
      (fun st => st = (s0.heap, s0.st (x, false)) ∨ ∃ b f, (s0.st (x, false)).p = some b ∧ st = (s0.heap.setCells b f, s0.st (x, false))) := by
    rcases I.inv.readable x with h0 | ⟨b, hb, hl, hlen⟩
    · rintro _ rfl
      by_cases hz : (s0.st (y, false)).sz = (s0.st (x, false)).sz
      · rw [fillVec_nil hz h0]; exact Or.inl rfl
      · rw [fillVec_thr hz]; exact Or.inl rfl
    · exact M.Safe.conseq (fillVec_safe hb hl hlen ho) (fun _ h => h) (fun _ _ ⟨f, h⟩ => Or.inr ⟨b, f, hb, h⟩)
        (fun _ ⟨f, h⟩ => Or.inr ⟨b, f, hb, h⟩)
  cases hx : bo x with
  | false =>
    have i := I.inv.d x (by rw [I.bor]; exact hx)
    have fin : ∀ st : Heap V × Store, (st = (s0.heap, s0.st (x, false)) ∨ ∃ b f, (s0.st (x, false)).p = some b ∧
        st = (s0.heap.setCells b f, s0.st (x, false))) → Keeps s0.heap (s0.st (x, false)) st := by
      rintro st (rfl | ⟨b, f, hb, rfl⟩)
      · exact ⟨i, Step.refl _ _⟩
      · exact ⟨⟨i.wf.setCells _ _, i.al, i.sz, i.cap⟩, Step.setCells hb _ _ rfl⟩
    exact M.Safe.conseq (safe_d I hx hlt (Q := fun _ => Keeps s0.heap (s0.st (x, false)))
      (E := Keeps s0.heap (s0.st (x, false))) (M.Safe.conseq key (fun _ h => h) (fun _ st h => fin st h) fin) (fun _ _ h => h) (fun _ h => h)) (fun _ h => h)
      (fun _ _ h => h.1) (fun _ h => h.1)
  | true =>
    have i := I.inv.b x (by rw [I.bor]; exact hx)
    have fin : ∀ st : Heap V × Store, (st = (s0.heap, s0.st (x, false)) ∨ ∃ b f, (s0.st (x, false)).p = some b ∧
        st = (s0.heap.setCells b f, s0.st (x, false))) → BKeeps s0.heap (s0.st (x, false)) st := by
      rintro st (rfl | ⟨b, f, hb, rfl⟩)
      · exact BKeeps.refl i
      · exact BKeeps.setCells i hb f
    exact M.Safe.conseq (safe_b I hx (Q := fun _ => BKeeps s0.heap (s0.st (x, false)))
      (E := BKeeps s0.heap (s0.st (x, false))) (M.Safe.conseq key (fun _ h => h) (fun _ st h => fin st h) fin) (fun _ _ h => h) (fun _ h => h)) (fun _ h => h)
      (fun _ _ h => h.1) (fun _ h => h.1)

/-- Destruction of an object. -/
theorem safe_destroy {x : Nat} {s0 : Mach V} (I : Inv s0) (hlt : x < s0.n) :
    ∃ s', destroy x s0 = (.ok (), s') ∧ Inv s' ∧ s'.n = s0.n ∧
      (∀ y, y.1 = x → s'.st y = {}) ∧ (∀ y, y.1 ≠ x → s'.st y = s0.st y) ∧
      (s'.bor = fun y => if y = x then false else s0.bor y) ∧
      s0.heap.next = s'.heap.next ∧
      (∀ b, (∀ y, y.1 = x → s0.owned y → (s0.st y).p ≠ some b) →
        s'.heap.blk b = s0.heap.blk b) ∧
      (∀ b, (s'.heap.blk b).cell = (s0.heap.blk b).cell) := by
  -- dtor as an equation
  have hd : ∀ (h : Heap V) (s : Store), Own h s → ∃ h' s', Store.dtor (h, s) = (.ok (), (h', s')) ∧
      s'.p = none ∧ Step h s h' s' ∧ TInv h' s' ∧ (s.p = none → s' = s) ∧
      (s.p ≠ none → s'.sz = 0 ∧ s'.capacity = 0 ∧ s'.allocated = false) ∧ h'.next = h.next ∧
      (∀ b, (h'.blk b).cell = (h.blk b).cell) ∧ (∀ b, s.p ≠ some b → h'.blk b = h.blk b) := by
    intro h s o
    cases hp : s.p with
    | none =>
      refine ⟨h, s, dtor_none hp, hp, Step.refl _ _, ⟨o, ?_⟩, fun _ => rfl, by simp, rfl,
        fun _ => rfl, fun _ _ => rfl⟩
      have := o.null hp; omega
    | some b =>
      refine ⟨_, _, dtor_some o hp, rfl, Step.kill hp rfl, ⟨⟨by simp, by simp⟩, by simp⟩, by simp,
        fun _ => ⟨rfl, rfl, rfl⟩, rfl, ?_, ?_⟩
      · intro c
        by_cases hc : c = b
        · subst hc; simp [Heap.kill]
        · rw [Heap.kill_ne _ hc]
      · intro c hc
        exact Heap.kill_ne _ (by rintro rfl; exact hc rfl)
  obtain ⟨h1, s1, e1, p1, st1, t1, n1, z1, nx1, c1, f1⟩ := hd s0.heap (s0.st (x, true)) (I.t x).own
  set m1 := s0.put (x, true) (h1, s1) with hm1
  have I1 : Inv m1 := I.step (Or.inl rfl) hlt st1 (fun h => by simp at h) (fun _ => t1)
  have a1 : onSlot (x, true) Store.dtor s0 = (.ok (), m1) := by
    rw [onSlot_apply, e1]
  cases hx : s0.bor x with
  | true =>
    refine ⟨_, ?_, I1.reset (x := x) (by rw [hm1, put_same]; exact p1)
      (by intro h; rw [hm1, put_bor, hx] at h; simp at h), rfl, ?_, ?_, rfl, ?_, ?_, ?_⟩
    · unfold destroy
      rw [M.bind_ok a1, M.bind_ok (M.get_apply _)]
      rw [if_neg (by rw [hm1, put_bor, hx]; simp)]
      rfl
    · intro y hy; simp [hy]
    · intro y hy
      simp only [hy, if_false]
      rw [hm1, put_ne _ _ (by rintro rfl; exact hy rfl)]
    · exact nx1.symm
    · intro b hb
      exact f1 b (hb (x, true) rfl (Or.inl rfl))
    · exact c1
  | false =>
    have od : DInv m1.heap (m1.st (x, false)) := I1.d x hx
    obtain ⟨h2, s2, e2, p2, st2, t2, n2, z2, nx2, c2, f2⟩ := hd m1.heap (m1.st (x, false)) od.wf.own
    set m2 := m1.put (x, false) (h2, s2) with hm2
    have hst2 : m1.st (x, false) = s0.st (x, false) := by rw [hm1, put_ne _ _ (by simp)]
    have I2 : Inv m2 := by
      refine I1.step (y := (x, false)) (Or.inr hx) hlt st2 (fun _ => ?_) (fun h => by simp at h)
      by_cases hp : (m1.st (x, false)).p = none
      · simp only []
        rw [n2 hp]
        refine DInv.frame' od st2.next_le ?_
        intro b hb; rw [hp] at hb; simp at hb
      · obtain ⟨q1, q2, q3⟩ := z2 hp
        refine ⟨⟨by simp [p2], fun _ => ⟨q1, q2⟩⟩, by simp [q3], by simp [q1], by simp [q2]⟩
    have a2 : onSlot (x, false) Store.dtor m1 = (.ok (), m2) := by
      rw [onSlot_apply, e2]
    refine ⟨_, ?_, I2.reset (x := x) (by rw [hm2, put_ne _ _ (by simp), hm1, put_same]; exact p1)
      (by intro _; rw [hm2, put_same]; exact p2), rfl, ?_, ?_, rfl, ?_, ?_, ?_⟩
    · unfold destroy
      rw [M.bind_ok a1, M.bind_ok (M.get_apply _)]
      rw [if_pos (by rw [hm1, put_bor, hx]; simp), M.bind_ok a2]
      rfl
    · intro y hy; simp [hy]
    · intro y hy
      simp only [hy, if_false]
      rw [hm2, put_ne _ _ (by rintro rfl; exact hy rfl), hm1,
        put_ne _ _ (by rintro rfl; exact hy rfl)]
    · show s0.heap.next = h2.next
      rw [nx2]; exact nx1.symm
    · intro b hb
      show h2.blk b = s0.heap.blk b
      rw [f2 b (by rw [hst2]; exact hb (x, false) rfl (Or.inr hx))]
      exact f1 b (hb (x, true) rfl (Or.inl rfl))
    · intro b
      show (h2.blk b).cell = _
      rw [c2]; exact c1 b

omit k bo in
theorem decl_ok {body : Nat → M (Mach V) Unit} {s s' : Mach V} {a : Unit}
    (h : body s.n s.bump = (.ok a, s')) : decl body s = (.ok (), s') := by
  have h' : body s.n { s with n := s.n + 1 } = (.ok a, s') := h
  unfold decl; rw [h']

omit k bo in
theorem decl_ub {body : Nat → M (Mach V) Unit} {s s' : Mach V} {u : UB}
    (h : body s.n s.bump = (.ub u, s')) : decl body s = (.ub u, s') := by
  have h' : body s.n { s with n := s.n + 1 } = (.ub u, s') := h
  unfold decl; rw [h']

omit k bo in
theorem decl_thr {body : Nat → M (Mach V) Unit} {s s' : Mach V} {e : String}
    (h : body s.n s.bump = (.thr e, s')) :
    decl body s = (destroy s.n >>= fun _ => M.lift (.thr e)) s' := by
  have h' : body s.n { s with n := s.n + 1 } = (.thr e, s') := h
  unfold decl; rw [h']

omit k bo in
theorem withTmp_ok {body : Nat → M (Mach V) Unit} {s s' : Mach V} {a : Unit}
    (h : body s.n s.bump = (.ok a, s')) : withTmp body s = destroy s.n s' := by
  have h' : body s.n { s with n := s.n + 1 } = (.ok a, s') := h
  unfold withTmp; rw [h']

omit k bo in
theorem withTmp_ub {body : Nat → M (Mach V) Unit} {s s' : Mach V} {u : UB}
    (h : body s.n s.bump = (.ub u, s')) : withTmp body s = (.ub u, s') := by
  have h' : body s.n { s with n := s.n + 1 } = (.ub u, s') := h
  unfold withTmp; rw [h']

omit k bo in
theorem withTmp_thr {body : Nat → M (Mach V) Unit} {s s' : Mach V} {e : String}
    (h : body s.n s.bump = (.thr e, s')) :
    withTmp body s = (destroy s.n >>= fun _ => M.lift (.thr e)) s' := by
  have h' : body s.n { s with n := s.n + 1 } = (.thr e, s') := h
  unfold withTmp; rw [h']

theorem safe_decl {body : Nat → M (Mach V) Unit} {s0 : Mach V}
    (h : M.Safe (fun s => s = s0.bump) (body s0.n) (fun _ s => Inv s ∧ s0.n < s.n)
      (fun s => Inv s ∧ s0.n < s.n)) :
    M.Safe (fun s => s = s0) (decl body) (fun _ s => Inv s ∧ s0.n < s.n)
      (fun s => Inv s ∧ s0.n < s.n) := by
  intro s hs
  subst hs
  have := h _ rfl
  rcases hb : body s.n s.bump with ⟨o, s'⟩
  rw [hb] at this
  cases o with
  | ok a => rw [decl_ok hb]; exact this
  | thr e =>
    obtain ⟨I', hlt⟩ := this
    obtain ⟨s2, e2, I2, n2, _⟩ := safe_destroy I' hlt
    rw [decl_thr hb, M.bind_ok e2]
    exact ⟨I2, by rw [n2]; exact hlt⟩
  | ub k => rw [decl_ub hb]; exact this

theorem safe_withTmp {body : Nat → M (Mach V) Unit} {s0 : Mach V}
    (h : M.Safe (fun s => s = s0.bump) (body s0.n) (fun _ s => Inv s ∧ s0.n < s.n)
      (fun s => Inv s ∧ s0.n < s.n)) :
    M.Safe (fun s => s = s0) (withTmp body) (fun _ => Inv) Inv := by
  intro s hs
  subst hs
  have := h _ rfl
  rcases hb : body s.n s.bump with ⟨o, s'⟩
  rw [hb] at this
  cases o with
  | ok a =>
    obtain ⟨I', hlt⟩ := this
    obtain ⟨s2, e2, I2, _⟩ := safe_destroy I' hlt
    rw [withTmp_ok hb, e2]
    exact I2
  | thr e =>
    obtain ⟨I', hlt⟩ := this
    obtain ⟨s2, e2, I2, _⟩ := safe_destroy I' hlt
    rw [withTmp_thr hb, M.bind_ok e2]
    exact I2
  | ub k => rw [withTmp_ub hb]; exact this

end ops
end Mach
end ETR
