import Verif.Lemmas.MachExec
import Verif.Lemmas.Eval
import Verif.Spec.Program

/-! Functional correctness of the machine operations with respect to the naive program semantics. -/

namespace ETR

theorem M.reads_lift {σ α β γ : Type} (f : σ → Out α) (g : α → Out β) (k : β → M σ γ) :
    (M.reads f >>= fun v => M.lift (g v) >>= k) = (M.reads (fun s => f s >>= g) >>= k) := by
  funext s
  simp only [M.bind_apply, M.reads_apply]
  rcases f s with a | e | u
  · simp only [M.bind_apply, M.lift_apply, Out.ok_bind]
  · simp
  · simp

theorem M.ass_pos {σ : Type} {c : Prop} [Decidable c] {msg : String} (h : c) (s : σ) :
    (M.ass c msg : M σ Unit) s = (.ok (), s) := by
  unfold M.ass; rw [M.lift_apply, Out.ass_pos h]

theorem M.ass_neg {σ : Type} {c : Prop} [Decidable c] {msg : String} (h : ¬ c) (s : σ) :
    (M.ass c msg : M σ Unit) s = (.thr msg, s) := by
  unfold M.ass; rw [M.lift_apply, Out.ass_neg h]

namespace Mach
variable {V : Type}
open Store Spec

@[simp] theorem put_put (s : Mach V) (y : Slot) (r r' : Heap V × Store) :
    (s.put y r).put y r' = s.put y r' := by
  unfold put
  simp only [Mach.mk.injEq, and_true, true_and]
  funext z; split <;> simp_all

theorem put_self (s : Mach V) (y : Slot) : s.put y (s.heap, s.st y) = s := by
  unfold put
  cases s with
  | mk h st n b =>
    simp only [Mach.mk.injEq, and_true, true_and]
    funext z; split <;> simp_all

theorem onSlot_ok {α : Type} {y : Slot} {m : SM V α} {s : Mach V} {a : α} {r : Heap V × Store}
    (e : m (s.heap, s.st y) = (.ok a, r)) : onSlot y m s = (.ok a, s.put y r) := by
  rw [onSlot_apply, e]

/-- A change of a `temp` member does not change what expressions see. -/
theorem Inv.env_put {s : Mach V} (I : Inv s) {t : Nat} {r : Heap V × Store}
    (st : Step s.heap (s.st (t, true)) r.1 r.2) : (s.put (t, true) r).env = s.env := by
  have fr : ∀ x b, (s.st (x, false)).p = some b → r.1.blk b = s.heap.blk b := by
    intro x b hb
    cases hx : s.bor x with
    | false => exact I.frame_step (Or.inl rfl) (Or.inr hx) (by simp) st b hb
    | true =>
      obtain ⟨b', h1, h2, _, h4, _⟩ := (I.b x hx).ptr
      rw [hb] at h1; simp only [Option.some.injEq] at h1; subst h1
      refine st.frame b h2 (fun hyb => ?_)
      have := ((I.t t).own.ptr b hyb).2.2.1
      rw [h4] at this; simp at this
  unfold env
  have e : ∀ x, (s.put (t, true) r).st (x, false) = s.st (x, false) := fun x => put_ne _ _ (by simp)
  simp only [e, put_heap, Env.mk.injEq, true_and, and_true]
  funext x i
  exact get_frame (fr x) i

/-- Writing the elements of a slot one after the other. -/
theorem slotLoop {s0 : Mach V} {z : Slot} {g : Nat → Mach V → Out V} {L : List V} {h1 : Heap V}
    {d1 : Store} (w : WF h1 d1) (hz : d1.sz = L.length)
    (hg : ∀ i (hi : i < L.length), ∀ h', WF h' d1 → Step h1 d1 h' d1 →
      g i (s0.put z (h', d1)) = .ok L[i]) :
    ∃ h2, M.forN L.length (fun i => do
        let v ← M.reads (g i)
        onSlot z (Store.set i v)) (s0.put z (h1, d1)) = (.ok (), s0.put z (h2, d1)) ∧
      WF h2 d1 ∧ Shows h2 d1 L ∧ Step h1 d1 h2 d1 := by
  by_cases hL : L = []
  · subst hL
    exact ⟨h1, rfl, w, shows_nil hz, Step.refl _ _⟩
  have hpos := List.length_pos_iff.mpr hL
  obtain ⟨b, hp⟩ : ∃ b, d1.p = some b := by
    cases hp : d1.p with
    | none => have := w.null hp; omega
    | some b => exact ⟨b, rfl⟩
  obtain ⟨s2, e2, h2, rfl, w2, st2, c2⟩ := M.forN_ok (σ := Mach V)
    (I := fun i s => ∃ h', s = s0.put z (h', d1) ∧ WF h' d1 ∧ Step h1 d1 h' d1 ∧
      ∀ j (hj : j < L.length), j < i → (h'.blk b).cell j = some L[j]) L.length
    (f := fun i => do
        let v ← M.reads (g i)
        onSlot z (Store.set i v)) (s := s0.put z (h1, d1))
    ⟨h1, rfl, w, Step.refl _ _, fun j _ hj => by omega⟩ (by
      rintro i s hi ⟨h', rfl, w', st', c'⟩
      refine ⟨s0.put z (h'.setCells b (fun j => if j = i then some L[i] else (h'.blk b).cell j), d1),
        ?_, _, rfl, w'.setCells _ _, st'.trans w.own (Step.setCells hp _ _ rfl), ?_⟩
      · rw [M.bind_ok (show M.reads (g i) (s0.put z (h', d1)) = (.ok L[i], _) by
          rw [M.reads_apply, hg i hi h' w' st'])]
        rw [onSlot_ok (r := (h'.setCells b (fun j => if j = i then some L[i]
          else (h'.blk b).cell j), d1)) (a := ()), put_put]
        rw [put_heap, put_same]
        exact set_ok w' hp (by simp only []; omega)
      · intro j hj hji
        rw [Heap.setCells_cell]
        by_cases hje : j = i
        · subst hje; simp
        · rw [if_neg hje]; exact c' j hj (by omega))
  exact ⟨h2, e2, w2, shows_of_cells w2 hp hz (fun i hi => c2 i hi hi), st2⟩

/-- The evaluation loop of an assignment puts the elements of the expression into `temp`. -/
theorem fillTemp_ok {zero : V} {conv : V → Out V} {t : Nat} {e : Expr V} {s0 : Mach V} {L : List V}
    (I : Inv s0) (hal : (s0.st (t, true)).allocated = true → (s0.st (t, true)).p ≠ none)
    (hsz : e.size s0.env = L.length)
    (hel : ∀ i (hi : i < L.length), (e.el s0.env i >>= conv) = .ok L[i])
    (hL : L ≠ []) (hlim : L.length ≤ 2 ^ 30) :
    ∃ h1 t1, fillTemp zero conv t e s0 = (.ok (), s0.put (t, true) (h1, t1)) ∧
      Step s0.heap (s0.st (t, true)) h1 t1 ∧ DInv h1 t1 ∧ Shows h1 t1 L ∧ t1.allocated = true ∧
      t1.p ≠ none ∧ t1.sz ≤ t1.capacity := by
  have hpos := List.length_pos_iff.mpr hL
  obtain ⟨h1, t1, e1, w1, st1, z1, a1, m1, c1, k1, g1⟩ := resize_spec (zero := zero)
    (h := s0.heap) (s := s0.st (t, true)) (n := L.length) I.sched (I.t t).own hal hpos (by omega)
  have hp1 : t1.p ≠ none := by intro hp; have := w1.null hp; omega
  have hcap : t1.capacity < 2 ^ 31 := by
    by_cases hk : L.length ≤ (s0.st (t, true)).capacity
    · rw [(k1 hk).2]; exact (I.t t).cap
    · have := (g1 (by omega)).1; omega
  have heq : ∀ h', Step h1 t1 h' t1 → (s0.put (t, true) (h', t1)).env = s0.env := by
    intro h' st'
    exact I.env_put (st1.trans (I.t t).own st')
  obtain ⟨h2, e2, w2, sh2, st2⟩ := slotLoop (s0 := s0) (z := (t, true))
    (g := fun i s => e.el s.env i >>= conv) (L := L) w1 z1 (fun i hi h' _ st' => by
      rw [heq h' st']; exact hel i hi)
  refine ⟨h2, t1, ?_, st1.trans (I.t t).own st2, ⟨w2, fun _ => hp1, by omega, hcap⟩, sh2, a1, hp1,
    by omega⟩
  unfold fillTemp
  rw [M.bind_ok (M.get_apply _), hsz, M.bind_ok (onSlot_ok e1)]
  simp only [M.reads_lift]
  exact e2

/-- What the kinds of the program semantics mean. -/
def KindOK (k : Kind) (l : List V) (d t : Store) : Prop :=
  match k with
  | .std => l ≠ [] ∧ d.sz ≤ d.capacity ∧ (t.allocated = true → t.p ≠ none)
  | .stolen => l ≠ [] ∧ (t.allocated = true → t.p ≠ none)
  | .bare => l = [] ∧ d.allocated = false ∧ t.allocated = false
  | .once => l ≠ [] ∧ d.sz ≤ d.capacity

/-- Variable `x` of the machine represents the variable `v`. -/
structure Live (s : Mach V) (x : Nat) (v : Var V) : Prop where
  lt : x < s.n
  bor : s.bor x = false
  shows : Shows s.heap (s.st (x, false)) v.val
  kind : KindOK v.kind v.val (s.st (x, false)) (s.st (x, true))

/-- Variable `x` of the machine represents the borrowing variable `β` with the array `l`. -/
structure LiveB (s : Mach V) (x : Nat) (β : Bor) (l : List V) : Prop where
  lt : x < s.n
  bor : s.bor x = true
  ptr : (s.st (x, false)).p = some β.arr
  sz : (s.st (x, false)).sz = β.size
  cap : (s.st (x, false)).capacity = β.cap
  le : β.size ≤ β.cap
  len : β.cap ≤ l.length
  temp : (s.st (x, true)).allocated = true → (s.st (x, true)).p ≠ none

/-- The caller's memory that holds the list. -/
def callerBlk (l : List V) : Block V := ⟨l.length, fun i => l[i]?, true, false⟩

/-- The machine state represents the borrowing variables and the arrays. -/
structure RepB (s : Mach V) (bs : Nat → Option Bor) (as : Nat → Option (List V)) : Prop where
  arrays : ∀ a l, as a = some l → a < s.heap.next ∧ s.heap.blk a = callerBlk l
  bors : ∀ x β, bs x = some β → ∃ l, as β.arr = some l ∧ LiveB s x β l

/-- The machine state represents the program state. -/
structure Rep (s : Mach V) (p : PState V) : Prop where
  inv : Inv s
  n : s.n = p.next
  vars : ∀ x v, p.vars x = some v → Live s x v
  b : RepB s p.bors p.arrays

theorem LiveB.keep {s s' : Mach V} {x : Nat} {β : Bor} {l : List V} (L : LiveB s x β l) (hn : s.n ≤ s'.n)
    (h1 : s'.st (x, false) = s.st (x, false)) (h2 : s'.st (x, true) = s.st (x, true)) (h3 : s'.bor x = s.bor x) :
    LiveB s' x β l :=
  ⟨by have := L.lt; omega, by rw [h3]; exact L.bor, by rw [h1]; exact L.ptr, by rw [h1]; exact L.sz,
    by rw [h1]; exact L.cap, L.le, L.len, by rw [h2]; exact L.temp⟩

/-- What does not concern borrowing variables and arrays. -/
theorem RepB.keep {s s' : Mach V} {bs : Nat → Option Bor} {as : Nat → Option (List V)} (B : RepB s bs as)
    (hn : s.n ≤ s'.n) (hx : s.heap.next ≤ s'.heap.next)
    (hst : ∀ x, x < s.n → s.bor x = true → s'.st (x, false) = s.st (x, false) ∧ s'.st (x, true) = s.st (x, true) ∧
      s'.bor x = s.bor x)
    (hb : ∀ b, b < s.heap.next → (s.heap.blk b).newed = false → s'.heap.blk b = s.heap.blk b) : RepB s' bs as := by
  refine ⟨fun a l ha => ?_, fun x β hβ => ?_⟩
  · obtain ⟨h1, h2⟩ := B.arrays a l ha
    exact ⟨by omega, by rw [hb a h1 (by rw [h2]; rfl)]; exact h2⟩
  · obtain ⟨l, hl, L⟩ := B.bors x β hβ
    obtain ⟨h1, h2, h3⟩ := hst x L.lt L.bor
    exact ⟨l, hl, L.keep hn h1 h2 h3⟩

theorem RepB.put {s : Mach V} {bs : Nat → Option Bor} {as : Nat → Option (List V)} (B : RepB s bs as) (I : Inv s)
    {y : Slot} (hy : s.bor y.1 = false) {r : Heap V × Store} (st : Step s.heap (s.st y) r.1 r.2) :
    RepB (s.put y r) bs as := by
  refine B.keep (le_refl _) st.next_le (fun x _ hx => ?_) (fun b hb hw => st.frame b hb (fun h => ?_))
  · have hne : ∀ c, (x, c) ≠ y := by rintro c rfl; rw [hx] at hy; simp at hy
    exact ⟨put_ne _ _ (hne _), put_ne _ _ (hne _), rfl⟩
  · have := ((I.ownOf (y := y) (Or.inr hy)).ptr b h).2.2.1
    rw [hw] at this; exact absurd this (by decide)

theorem RepB.bump {s : Mach V} {bs : Nat → Option Bor} {as : Nat → Option (List V)} (B : RepB s bs as) :
    RepB s.bump bs as :=
  B.keep (by simp [Mach.bump]) (le_refl _) (fun _ _ _ => ⟨rfl, rfl, rfl⟩) (fun _ _ _ => rfl)

theorem LiveB.shows {s : Mach V} {x : Nat} {β : Bor} {l : List V} (I : Inv s) (L : LiveB s x β l)
    (hb : s.heap.blk β.arr = callerBlk l) : Shows s.heap (s.st (x, false)) (l.take β.size) := by
  have h1 := L.le
  have h2 := L.len
  refine ⟨by rw [L.sz, List.length_take]; omega, fun i hi => ?_⟩
  rw [List.length_take] at hi
  rw [get_eq_load (I.b x L.bor).al (by rw [L.sz]; omega), L.ptr, List.getElem_take]
  exact Heap.load_some (by rw [hb]; rfl) (by rw [hb]; show i < l.length; omega)
    (by rw [hb]; exact List.getElem?_eq_getElem _)

theorem _root_.ETR.Spec.PState.lists_eq {p : PState V} {x : Nat} {l : List V} (h : p.lists x = some l) :
    (∃ v, p.vars x = some v ∧ l = v.val) ∨
      ∃ β a, p.vars x = none ∧ p.bors x = some β ∧ p.arrays β.arr = some a ∧ l = a.take β.size := by
  unfold PState.lists PState.view at h
  split at h
  · rename_i v hv
    simp only [Option.some.injEq] at h
    exact Or.inl ⟨v, hv, h.symm⟩
  · rename_i hv
    simp only [Option.bind_eq_bind, Option.pure_def, Option.map_eq_some_iff, Option.bind_eq_some_iff, Option.some.injEq] at h
    obtain ⟨⟨β', a'⟩, ⟨β, hβ, a, ha, e⟩, h⟩ := h
    simp only [Prod.mk.injEq] at e
    obtain ⟨rfl, rfl⟩ := e
    exact Or.inr ⟨β, a, hv, hβ, ha, h.symm⟩

theorem Rep.liveB {s : Mach V} {p : PState V} (R : Rep s p) {x : Nat} {β : Bor} {a : List V} (hβ : p.bors x = some β)
    (ha : p.arrays β.arr = some a) : LiveB s x β a ∧ s.heap.blk β.arr = callerBlk a ∧ β.arr < s.heap.next := by
  obtain ⟨l, hl, L⟩ := R.b.bors x β hβ
  rw [ha] at hl
  simp only [Option.some.injEq] at hl
  subst hl
  exact ⟨L, (R.b.arrays _ _ ha).2, (R.b.arrays _ _ ha).1⟩

theorem Rep.agrees {s : Mach V} {p : PState V} (R : Rep s p) : Agrees s.env p.lists := by
  intro x l hl
  rcases PState.lists_eq hl with ⟨v, hv, rfl⟩ | ⟨β, a, _, hβ, ha, rfl⟩
  · exact (R.vars x v hv).shows
  · obtain ⟨L, hb, _⟩ := R.liveB hβ ha
    exact L.shows R.inv hb

/-- Effect on the other variables of a change of one slot. -/
theorem Live.frame {s : Mach V} {x : Nat} {v : Var V} (L : Live s x v) (I : Inv s) {y : Slot}
    (hy : s.owned y) (hne : y.1 ≠ x) {r : Heap V × Store} (st : Step s.heap (s.st y) r.1 r.2) :
    Live (s.put y r) x v := by
  have h1 : (x, false) ≠ y := by rintro rfl; exact hne rfl
  have h2 : (x, true) ≠ y := by rintro rfl; exact hne rfl
  refine ⟨L.lt, L.bor, ?_, ?_⟩
  · rw [put_ne _ _ h1]
    exact shows_frame (I.frame_step hy (Or.inr L.bor) h1 st) L.shows
  · rw [put_ne _ _ h1, put_ne _ _ h2]; exact L.kind

theorem Rep.put_d {s : Mach V} {p : PState V} (R : Rep s p) {x : Nat} {v v' : Var V}
    (hv : p.vars x = some v) {r : Heap V × Store} (st : Step s.heap (s.st (x, false)) r.1 r.2)
    (D : DInv r.1 r.2) (sh : Shows r.1 r.2 v'.val)
    (hk : KindOK v'.kind v'.val r.2 (s.st (x, true))) :
    Rep (s.put (x, false) r) (p.put x (some v')) := by
  have L := R.vars x v hv
  have ho : s.owned (x, false) := Or.inr L.bor
  refine ⟨R.inv.step ho L.lt st (fun _ => D) (by simp), R.n, ?_, R.b.put R.inv L.bor st⟩
  intro y w hw
  simp only [PState.put] at hw
  by_cases hyx : y = x
  · subst hyx
    simp only [if_true, Option.some.injEq] at hw
    subst hw
    refine ⟨L.lt, L.bor, by rw [put_same]; exact sh, ?_⟩
    rw [put_same, put_ne _ _ (by simp)]; exact hk
  · rw [if_neg hyx] at hw
    exact (R.vars y w hw).frame R.inv ho (fun h => hyx h.symm) st

theorem Rep.put_t {s : Mach V} {p : PState V} (R : Rep s p) {x : Nat} (hx : x < s.n) (hb : s.bor x = false)
    {r : Heap V × Store} (st : Step s.heap (s.st (x, true)) r.1 r.2) (T : TInv r.1 r.2)
    (hk : ∀ v, p.vars x = some v → KindOK v.kind v.val (s.st (x, false)) r.2) :
    Rep (s.put (x, true) r) p := by
  have ho : s.owned (x, true) := Or.inl rfl
  refine ⟨R.inv.step ho hx st (by simp) (fun _ => T), R.n, ?_, R.b.put R.inv hb st⟩
  intro y w hw
  by_cases hyx : y = x
  · subst hyx
    have L := R.vars y w hw
    refine ⟨L.lt, L.bor, ?_, ?_⟩
    · rw [put_ne _ _ (by simp)]
      exact shows_frame (R.inv.frame_step ho (Or.inr L.bor) (by simp) st) L.shows
    · rw [put_same, put_ne _ _ (by simp)]; exact hk w hw
  · exact (R.vars y w hw).frame R.inv ho (fun h => hyx h.symm) st

/-! ### Dimensions -/

end Mach

theorem Expr.nr_ok {V : Type} {env : Env V} (e : Expr V) (h : e.im env = true) :
    (∃ a, e.nr env = .ok a) ∧ ∃ a, e.nc env = .ok a := by
  induction e with
  | leaf x => exact ⟨⟨_, rfl⟩, ⟨_, rfl⟩⟩
  | rvec l mp => exact ⟨⟨_, rfl⟩, ⟨_, rfl⟩⟩
  | scal v => simp [Expr.im] at h
  | un f e ih => simp [Expr.im] at h
  | sub e ind mp ih => exact ⟨⟨_, rfl⟩, ⟨_, rfl⟩⟩
  | bin f l r ihl ihr =>
    simp only [Expr.im] at h
    simp only [Expr.nr, Expr.nc]
    by_cases hl : l.isScal = true
    · rw [if_pos hl] at h ⊢; rw [if_pos hl]; exact ihr h
    · rw [if_neg hl] at h ⊢; rw [if_neg hl]
      by_cases hr : r.isScal = true
      · rw [if_pos hr] at h ⊢; rw [if_pos hr]; exact ihl h
      · rw [if_neg hr] at h ⊢; rw [if_neg hr]
        by_cases il : l.im env = true
        · obtain ⟨⟨a, ha⟩, ⟨b, hb⟩⟩ := ihl il
          by_cases ir : r.im env = true
          · obtain ⟨⟨a', ha'⟩, ⟨b', hb'⟩⟩ := ihr ir
            simp [il, ir, ha, hb, ha', hb']
          · simp [il, ir, ha, hb]
        · have ir : r.im env = true := by simpa [il] using h
          obtain ⟨⟨a', ha'⟩, ⟨b', hb'⟩⟩ := ihr ir
          simp [il, ir, ha', hb']

namespace Mach
variable {V : Type}
open Store Spec

theorem shows_mp {h : Heap V} {s : Store} {l : List V} (mp : MP) (sh : Shows h s l) :
    Shows h { s with mp := mp } l := sh

theorem _root_.ETR.Store.DInv.setMp {h : Heap V} {s : Store} (mp : MP) (D : DInv h s) :
    DInv h { s with mp := mp } := ⟨⟨D.wf.ptr, D.wf.null⟩, D.al, D.sz, D.cap⟩

theorem KindOK.setMp {k : Kind} {l : List V} {d t : Store} (mp : MP) (h : KindOK k l d t) :
    KindOK k l { d with mp := mp } t := by
  cases k <;> exact h

/-- The dimensions after an assignment. -/
def newMp (s : Mach V) (x : Nat) (e : Expr V) : MP :=
  if e.im s.env then ⟨true, (val (e.nr s.env)).getD 0, (val (e.nc s.env)).getD 0⟩
  else (s.st (x, false)).mp

theorem setDims_ok (x : Nat) (e : Expr V) (s : Mach V) :
    setDims x e s = (.ok (), s.put (x, false) (s.heap, { s.st (x, false) with mp := newMp s x e })) := by
  unfold setDims newMp
  rw [M.bind_ok (M.get_apply _)]
  by_cases him : e.im s.env = true
  · obtain ⟨⟨a, ha⟩, ⟨b, hb⟩⟩ := e.nr_ok him
    rw [if_pos him, if_pos him, ha, hb]
    rw [M.bind_ok (M.lift_apply _ _), M.bind_ok (M.lift_apply _ _)]
    exact onSlot_ok rfl
  · rw [if_neg him, if_neg him]
    rw [M.pure_apply, show ({ s.st (x, false) with mp := (s.st (x, false)).mp } : Store)
      = s.st (x, false) from rfl, put_self]

theorem _root_.ETR.Spec.PState.put_self {p : PState V} {x : Nat} {v : Var V}
    (hv : p.vars x = some v) : p.put x (some v) = p := by
  unfold PState.put
  cases p with
  | mk n vs bs as =>
    simp only [PState.mk.injEq, true_and, and_true]
    funext y
    simp only [] at hv
    split
    · subst y; exact hv.symm
    · rfl

theorem Rep.setDims {s : Mach V} {p : PState V} (R : Rep s p) {x : Nat} {v : Var V}
    (hv : p.vars x = some v) (e : Expr V) :
    ∃ s', setDims x e s = (.ok (), s') ∧ Rep s' p := by
  refine ⟨_, setDims_ok x e s, ?_⟩
  have L := R.vars x v hv
  have := R.put_d (v' := v) hv (r := (s.heap, { s.st (x, false) with mp := newMp s x e }))
    (Step.of_ptr rfl) ((R.inv.d x L.bor).setMp _) (shows_mp _ L.shows) (L.kind.setMp _)
  rw [PState.put_self hv] at this
  exact this

/-! ### Assignment -/

/-- A vector assignment. -/
theorem Rep.assign {zero : V} {s : Mach V} {p : PState V} (R : Rep s p) {x : Nat} {v : Var V}
    (hv : p.vars x = some v) {conv : V → Out V} {e : Expr V} {L : List V} {k : Kind}
    (hsz : e.size s.env = L.length)
    (hel : ∀ i (hi : i < L.length), (e.el s.env i >>= conv) = .ok L[i])
    (hL : L ≠ []) (hlim : L.length ≤ 2 ^ 30) (hk : v.kind.assigned = some k) :
    ∃ s', assign zero conv x e s = (.ok (), s') ∧ Rep s' (p.put x (some ⟨L, k⟩)) := by
  have lv := R.vars x v hv
  have hgood : (s.st (x, true)).allocated = true → (s.st (x, true)).p ≠ none := by
    have := lv.kind
    cases hkk : v.kind with
    | std => rw [hkk] at this; exact this.2.2
    | stolen => rw [hkk] at this; exact this.2
    | bare => rw [hkk] at this; intro h; rw [this.2.2] at h; simp at h
    | once => rw [hkk] at hk; simp [Kind.assigned] at hk
  obtain ⟨h1, t1, e1, st1, D1, sh1, a1, p1, c1⟩ := fillTemp_ok (zero := zero) R.inv hgood hsz hel hL
    hlim
  -- state after the loop
  set s1 := s.put (x, true) (h1, t1) with hs1
  have I1 : Inv s1 := R.inv.step (Or.inl rfl) lv.lt st1 (by simp) (fun _ => ⟨D1.wf.own, D1.cap⟩)
  have hd1 : s1.st (x, false) = s.st (x, false) := put_ne _ _ (by simp)
  have ht1 : s1.st (x, true) = t1 := put_same _ _ _
  have i1 := I1.d x lv.bor
  have e2 : wrap64 (wrapI32 t1.sz) = t1.sz := by
    have := D1.sz
    rw [wrapI32_small (by omega), wrap64_small (by omega)]
  have e3 : wrap64 (wrapI32 t1.capacity) = t1.capacity := by
    have := D1.cap
    rw [wrapI32_small (by omega), wrap64_small (by omega)]
  set d' : Store := { s.st (x, false) with p := t1.p, sz := t1.sz, capacity := t1.capacity,
                                            allocated := true } with hd'
  set t' : Store := { t1 with p := (s.st (x, false)).p, sz := (s.st (x, false)).sz,
                              capacity := (s.st (x, false)).capacity } with ht'
  have hmv : moveTemp x s1 = (.ok (), { s1 with
      st := fun y => if y = (x, false) then d' else if y = (x, true) then t' else s1.st y }) := by
    unfold moveTemp
    rw [M.modify_apply, hd1, ht1]
    unfold Store.moveit
    simp only [e2, e3, hd', ht']
  have Dd : DInv s1.heap d' := by
    refine ⟨⟨?_, ?_⟩, fun _ => p1, D1.sz, D1.cap⟩
    · intro b hb
      obtain ⟨h1, h2, h3, h4, h5, _⟩ := D1.wf.ptr b hb
      exact ⟨h1, h2, h3, h4, h5, rfl⟩
    · intro hp; exact absurd hp p1
  have Tt : TInv s1.heap t' := by
    rw [hd1] at i1
    refine ⟨⟨?_, fun hp => (i1.wf.null hp).2⟩, i1.cap⟩
    intro b hb
    obtain ⟨h1, h2, h3, h4, h5, _⟩ := i1.wf.ptr b hb
    exact ⟨h1, h2, h3, h5, a1⟩
  set s2 : Mach V := { s1 with
      st := fun y => if y = (x, false) then d' else if y = (x, true) then t' else s1.st y } with hs2
  have I2 : Inv s2 := I1.swap lv.bor lv.lt Dd Tt (by rw [ht1]) (by rw [hd1])
  have R2 : Rep s2 (p.put x (some ⟨L, k⟩)) := by
    have B1 : RepB s1 p.bors p.arrays := R.b.put R.inv (y := (x, true)) lv.bor st1
    refine ⟨I2, R.n, ?_, B1.keep (le_refl _) (le_refl _) (fun y _ hy => ?_) (fun _ _ _ => rfl)⟩
    rotate_left
    · have hyx : y ≠ x := by rintro rfl; rw [show s1.bor y = false from lv.bor] at hy; simp at hy
      simp [hs2, hyx]
    intro y w hw
    simp only [PState.put] at hw
    by_cases hyx : y = x
    · subst hyx
      simp only [if_true, Option.some.injEq] at hw
      subst hw
      refine ⟨lv.lt, lv.bor, ?_, ?_⟩
      · simp only [hs2, if_true]
        refine ⟨sh1.1, fun i hi => ?_⟩
        have := sh1.2 i hi
        rw [get_eq_load a1 (by rw [sh1.1]; exact hi)] at this
        rw [get_eq_load rfl (by show i < t1.sz; rw [sh1.1]; exact hi)]
        exact this
      · simp only [hs2, if_true]
        rw [if_neg (by simp)]
        have hkd := lv.kind
        have hdp : v.val ≠ [] → t'.p ≠ none := by
          intro hne hp
          have := ((R.inv.d y lv.bor).wf.null hp).1
          have h3 := lv.shows.1
          have := List.length_pos_iff.mpr hne
          omega
        cases hkk : v.kind with
        | std =>
          rw [hkk] at hk hkd; simp only [Kind.assigned, Option.some.injEq] at hk; subst hk
          exact ⟨hL, c1, fun _ => hdp hkd.1⟩
        | stolen =>
          rw [hkk] at hk hkd; simp only [Kind.assigned, Option.some.injEq] at hk; subst hk
          exact ⟨hL, c1, fun _ => hdp hkd.1⟩
        | bare =>
          rw [hkk] at hk hkd; simp only [Kind.assigned, Option.some.injEq] at hk; subst hk
          exact ⟨hL, c1⟩
        | once => rw [hkk] at hk; simp [Kind.assigned] at hk
    · rw [if_neg hyx] at hw
      have Lw := (R.vars y w hw).frame R.inv (r := (h1, t1)) (y := (x, true)) (Or.inl rfl) (fun h => hyx h.symm) st1
      refine ⟨Lw.lt, Lw.bor, ?_, ?_⟩
      · rw [hs2]; simp only [Prod.mk.injEq, hyx, false_and, if_false]; exact Lw.shows
      · rw [hs2]; simp only [Prod.mk.injEq, hyx, false_and, if_false]; exact Lw.kind
  obtain ⟨s3, e4, R3⟩ := R2.setDims (x := x) (v := ⟨L, k⟩) (by simp [PState.put]) e
  refine ⟨s3, ?_, R3⟩
  unfold Mach.assign
  rw [M.bind_ok (M.get_apply _), if_neg (by rw [lv.bor]; simp)]
  unfold assignBuffer
  rw [M.bind_ok e1, M.bind_ok hmv, e4]

/-- A scalar assignment. -/
theorem Rep.assignScalar {zero : V} {s : Mach V} {p : PState V} (R : Rep s p) {x : Nat} {v : Var V}
    (hv : p.vars x = some v) (c : V) :
    ∃ s', assignScalar zero x c s = (.ok (), s') ∧ Rep s' (p.put x (some ⟨[c], v.kind.resized⟩)) := by
  have lv := R.vars x v hv
  have D := R.inv.d x lv.bor
  obtain ⟨h1, d1, e1, w1, st1, z1, a1, m1, c1, k1, g1⟩ := resize_spec (zero := zero)
    (h := s.heap) (s := s.st (x, false)) (n := 1) R.inv.sched D.wf.own D.al (by omega) (by omega)
  have hp1 : d1.p ≠ none := by intro hp; have := w1.null hp; omega
  obtain ⟨b, hb⟩ : ∃ b, d1.p = some b := by
    cases h : d1.p with
    | none => exact absurd h hp1
    | some b => exact ⟨b, rfl⟩
  have hcap : d1.capacity < 2 ^ 31 := by
    by_cases hk : 1 ≤ (s.st (x, false)).capacity
    · rw [(k1 hk).2]; exact D.cap
    · have := (g1 (by omega)).1; omega
  have e2 := set_ok (v := c) (i := 0) w1 hb (by omega)
  set h2 := h1.setCells b (fun j => if j = 0 then some c else (h1.blk b).cell j) with hh2
  have w2 : WF h2 d1 := w1.setCells _ _
  have st2 : Step s.heap (s.st (x, false)) h2 d1 :=
    st1.trans D.wf.own (Step.setCells hb _ _ rfl)
  refine ⟨s.put (x, false) (h2, d1), ?_, R.put_d hv st2 ⟨w2, fun _ => hp1, by simp only []; omega, hcap⟩
    ?_ ?_⟩
  · unfold Mach.assignScalar
    rw [M.bind_ok (M.get_apply _), if_neg (by rw [lv.bor]; simp), M.bind_ok (onSlot_ok e1)]
    show onSlot (x, false) (Store.set 0 c) (s.put (x, false) (h1, d1)) = _
    rw [onSlot_ok (r := (h2, d1)) (a := ()), put_put]
    rw [put_heap, put_same]
    exact e2
  · refine shows_of_cells w2 hb (by simp [z1]) ?_
    intro i hi
    simp only [List.length_singleton] at hi
    have : i = 0 := by omega
    subst this
    simp [hh2]
  · have hkd := lv.kind
    cases hkk : v.kind with
    | std => rw [hkk] at hkd; exact ⟨by simp, by simp only []; omega, hkd.2.2⟩
    | stolen => rw [hkk] at hkd; exact ⟨by simp, by simp only []; omega, hkd.2⟩
    | bare =>
      rw [hkk] at hkd
      exact ⟨by simp, by simp only []; omega, fun h => by rw [hkd.2.2] at h; simp at h⟩
    | once => rw [hkk] at hkd; exact ⟨by simp, by simp only []; omega⟩

theorem KindOK.same {k : Kind} {l l' : List V} {d d' t : Store} (h : KindOK k l d t)
    (hl : l' = [] ↔ l = []) (h1 : d.sz ≤ d.capacity → d'.sz ≤ d'.capacity)
    (h2 : l = [] → d'.allocated = d.allocated) : KindOK k l' d' t := by
  cases k with
  | std => exact ⟨fun e => h.1 (hl.mp e), h1 h.2.1, h.2.2⟩
  | stolen => exact ⟨fun e => h.1 (hl.mp e), h.2⟩
  | bare => exact ⟨hl.mpr h.1, by rw [h2 h.1]; exact h.2.1, h.2.2⟩
  | once => exact ⟨fun e => h.1 (hl.mp e), h1 h.2⟩

/-- An element write. -/
theorem Rep.setElem {s : Mach V} {p : PState V} (R : Rep s p) {x : Nat} {v : Var V}
    (hv : p.vars x = some v) {i : Nat} (hi : i < v.val.length) (c : V) :
    ∃ h', onSlot (x, false) (Store.set i c) s = (.ok (), s.put (x, false) (h', s.st (x, false))) ∧
      Rep (s.put (x, false) (h', s.st (x, false))) (p.put x (some ⟨v.val.set i c, v.kind⟩)) ∧
      Step s.heap (s.st (x, false)) h' (s.st (x, false)) := by
  have lv := R.vars x v hv
  have D := R.inv.d x lv.bor
  obtain ⟨h1, e1, w1, sh1, st1⟩ := set_spec (v := c) D.wf lv.shows hi
  refine ⟨h1, onSlot_ok e1, R.put_d hv st1 ⟨w1, D.al, D.sz, D.cap⟩ sh1 ?_, st1⟩
  exact lv.kind.same (by rw [← List.length_eq_zero_iff, List.length_set, List.length_eq_zero_iff])
    id (fun _ => rfl)

theorem onSlot_mp_fill {s : Mach V} {x : Nat} {v : V} :
    ((onSlot (x, false) (Store.fillScalar v) s).2.st (x, false)).mp = (s.st (x, false)).mp := by
  rw [onSlot_apply, put_same]
  unfold Store.fillScalar
  rw [M.bind_ok (self_apply _), heapM_apply]

/-- `fill(value)`. -/
theorem Rep.fill {s : Mach V} {p : PState V} (R : Rep s p) {x : Nat} {v : Var V}
    (hv : p.vars x = some v) (c : V) :
    ∃ s', Mach.fill x c s = (.ok (), s') ∧
      Rep s' (p.put x (some ⟨List.replicate v.val.length c, v.kind⟩)) := by
  have lv := R.vars x v hv
  have D := R.inv.d x lv.bor
  obtain ⟨h1, e1, w1, sh1, st1⟩ := fillScalar_spec (v := c) D.wf
  rw [lv.shows.1] at sh1
  refine ⟨_, onSlot_ok e1, R.put_d hv st1 ⟨w1, D.al, D.sz, D.cap⟩ sh1 ?_⟩
  exact lv.kind.same (by simp) id (fun _ => rfl)

/-- `fill(vector)`. -/
theorem Rep.fillVec {s : Mach V} {p : PState V} (R : Rep s p) {x y : Nat} {v u : Var V}
    (hv : p.vars x = some v) (hu : p.vars y = some u) (hlen : u.val.length = v.val.length) :
    ∃ s', Mach.fillVec x y s = (.ok (), s') ∧ Rep s' (p.put x (some ⟨u.val, v.kind⟩)) := by
  have lv := R.vars x v hv
  have lu := R.vars y u hu
  have D := R.inv.d x lv.bor
  obtain ⟨h1, e1, w1, sh1, st1⟩ := fillVec_spec D.wf lu.shows (by rw [lu.shows.1, lv.shows.1, hlen])
  refine ⟨_, ?_, R.put_d (r := (h1, _)) hv st1 ⟨w1, D.al, D.sz, D.cap⟩ sh1 ?_⟩
  · unfold Mach.fillVec
    rw [M.bind_ok (M.get_apply _)]
    exact onSlot_ok e1
  · exact lv.kind.same (by rw [← List.length_eq_zero_iff, hlen, List.length_eq_zero_iff]) id
      (fun _ => rfl)

/-- `push_back`. -/
theorem Rep.pushBack {zero : V} {s : Mach V} {p : PState V} (R : Rep s p) {x : Nat} {v : Var V}
    (hv : p.vars x = some v) (hk : v.kind = .std ∨ v.kind = .once) (hlen : v.val.length < 2 ^ 29)
    (c : V) :
    ∃ s', Mach.pushBack zero x c s = (.ok (), s') ∧
      Rep s' (p.put x (some ⟨v.val ++ [c], v.kind⟩)) := by
  have lv := R.vars x v hv
  have D := R.inv.d x lv.bor
  have hz := lv.shows.1
  have hc : (s.st (x, false)).sz ≤ (s.st (x, false)).capacity := by
    have := lv.kind
    rcases hk with h | h <;> rw [h] at this
    · exact this.2.1
    · exact this.2
  obtain ⟨h1, d1, e1, w1, sh1, st1, c1, m1, cc⟩ := pushBack_spec (zero := zero) (v := c) R.inv.sched
    D.wf lv.shows hc (fun _ => by omega)
  have hz1 := sh1.1
  simp only [List.length_append, List.length_singleton] at hz1
  have hcap : d1.capacity < 2 ^ 31 := by
    rw [cc]
    split
    · split <;> omega
    · exact D.cap
  refine ⟨_, onSlot_ok e1, R.put_d hv st1 ⟨w1, fun _ hp => ?_, by simp only []; omega, hcap⟩ sh1 ?_⟩
  · have := w1.null hp; omega
  · have := lv.kind
    rcases hk with h | h <;> rw [h] at this ⊢
    · exact ⟨by simp, c1, this.2.2⟩
    · exact ⟨by simp, c1⟩

/-- Shrinking with `resize`. -/
theorem Rep.shrink {zero : V} {s : Mach V} {p : PState V} (R : Rep s p) {x : Nat} {v : Var V}
    (hv : p.vars x = some v) (hk : v.kind = .std ∨ v.kind = .once) {n : Nat} (h1 : 1 ≤ n)
    (h2 : n ≤ v.val.length) :
    ∃ s', Mach.resize zero x n s = (.ok (), s') ∧
      Rep s' (p.put x (some ⟨v.val.take n, v.kind⟩)) := by
  have lv := R.vars x v hv
  have D := R.inv.d x lv.bor
  have hz := lv.shows.1
  have hc : (s.st (x, false)).sz ≤ (s.st (x, false)).capacity := by
    have := lv.kind
    rcases hk with h | h <;> rw [h] at this
    · exact this.2.1
    · exact this.2
  have hp : (s.st (x, false)).p ≠ none := by intro hp; have := D.wf.null hp; omega
  obtain ⟨b, hb⟩ := Option.ne_none_iff_exists'.mp hp
  obtain ⟨b1, b2, b3, b4, b5, ha⟩ := D.wf.ptr b hb
  have w1 : WF s.heap { s.st (x, false) with sz := n } := by
    refine ⟨fun c hc => ?_, fun hc => absurd hc hp⟩
    have := D.wf.ptr c hc
    refine ⟨this.1, this.2.1, this.2.2.1, ?_, this.2.2.2.2⟩
    have := this.2.2.2.1
    simp only []; omega
  refine ⟨_, ?_, R.put_d (r := (s.heap, { s.st (x, false) with sz := n })) hv (Step.of_ptr rfl)
    ⟨w1, D.al, ?_, D.cap⟩ ?_ ?_⟩
  · unfold Mach.resize
    rw [M.bind_ok (M.get_apply _), if_neg (by rw [lv.bor]; simp)]
    exact onSlot_ok (resize_keep h1 ha (by omega))
  · have := D.sz; simp only []; omega
  · refine shows_of_cells w1 hb (by simp only [List.length_take]; omega) ?_
    intro i hi
    simp only [List.length_take] at hi
    rw [List.getElem_take]
    exact cell_of_shows lv.shows D.wf hb (by omega)
  · have := lv.kind
    have hne : v.val.take n ≠ [] := by
      intro h; have := congrArg List.length h; rw [List.length_take, List.length_nil] at this; omega
    rcases hk with h | h <;> rw [h] at this ⊢
    · exact ⟨hne, by simp only []; omega, this.2.2⟩
    · exact ⟨hne, by simp only []; omega⟩

/-! ### Declarations -/

theorem _root_.ETR.Spec.PState.new_put {p : PState V} {x : Nat} (hx : x = p.next) (a v : Var V) :
    (p.new 0 a).put x (some v) = p.new 0 v := by
  subst hx
  unfold PState.new PState.put
  simp only [PState.mk.injEq, true_and, and_true, Nat.add_zero]
  funext y; split <;> rfl

theorem Rep.declDefault {s : Mach V} {p : PState V} (R : Rep s p) :
    Rep s.bump (p.new 0 ⟨[], .bare⟩) := by
  obtain ⟨f1, f2, f3⟩ := R.inv.fresh s.n (le_refl _)
  refine ⟨R.inv.bump, by simp [Mach.bump, PState.new, R.n], ?_, R.b.bump⟩
  intro x v hv
  simp only [PState.new, Nat.add_zero] at hv
  by_cases hx : x = p.next
  · rw [if_pos hx] at hv
    simp only [Option.some.injEq] at hv
    subst hv
    rw [← R.n] at hx
    subst hx
    have e1 : s.bump.st (s.n, false) = {} := f1
    have e2 : s.bump.st (s.n, true) = {} := f2
    refine ⟨by simp [Mach.bump], f3, ?_, ?_⟩
    · rw [e1]; exact shows_nil rfl
    · rw [e1, e2]; exact ⟨rfl, rfl, rfl⟩
  · rw [if_neg hx] at hv
    have L := R.vars x v hv
    exact ⟨by have := L.lt; simp only [Mach.bump]; omega, L.bor, L.shows, L.kind⟩

/-- A constructor that gives the new object its memory. -/
theorem Rep.declPut {s : Mach V} {p : PState V} (R : Rep s p) {r : Heap V × Store} {l : List V}
    (st : Step s.heap {} r.1 r.2) (D : DInv r.1 r.2) (sh : Shows r.1 r.2 l) (hl : l ≠ [])
    (hc : r.2.sz ≤ r.2.capacity) :
    Rep (s.bump.put (s.n, false) r) (p.new 0 ⟨l, .std⟩) := by
  obtain ⟨f1, f2, f3⟩ := R.inv.fresh s.n (le_refl _)
  have e1 : s.bump.st (s.n, false) = {} := f1
  have e2 : s.bump.st (s.n, true) = {} := f2
  have := R.declDefault.put_d (x := s.n) (v := ⟨[], .bare⟩) (v' := ⟨l, .std⟩) (r := r)
    (by simp [PState.new, R.n]) (by rw [e1]; exact st) D sh (by rw [e2]; exact ⟨hl, hc, by simp⟩)
  rw [PState.new_put R.n] at this
  exact this

theorem Rep.next_none {s : Mach V} {p : PState V} (R : Rep s p) {x : Nat} (hx : p.next ≤ x) :
    p.vars x = none := by
  cases h : p.vars x with
  | none => rfl
  | some v => have := (R.vars x v h).lt; have := R.n; omega

/-- `Vec(SI{n})` on a state. -/
theorem Rep.ctorSize {zero : V} {s : Mach V} {p : PState V} (R : Rep s p) {n : Nat} (h1 : 1 ≤ n)
    (h2 : n ≤ 2 ^ 30) :
    ∃ h' d', onSlot (s.n, false) (Store.ctorSize zero n) s.bump
        = (.ok (), s.bump.put (s.n, false) (h', d')) ∧
      Rep (s.bump.put (s.n, false) (h', d')) (p.new 0 ⟨List.replicate n zero, .std⟩) ∧
      Step s.heap {} h' d' ∧ WF h' d' ∧ d'.sz = n ∧ d'.sz ≤ d'.capacity := by
  obtain ⟨f1, f2, f3⟩ := R.inv.fresh s.n (le_refl _)
  have e1 : s.bump.st (s.n, false) = {} := f1
  obtain ⟨c, ec, hc1, hc2⟩ := capOf_spec (n := n) (by omega)
  have eq := ctorSize_ok (zero := zero) (s := ({} : Store)) R.inv.sched h1 (by omega) ec
  set r : Heap V × Store := (s.heap.addBlk (zeroBlk zero c c), { ({} : Store) with
    p := some s.heap.next, sz := n, capacity := c, allocated := true }) with hr
  have w : WF r.1 r.2 := WF.fresh rfl hc1 (le_refl _) rfl
  have st : Step s.heap {} r.1 r.2 := Step.addBlk rfl rfl
  refine ⟨r.1, r.2, ?_, ?_, st, w, rfl, hc1⟩
  · refine onSlot_ok (r := r) ?_
    rw [e1]; exact eq
  · refine R.declPut (r := r) st ⟨w, by simp [hr], h2, by simp only [hr]; omega⟩ ?_ ?_ hc1
    · refine shows_of_cells (b := s.heap.next) w rfl (by simp [hr]) ?_
      intro i hi
      simp only [List.length_replicate] at hi
      simp [hr, zeroBlk, show i < c by omega]
    · intro h; have := congrArg List.length h; simp at this; omega

theorem Rep.declSize {zero : V} {s : Mach V} {p : PState V} (R : Rep s p) {n : Nat} (h1 : 1 ≤ n)
    (h2 : n ≤ 2 ^ 30) :
    ∃ s', Mach.declSize zero n s = (.ok (), s') ∧
      Rep s' (p.new 0 ⟨List.replicate n zero, .std⟩) := by
  obtain ⟨h', d', e, R', _⟩ := R.ctorSize (zero := zero) h1 h2
  exact ⟨_, decl_ok e, R'⟩

theorem Rep.declScalar {zero : V} {s : Mach V} {p : PState V} (R : Rep s p) (v : V) :
    ∃ s', Mach.declScalar zero v s = (.ok (), s') ∧ Rep s' (p.new 0 ⟨[v], .std⟩) := by
  obtain ⟨f1, f2, f3⟩ := R.inv.fresh s.n (le_refl _)
  have e1 : s.bump.st (s.n, false) = {} := f1
  have eq := ctorInt_one (zero := zero) (h := s.heap) R.inv.sched
  rcases hr : Store.ctorInt zero 1 (s.heap, ({} : Store)) with ⟨o, r⟩
  have hs := ctorInt_safe (zero := zero) (h := s.heap) R.inv.sched _ rfl
  rw [hr] at hs eq
  simp only [Prod.mk.injEq] at eq
  obtain ⟨rfl, hreq⟩ := eq
  obtain ⟨⟨D, st⟩, hz⟩ := hs
  have R1 : Rep (s.bump.put (s.n, false) r) (p.new 0 ⟨[zero], .std⟩) := by
    refine R.declPut st D ?_ (by simp) (by rw [hreq])
    rw [hreq]
    refine shows_of_cells (b := s.heap.next) (WF.fresh rfl (le_refl _) (le_refl _) rfl) rfl rfl ?_
    intro i hi
    simp only [List.length_singleton] at hi
    have : i = 0 := by omega
    subst this
    simp [zeroBlk]
  obtain ⟨h', e2, R2, _⟩ := R1.setElem (x := s.n) (v := ⟨[zero], .std⟩) (i := 0)
    (by simp [PState.new, R.n]) (by simp) v
  rw [PState.new_put R.n] at R2
  refine ⟨_, decl_ok (a := ()) ?_, R2⟩
  rw [M.bind_ok (onSlot_ok (r := r) (a := ()) (by rw [e1]; exact hr))]
  exact e2

theorem Rep.setMp {s : Mach V} {p : PState V} (R : Rep s p) {x : Nat} {v : Var V}
    (hv : p.vars x = some v) (mp : MP) :
    Rep (s.put (x, false) (s.heap, { s.st (x, false) with mp := mp })) p := by
  have L := R.vars x v hv
  have := R.put_d (v' := v) hv (r := (s.heap, { s.st (x, false) with mp := mp }))
    (Step.of_ptr rfl) ((R.inv.d x L.bor).setMp _) (shows_mp _ L.shows) (L.kind.setMp _)
  rw [PState.put_self hv] at this
  exact this

theorem Rep.declMat {zero : V} {s : Mach V} {p : PState V} (R : Rep s p) {r c : Nat}
    (h1 : 1 ≤ r * c) (h2 : r * c ≤ 2 ^ 30) :
    ∃ s', Mach.declMat zero r c s = (.ok (), s') ∧
      Rep s' (p.new 0 ⟨List.replicate (r * c) zero, .std⟩) ∧
      (s'.st (s.n, false)).mp = ⟨true, r, c⟩ := by
  obtain ⟨h', d', e, R', _⟩ := R.ctorSize (zero := zero) h1 h2
  have em : (r * c) % two64 = r * c := Nat.mod_eq_of_lt (by unfold two64; omega)
  refine ⟨_, decl_ok (a := ()) ?_, R'.setMp (x := s.n) (v := ⟨List.replicate (r * c) zero, .std⟩)
    (by simp [PState.new, R.n]) ⟨true, r, c⟩, by rw [put_same]⟩
  rw [em, M.bind_ok e]
  exact onSlot_ok rfl

theorem Rep.declMatVal {zero : V} {s : Mach V} {p : PState V} (R : Rep s p) {r c : Nat}
    (h1 : 1 ≤ r * c) (h2 : r * c ≤ 2 ^ 30) (v : V) :
    ∃ s', Mach.declMatVal zero r c v s = (.ok (), s') ∧
      Rep s' (p.new 0 ⟨List.replicate (r * c) v, .std⟩) ∧
      (s'.st (s.n, false)).mp = ⟨true, r, c⟩ := by
  obtain ⟨h', d', e, R', _⟩ := R.ctorSize (zero := zero) h1 h2
  have em : (r * c) % two64 = r * c := Nat.mod_eq_of_lt (by unfold two64; omega)
  have hvv : (p.new 0 ⟨List.replicate (r * c) zero, .std⟩).vars s.n
      = some ⟨List.replicate (r * c) zero, .std⟩ := by simp [PState.new, R.n]
  have R2 := R'.setMp (x := s.n) hvv ⟨true, r, c⟩
  set s2 := ((s.bump.put (s.n, false) (h', d')).put (s.n, false)
    ((s.bump.put (s.n, false) (h', d')).heap,
      { (s.bump.put (s.n, false) (h', d')).st (s.n, false) with mp := ⟨true, r, c⟩ })) with hs2
  obtain ⟨s3, e3, R3⟩ := R2.fill hvv v
  refine ⟨s3, decl_ok (a := ()) ?_, ?_, ?_⟩
  · rw [em, M.bind_ok e]
    have e2 : onSlot (s.n, false) (Store.upd (fun d => { d with mp := ⟨true, r, c⟩ }))
        (s.bump.put (s.n, false) (h', d')) = (.ok (), s2) := onSlot_ok rfl
    rw [M.bind_ok e2]
    exact e3
  · rw [PState.new_put R.n, List.length_replicate] at R3
    exact R3
  · have : (s3.st (s.n, false)).mp = (s2.st (s.n, false)).mp := by
      have := onSlot_mp_fill (x := s.n) (v := v) (s := s2)
      unfold Mach.fill at e3
      rw [e3] at this
      exact this
    rw [this, hs2, put_same]

/-- Copy construction of a `Buffer` vector. -/
theorem Rep.declCopy {s : Mach V} {p : PState V} (R : Rep s p) {y : Nat} {v : Var V}
    (hv : p.vars y = some v) (hk : v.kind = .std) :
    ∃ s', Mach.declCopy y s = (.ok (), s') ∧ Rep s' (p.new 0 v) := by
  obtain ⟨f1, f2, f3⟩ := R.inv.fresh s.n (le_refl _)
  have e1 : s.bump.st (s.n, false) = {} := f1
  have e2 : s.bump.st (s.n, true) = {} := f2
  have L := R.vars y v hv
  have D := R.inv.d y L.bor
  have hyn : y ≠ s.n := by have := L.lt; omega
  have hkd := L.kind
  rw [hk] at hkd
  obtain ⟨h1, d1, q1, w1, sh1, st1, z1, c1, m1, fr1, a1⟩ := copyCtor_spec R.inv.sched D.wf L.shows
    D.al hkd.2.1 (by have := D.cap; omega)
  have R1 : Rep (s.bump.put (s.n, false) (h1, d1)) (p.new 0 ⟨v.val, .std⟩) :=
    R.declPut (r := (h1, d1)) st1 ⟨w1, a1, by rw [z1]; exact D.sz, by rw [c1]; exact D.cap⟩ sh1
      hkd.1 (by simp only []; rw [z1, c1]; exact hkd.2.1)
  set s1 := s.bump.put (s.n, false) (h1, d1) with hs1
  have ey : s1.st (y, true) = s.st (y, true) := put_ne _ _ (by simp)
  have T := R1.inv.t y
  rw [ey] at T
  have hc := copyCtor_own (h := s1.heap) R1.inv.sched T.own T.cap _ rfl
  have hal : ∀ h' s', Store.copyCtor (s.st (y, true)) (s1.heap, ({} : Store)) = (.ok (), (h', s')) →
      s'.allocated = true → s'.p ≠ none := by
    intro h' s' he
    cases hp : (s.st (y, true)).p with
    | none =>
      have ha : (s.st (y, true)).allocated = false := by
        cases ha : (s.st (y, true)).allocated with
        | false => rfl
        | true => exact absurd hp (hkd.2.2 ha)
      rw [copyCtor_unalloc ha] at he
      simp only [Prod.mk.injEq, true_and] at he
      rw [← he.2]; simp
    | some b =>
      rw [copyCtor_some R1.inv.sched T.own hp (by have := T.cap; omega)] at he
      simp only [Prod.mk.injEq, true_and] at he
      rw [← he.2]; simp
  rcases hr : Store.copyCtor (s.st (y, true)) (s1.heap, ({} : Store)) with ⟨o, h2, t2⟩
  rw [hr] at hc
  cases o with
  | thr e => exact absurd hc id
  | ub k =>
    exfalso
    cases hp : (s.st (y, true)).p with
    | none =>
      have ha : (s.st (y, true)).allocated = false := by
        cases ha : (s.st (y, true)).allocated with
        | false => rfl
        | true => exact absurd hp (hkd.2.2 ha)
      rw [copyCtor_unalloc ha] at hr; simp at hr
    | some b =>
      rw [copyCtor_some R1.inv.sched T.own hp (by have := T.cap; omega)] at hr
      simp at hr
  | ok a =>
    obtain ⟨o2, st2, z2, c2, m2⟩ := hc
    have en : s1.st (s.n, true) = {} := by rw [hs1, put_ne _ _ (by simp)]; exact e2
    have R2 := R1.put_t (x := s.n) (r := (h2, t2)) (by simp [hs1, Mach.bump]) f3 (by rw [en]; exact st2)
      ⟨o2, by simp only [] at c2; rw [c2]; exact T.cap⟩ (by
        intro w hw
        simp only [PState.new, R.n, Nat.add_zero, if_true, Option.some.injEq] at hw
        subst hw
        rw [hs1, put_same]
        exact ⟨hkd.1, by simp only []; rw [z1, c1]; exact hkd.2.1, hal _ _ hr⟩)
    have ev : v = ⟨v.val, .std⟩ := by cases v; simp only [] at hk; subst hk; rfl
    rw [ev]
    refine ⟨_, decl_ok (a := ()) ?_, R2⟩
    rw [M.bind_ok (M.get_apply _), if_neg (by simp only [Mach.bump]; rw [L.bor]; simp)]
    have b1 : onSlot (s.n, false) (Store.copyCtor (s.bump.st (y, false))) s.bump = (.ok (), s1) := by
      refine onSlot_ok (r := (h1, d1)) ?_
      rw [e1]; exact q1
    rw [M.bind_ok b1]
    refine onSlot_ok (r := (h2, t2)) ?_
    rw [en]; exact hr

/-- Elements of a converted expression. -/
theorem conv_el {env : Env V} {ρ : Nat → Option (List V)} (ha : Agrees env ρ) {e : Expr V}
    {conv : V → Out V} {l L : List V} (h1 : eval ρ e = some l)
    (h2 : l.mapM (fun v => val (conv v)) = some L) :
    e.size env = L.length ∧ ∀ i (hi : i < L.length), (e.el env i >>= conv) = .ok L[i] := by
  obtain ⟨_, hsz, hel⟩ := eval_sound ha e h1
  have hlen := mapM_length h2
  refine ⟨by omega, fun i hi => ?_⟩
  have := mapM_get h2 i (by omega) hi
  rw [hel i (by omega), Out.ok_bind]
  exact val_eq_some.mp this

/-- Construction from an expression. -/
theorem Rep.declExpr {zero : V} {s : Mach V} {p : PState V} (R : Rep s p) {e : Expr V}
    {conv : V → Out V} {l L : List V} (h1 : eval p.lists e = some l)
    (h2 : l.mapM (fun v => val (conv v)) = some L) (hL : L ≠ []) (hlim : L.length ≤ 2 ^ 30) :
    ∃ s', Mach.declExpr zero conv e s = (.ok (), s') ∧ Rep s' (p.new 0 ⟨L, .std⟩) := by
  obtain ⟨f1, f2, f3⟩ := R.inv.fresh s.n (le_refl _)
  have e1 : s.bump.st (s.n, false) = {} := f1
  have hpos := List.length_pos_iff.mpr hL
  have hsz : e.size s.bump.env = L.length := (conv_el R.agrees h1 h2).1
  obtain ⟨ha, d1, q1, w1, st1, z1, a1, m1, c1, k1, g1⟩ := resize_spec (zero := zero)
    (h := s.heap) (s := ({} : Store)) (n := L.length) R.inv.sched (Own.default _) (by simp) hpos
    (by omega)
  have hp1 : d1.p ≠ none := by intro hp; have := w1.null hp; omega
  have hcap := (g1 (by simp only []; omega)).1
  obtain ⟨hb, q2, w2, sh2, st2⟩ := slotLoop (s0 := s.bump) (z := (s.n, false))
    (g := fun i s => e.el s.env i >>= conv) (L := L) w1 z1 (fun i hi h' w' st' => by
      have fr : Step s.heap ({} : Store) h' d1 := st1.trans (Own.default _) st'
      have ag : Agrees (s.bump.put (s.n, false) (h', d1)).env p.lists := by
        intro x lx hx
        have hlt : x < s.n := by
          rcases PState.lists_eq hx with ⟨v, hv, rfl⟩ | ⟨β, a, _, hβ, ha, rfl⟩
          · exact (R.vars x v hv).lt
          · exact (R.liveB hβ ha).1.lt
        have hne : (x, false) ≠ (s.n, false) := by simp; omega
        have : Shows h' (s.st (x, false)) lx := by
          refine shows_frame (fun b hb => ?_) (R.agrees x lx hx)
          refine fr.frame b ?_ (by simp)
          rcases PState.lists_eq hx with ⟨v, hv, rfl⟩ | ⟨β, a, _, hβ, ha, rfl⟩
          · exact ((R.inv.d x (R.vars x v hv).bor).wf.ptr b hb).1
          · have L := R.liveB hβ ha
            rw [L.1.ptr, Option.some.injEq] at hb
            rw [← hb]; exact L.2.2
        have e3 : (s.bump.put (s.n, false) (h', d1)).st (x, false) = s.st (x, false) :=
          put_ne _ _ hne
        simp only [Mach.env, e3, put_heap]
        exact this
      exact (conv_el ag h1 h2).2 i hi)
  have R2 : Rep (s.bump.put (s.n, false) (hb, d1)) (p.new 0 ⟨L, .std⟩) :=
    R.declPut (r := (hb, d1)) (st1.trans (Own.default _) st2)
      ⟨w2, fun _ => hp1, by simp only []; omega, by simp only []; omega⟩ sh2 hL
      (by simp only []; omega)
  obtain ⟨s3, q3, R3⟩ := R2.setDims (x := s.n) (v := ⟨L, .std⟩) (by simp [PState.new, R.n]) e
  refine ⟨s3, decl_ok (a := ()) ?_, R3⟩
  rw [M.bind_ok (M.get_apply _), if_pos (by rw [hsz, e1]; simp only []; omega)]
  rw [M.bind_ok (onSlot_ok (r := (ha, d1)) (a := ()) (by rw [e1, hsz]; exact q1))]
  beta_reduce
  rw [M.bind_ok (M.get_apply _), put_same]
  simp only [z1, M.reads_lift]
  rw [M.bind_ok q2]
  exact q3

/-- The final state of `Vec x = <temporary>`. -/
theorem declTemp_eq {zero : V} {l : List V} {mp : MP} {s0 s1 : Mach V}
    (hb : makeTemp zero l mp s0.n s0.bump = (.ok (), s1)) (en : s1.n = s0.n + 1)
    (hbor : s1.bor = s0.bor) (f3 : s0.bor s0.n = false) (h2 : s1.st (s0.n, true) = {})
    (g1 : s1.st (s0.n + 1, false) = {}) :
    declTemp zero l mp s0 = (.ok (), { heap := s1.heap, n := s0.n + 2
                                       st := fun y => if y.1 = s0.n then {} else
                                         if y = (s0.n + 1, false) then { ({} : Store) with
                                           allocated := (s1.st (s0.n, false)).allocated
                                           sz := (s1.st (s0.n, false)).sz
                                           p := (s1.st (s0.n, false)).p
                                           mp := if (s1.st (s0.n, false)).mp.im then
                                             ⟨true, (s1.st (s0.n, false)).mp.nr,
                                               (s1.st (s0.n, false)).mp.nc⟩ else {} }
                                         else s1.st y
                                       bor := fun y => if y = s0.n then false else s1.bor y }) := by
  have est : (decl (fun x => stealTemp s0.n x)) s1 = (.ok (), (stealTemp s0.n s1.n s1.bump).2) :=
    decl_ok rfl
  unfold declTemp
  rw [withTmp_ok (by rw [M.bind_ok hb]; exact est)]
  set s2 := (stealTemp s0.n s1.n s1.bump).2 with hs2
  have q1 : (s2.st (s0.n, true)).p = none := by
    simp [hs2, stealTemp, Mach.bump, h2]
  have q2 : (s2.st (s0.n, false)).p = none := by
    simp [hs2, stealTemp, Mach.bump, en, g1]
  have q3 : s2.bor = s0.bor := by simp [hs2, stealTemp, Mach.bump, hbor]
  have d1 : onSlot (s0.n, true) Store.dtor s2 = (.ok (), s2) := by
    rw [onSlot_apply, dtor_none q1, put_self]
  have d2 : onSlot (s0.n, false) Store.dtor s2 = (.ok (), s2) := by
    rw [onSlot_apply, dtor_none q2, put_self]
  have hde : destroy s0.n s2 = (.ok (), { s2 with
      st := fun y => if y.1 = s0.n then {} else s2.st y
      bor := fun y => if y = s0.n then false else s2.bor y }) := by
    unfold destroy
    rw [M.bind_ok d1, M.bind_ok (M.get_apply _)]
    rw [if_pos (by rw [q3, f3]; simp), M.bind_ok d2]
    rfl
  rw [hde]
  simp only [Prod.mk.injEq, true_and, Mach.mk.injEq]
  refine ⟨rfl, ?_, ?_, ?_⟩
  · funext y
    by_cases h1 : y.1 = s0.n
    · simp [h1]
    · simp only [h1, if_false]
      have h4 : y ≠ (s0.n, false) := by rintro rfl; exact h1 rfl
      by_cases h3 : y = (s0.n + 1, false)
      · subst h3
        simp [hs2, stealTemp, Mach.bump, en, g1]
      · simp [hs2, stealTemp, Mach.bump, en, h3, h4]
  · simp [hs2, stealTemp, Mach.bump, en]
  · rw [q3, hbor]

/-- Construction from a temporary. -/
theorem Rep.declTemp {zero : V} {s : Mach V} {p : PState V} (R : Rep s p) {l : List V} {mp : MP}
    (hL : l ≠ []) (hlim : l.length ≤ 2 ^ 30) :
    ∃ s', Mach.declTemp zero l mp s = (.ok (), s') ∧ Rep s' (p.new 1 ⟨l, .stolen⟩) ∧
      s'.env.mp (s.n + 1) = (if mp.im then ⟨true, mp.nr, mp.nc⟩ else {}) := by
  have hpos := List.length_pos_iff.mpr hL
  obtain ⟨f1, f2, f3⟩ := R.inv.fresh s.n (le_refl _)
  obtain ⟨g1, g2, g3⟩ := R.inv.fresh (s.n + 1) (by omega)
  obtain ⟨h1, d1, q1, R1, st1, w1, z1, c1⟩ := R.ctorSize (zero := zero) hpos hlim
  obtain ⟨h2, q2, w2, sh2, st2⟩ := slotLoop (s0 := s.bump) (z := (s.n, false))
    (g := fun i _ => getL l i) (L := l) w1 z1 (fun i hi h' _ _ => by simp [getL, hi])
  have st12 : Step s.heap {} h2 d1 := st1.trans (Own.default _) st2
  have hD1 := R1.inv.d s.n f3
  rw [put_same] at hD1
  have D2 : DInv h2 d1 := ⟨w2, hD1.al, hD1.sz, hD1.cap⟩
  have R2 : Rep (s.bump.put (s.n, false) (h2, d1)) (p.new 0 ⟨l, .std⟩) :=
    R.declPut (r := (h2, d1)) st12 D2 sh2 hL c1
  set s1 := s.bump.put (s.n, false) (h2, { d1 with mp := mp }) with hs1
  have R3 : Rep s1 (p.new 0 ⟨l, .std⟩) := by
    have := R2.setMp (x := s.n) (v := ⟨l, .std⟩) (by simp [PState.new, R.n]) mp
    rw [put_same, put_heap, put_put] at this
    exact this
  have hmk : makeTemp zero l mp s.n s.bump = (.ok (), s1) := by
    unfold makeTemp
    rw [M.bind_ok q1]
    have : (M.forN l.length (fun i => do
        let v ← M.lift (getL l i)
        onSlot (s.n, false) (Store.set i v))) (s.bump.put (s.n, false) (h1, d1)) = (.ok (), _) := q2
    rw [M.bind_ok this]
    rw [onSlot_apply, put_same, put_heap, upd_apply, put_put]
  have i1 : s1.st (s.n, true) = {} := by rw [hs1, put_ne _ _ (by simp)]; exact f2
  have i2 : s1.st (s.n + 1, false) = {} := by rw [hs1, put_ne _ _ (by simp)]; exact g1
  have i3 : s1.st (s.n, false) = { d1 with mp := mp } := by rw [hs1, put_same]
  refine ⟨_, declTemp_eq hmk rfl rfl f3 i1 i2, ?_, by
    simp only [Mach.env, show s.n + 1 ≠ s.n by omega, if_false, if_true, i3]⟩
  have key := R3.inv.steal (t := s.n) (x := s.n + 1) rfl rfl f3 i1
    (d' := { ({} : Store) with
      allocated := (s1.st (s.n, false)).allocated, sz := (s1.st (s.n, false)).sz
      p := (s1.st (s.n, false)).p
      mp := if (s1.st (s.n, false)).mp.im then ⟨true, (s1.st (s.n, false)).mp.nr,
        (s1.st (s.n, false)).mp.nc⟩ else {} }) (by
      rw [i3]
      refine ⟨⟨?_, ?_⟩, D2.al, D2.sz, by simp⟩
      · intro b hb
        obtain ⟨a1, a2, a3, a4, a5, a6⟩ := w2.ptr b hb
        exact ⟨a1, a2, a3, a4, by simp, a6⟩
      · intro hb
        exact ⟨(w2.null hb).1, rfl⟩) rfl
  refine ⟨key, by simp [PState.new, R.n], ?_, R3.b.keep (by simp [hs1, Mach.bump]) (le_refl _) (fun y _ hy => ?_) (fun _ _ _ => rfl)⟩
  rotate_left
  · have hyn : y ≠ s.n := by rintro rfl; rw [show s1.bor s.n = false from f3] at hy; simp at hy
    have hyn' : y ≠ s.n + 1 := by rintro rfl; rw [show s1.bor (s.n + 1) = false from g3] at hy; simp at hy
    simp [hyn, hyn']
  intro x v hv
  simp only [PState.new] at hv
  by_cases hx : x = p.next + 1
  · rw [if_pos hx] at hv
    simp only [Option.some.injEq] at hv
    subst hv
    rw [← R.n] at hx
    subst hx
    refine ⟨by simp, by simp [hs1, Mach.bump, g3], ?_, ?_⟩
    · simp only [show s.n + 1 ≠ s.n by omega, if_false, if_true, i3]
      exact sh2
    · simp only [show s.n + 1 ≠ s.n by omega, if_false, show ¬ ((s.n + 1, true) = (s.n + 1, false)) by simp]
      have : s1.st (s.n + 1, true) = {} := by rw [hs1, put_ne _ _ (by simp)]; exact g2
      rw [this]
      exact ⟨hL, by simp⟩
  · rw [if_neg hx] at hv
    have L0 := (R.vars x v hv).lt
    have hpn := R.n
    have L1 := R3.vars x v (by simp only [PState.new, Nat.add_zero]; rw [if_neg (by omega)]; exact hv)
    have n1 : x ≠ s.n := by omega
    have n2 : x ≠ s.n + 1 := by omega
    refine ⟨by simp only []; omega, ?_, ?_, ?_⟩
    · simp only [n1, if_false]; exact L1.bor
    · simp only [n1, if_false, Prod.mk.injEq, n2, false_and]; exact L1.shows
    · simp only [n1, if_false, Prod.mk.injEq, n2, false_and]; exact L1.kind

/-- Destruction. -/
theorem Rep.destroy {s : Mach V} {p : PState V} (R : Rep s p) {x : Nat} (hx : x < s.n)
    (hbx : s.bor x = false) :
    ∃ s', Mach.destroy x s = (.ok (), s') ∧ Rep s' (p.put x none) := by
  obtain ⟨s', e, I, hn, hs1, hs2, hb, hnx, hf, hc⟩ := safe_destroy R.inv hx
  refine ⟨s', e, I, by rw [hn]; exact R.n, ?_, R.b.keep (by rw [hn]) (by rw [hnx]) (fun y _ hy => ?_) (fun b _ hw => hf b ?_)⟩
  rotate_left
  · have hyx : y ≠ x := by rintro rfl; rw [hbx] at hy; simp at hy
    exact ⟨hs2 _ hyx, hs2 _ hyx, by rw [hb]; simp [hyx]⟩
  · intro y _ ho hyb
    have := ((R.inv.ownOf ho).ptr b hyb).2.2.1
    rw [hw] at this; exact absurd this (by decide)
  intro y v hv
  simp only [PState.put] at hv
  by_cases hyx : y = x
  · rw [if_pos hyx] at hv; simp at hv
  · rw [if_neg hyx] at hv
    have L := R.vars y v hv
    have e1 : s'.st (y, false) = s.st (y, false) := hs2 _ hyx
    have e2 : s'.st (y, true) = s.st (y, true) := hs2 _ hyx
    refine ⟨by rw [hn]; exact L.lt, by rw [hb]; simp only [hyx, if_false]; exact L.bor, ?_, ?_⟩
    · rw [e1]
      refine shows_frame (fun b hb' => hf b ?_) L.shows
      intro z hz ho hzb
      have := R.inv.inj z (y, false) b ho (Or.inr L.bor) hzb hb'
      subst this
      exact hyx hz
    · rw [e1, e2]; exact L.kind

/-! ### Writes through subsets -/

theorem writeAll_drop {l : List V} {ind : List Nat} {vs r : List V} {i : Nat}
    (hi : i < ind.length) (hi' : i < vs.length)
    (h : writeAll l (ind.drop i) (vs.drop i) = some r) :
    ind[i] < l.length ∧ writeAll (l.set ind[i] vs[i]) (ind.drop (i + 1)) (vs.drop (i + 1)) = some r := by
  rw [List.drop_eq_getElem_cons hi, List.drop_eq_getElem_cons hi', writeAll] at h
  split at h
  · exact ⟨by assumption, h⟩
  · simp at h

theorem writeAll_length : ∀ {ind : List Nat} {l vs r : List V}, writeAll l ind vs = some r →
    r.length = l.length := by
  intro ind
  induction ind with
  | nil => intro l vs r h; simp [writeAll] at h; rw [h]
  | cons j js ih =>
    intro l vs r h
    cases vs with
    | nil => simp [writeAll] at h
    | cons v vs =>
      rw [writeAll] at h
      split at h
      · have := ih h; simpa using this
      · simp at h

theorem _root_.ETR.Spec.PState.put_put (p : PState V) (x : Nat) (a b : Option (Var V)) :
    (p.put x a).put x b = p.put x b := by
  unfold PState.put
  simp only [PState.mk.injEq, true_and, and_true]
  funext y; split <;> rfl

/-- One write through a subset. -/
theorem Rep.subSet {s : Mach V} {p : PState V} (R : Rep s p) {x : Nat} {v : Var V}
    (hv : p.vars x = some v) {ind : List Nat} {i : Nat} (hi : i < ind.length)
    (hle : ind.length ≤ v.val.length) (hj : ind[i] < v.val.length) (c : V) :
    ∃ h', Mach.subSet x ind i c s = (.ok (), s.put (x, false) (h', s.st (x, false))) ∧
      Rep (s.put (x, false) (h', s.st (x, false))) (p.put x (some ⟨v.val.set ind[i] c, v.kind⟩)) ∧
      Step s.heap (s.st (x, false)) h' (s.st (x, false)) := by
  obtain ⟨h', e, R', st⟩ := R.setElem hv hj c
  refine ⟨h', ?_, R', st⟩
  have hz := (R.vars x v hv).shows.1
  unfold Mach.subSet
  rw [M.bind_ok (M.get_apply _)]
  have e1 : modz i (s.st (x, false)).sz = .ok i := by
    unfold modz
    rw [if_neg (by omega), Nat.mod_eq_of_lt (by omega)]
  have e2 : getL ind i = .ok ind[i] := by simp [getL, hi]
  rw [e1, M.bind_ok (M.lift_apply _ _), e2, M.bind_ok (M.lift_apply _ _)]
  exact e

theorem Rep.subAssignScalar {s : Mach V} {p : PState V} (R : Rep s p) {x : Nat} {v : Var V}
    (hv : p.vars x = some v) {ind : List Nat} (hle : ind.length ≤ v.val.length) {c : V}
    {r : List V} (hw : writeAll v.val ind (List.replicate ind.length c) = some r) :
    ∃ s', Mach.subAssignScalar x ind c s = (.ok (), s') ∧ Rep s' (p.put x (some ⟨r, v.kind⟩)) := by
  obtain ⟨s', e, l, R', _, hr⟩ := M.forN_ok (σ := Mach V)
    (I := fun i s => ∃ l, Rep s (p.put x (some ⟨l, v.kind⟩)) ∧ l.length = v.val.length ∧
      writeAll l (ind.drop i) ((List.replicate ind.length c).drop i) = some r) ind.length
    (f := fun i => Mach.subSet x ind i c) (s := s)
    ⟨v.val, by rw [PState.put_self (v := ⟨v.val, v.kind⟩) hv]; exact R, rfl, by simpa using hw⟩ (by
      rintro i s hi ⟨l, Ri, hl, hw⟩
      obtain ⟨hj, hw'⟩ := writeAll_drop hi (by simpa using hi) hw
      obtain ⟨h', e, R', _⟩ := Ri.subSet (x := x) (v := ⟨l, v.kind⟩) (by simp [PState.put]) hi
        (by simp only []; omega) hj c
      refine ⟨_, e, _, ?_, ?_, hw'⟩
      · rw [PState.put_put] at R'
        simpa using R'
      · simpa using hl)
  refine ⟨s', e, ?_⟩
  simp [writeAll] at hr
  rw [← hr]; exact R'

theorem Rep.subAssign {zero : V} {s : Mach V} {p : PState V} (R : Rep s p) {x : Nat} {v : Var V}
    (hv : p.vars x = some v) {ind : List Nat} (hle : ind.length ≤ v.val.length) {e : Expr V}
    {conv : V → Out V} {same : Bool} {l L r : List V} (h1 : eval p.lists e = some l)
    (h2 : l.mapM (fun v => val (conv v)) = some L) (hL : L ≠ []) (hlim : L.length ≤ 2 ^ 30)
    (hlen : L.length = ind.length) (hw : writeAll v.val ind L = some r) :
    ∃ s', Mach.subAssign zero conv same x ind e s = (.ok (), s') ∧
      Rep s' { p.put x (some ⟨r, v.kind⟩) with next := p.next + 1 } := by
  obtain ⟨f1, f2, f3⟩ := R.inv.fresh s.n (le_refl _)
  have hxn : x ≠ s.n := by have := (R.vars x v hv).lt; omega
  set p0 : PState V := { p with next := p.next + 1 } with hp0
  have R0 : Rep s.bump p0 := by
    refine ⟨R.inv.bump, by simp [Mach.bump, hp0, R.n], ?_, R.b.bump⟩
    intro y w hw
    have L := R.vars y w hw
    exact ⟨by have := L.lt; simp only [Mach.bump]; omega, L.bor, L.shows, L.kind⟩
  have ag : Agrees s.bump.env p.lists := R.agrees
  obtain ⟨hsz, hel⟩ := conv_el ag h1 h2
  obtain ⟨ha, t1, q1, st1, D1, sh1, a1, p1, c1⟩ := fillTemp_ok (zero := zero) (t := s.n) R0.inv
    (by rw [show s.bump.st (s.n, true) = {} from f2]; simp) hsz hel hL hlim
  have R1 := R0.put_t (x := s.n) (r := (ha, t1)) (by simp [Mach.bump]) f3 st1 ⟨D1.wf.own, D1.cap⟩ (by
    intro w hw
    have : p.vars s.n = none := R.next_none (by rw [R.n])
    simp only [hp0] at hw
    rw [this] at hw; simp at hw)
  set s1 := s.bump.put (s.n, true) (ha, t1) with hs1
  have hv0 : p0.vars x = some v := hv
  obtain ⟨s2, q2, l2, R2, _, sh2, hst2, hbo2, hr⟩ := M.forN_ok (σ := Mach V)
    (I := fun i s' => ∃ l, Rep s' (p0.put x (some ⟨l, v.kind⟩)) ∧ l.length = v.val.length ∧
      Shows s'.heap (s'.st (s.n, true)) L ∧ s'.n = s.n + 1 ∧ s'.bor = s.bor ∧
      writeAll l (ind.drop i) (L.drop i) = some r) ind.length
    (f := fun i => do
      let v ← M.reads (fun s' => (s'.st (s.n, true)).get s'.heap i)
      Mach.subSet x ind (i % ind.length) v) (s := s1)
    ⟨v.val, by rw [PState.put_self (v := ⟨v.val, v.kind⟩) hv0]; exact R1, rfl, by
      rw [hs1, put_same]; exact sh1, by simp [hs1, Mach.bump], rfl, by simpa using hw⟩ (by
      rintro i s' hi ⟨l, Ri, hl, sh, hn, hbo, hw⟩
      obtain ⟨hj, hw'⟩ := writeAll_drop hi (by omega) hw
      obtain ⟨h', e, R', st'⟩ := Ri.subSet (x := x) (v := ⟨l, v.kind⟩) (by simp [PState.put]) hi
        (by simp only []; omega) hj L[i]
      have Lx := Ri.vars x ⟨l, v.kind⟩ (by simp [PState.put])
      refine ⟨s'.put (x, false) (h', s'.st (x, false)), ?_, _, ?_, ?_, ?_, ?_, hbo, hw'⟩
      · have : M.reads (fun s' => (s'.st (s.n, true)).get s'.heap i) s' = (.ok L[i], s') := by
          rw [M.reads_apply, sh.2 i (by omega)]
        rw [M.bind_ok this, Nat.mod_eq_of_lt hi]
        exact e
      · rw [PState.put_put] at R'
        simpa using R'
      · simpa using hl
      · rw [put_ne _ _ (by simp)]
        exact shows_frame (Ri.inv.frame_step (y := (x, false)) (z := (s.n, true)) (Or.inr Lx.bor)
          (Or.inl rfl) (by simp) (r := (h', _)) st') sh
      · exact hn)
  obtain ⟨s3, q3, R3⟩ := R2.destroy (x := s.n) (by omega) (by rw [hbo2]; exact f3)
  refine ⟨s3, ?_, ?_⟩
  · unfold Mach.subAssign
    rw [withTmp_ok (a := ()) (s' := s2), q3]
    unfold subAssignBody
    rw [M.bind_ok (M.get_apply _), M.bind_ok (M.ass_pos (by rw [hsz, hlen]) _), M.bind_ok q1,
      M.bind_ok (M.get_apply _), if_neg]
    · exact q2
    · rintro ⟨_, hlt⟩
      have hzx := (R1.vars x v hv0).shows.1
      rw [hs1, put_same] at hlt
      have := sh1.1
      rw [← hs1, hzx] at hlt
      simp only [] at hlt
      omega
  · have hr' : l2 = r := by simpa [writeAll] using hr
    subst hr'
    have hnone : p.vars s.n = none := R.next_none (by rw [R.n])
    have : (p0.put x (some ⟨l2, v.kind⟩)).put s.n none
        = { p.put x (some ⟨l2, v.kind⟩) with next := p.next + 1 } := by
      unfold PState.put
      simp only [hp0, PState.mk.injEq, true_and, and_true]
      funext y
      by_cases hy : y = s.n
      · subst hy; simp [hnone, Ne.symm hxn]
      · simp [hy]
    rw [this] at R3
    exact R3

end Mach
end ETR
