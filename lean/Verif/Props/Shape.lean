import Verif.Spec.Shape
import Verif.Props.DerivDims
import Verif.Props.Program

/-! # C90: lengths and dimensions in programs -/

namespace ETR.Mach
open Spec Deriv
variable {V : Type}

/-! ## Operations on one store -/

theorem postBind {σ α β : Type} {m : M σ α} {f : α → M σ β} {s s' : σ} {b : β}
    (h : (m >>= f) s = (.ok b, s')) : ∃ a s1, m s = (.ok a, s1) ∧ f a s1 = (.ok b, s') := by
  rcases hm : m s with ⟨o, s1⟩
  cases o with
  | ok a => rw [M.bind_ok hm] at h; exact ⟨a, s1, rfl, h⟩
  | thr e => rw [M.bind_thr hm] at h; cases h
  | ub k => rw [M.bind_ub hm] at h; cases h

/-- The object in a store operation. -/
abbrev obj (s : Heap V × Store) : Store := s.2

theorem pres_heapM {α : Type} (m : M (Heap V) α) : Pres (obj (V := V)) (Store.heapM m) := fun _ => rfl
theorem pres_self : Pres (obj (V := V)) Store.self := fun _ => rfl

/-- The operation gives the store the length `n` and leaves the dimensions. -/
def Sets (n : Nat) (m : SM V Unit) : Prop := ∀ s s', m s = (.ok (), s') → s'.2.sz = n ∧ s'.2.mp = s.2.mp

theorem sets_bind {n : Nat} {α : Type} {m : SM V α} {f : α → SM V Unit} (h : Pres (fun s => s.2.mp) m) (hf : ∀ a, Sets n (f a)) :
    Sets n (m >>= f) := by
  intro s s' e
  obtain ⟨a, s1, e1, e2⟩ := postBind e
  have := hf a s1 s' e2
  exact ⟨this.1, this.2.trans (h.ok e1)⟩

theorem sets_then {n : Nat} {α : Type} {m : SM V Unit} {f : Unit → SM V α} (h : Sets n m) (hf : ∀ a, Pres (obj (V := V)) (f a)) :
    ∀ s a s', (m >>= f) s = (.ok a, s') → s'.2.sz = n ∧ s'.2.mp = s.2.mp := by
  intro s b s' e
  obtain ⟨a, s1, e1, e2⟩ := postBind e
  have := h s s1 e1
  have h2 := (hf a).ok e2
  rw [show s'.2 = s1.2 from h2]
  exact this

theorem pres_mp {α : Type} {m : SM V α} (h : Pres (obj (V := V)) m) : Pres (fun s : Heap V × Store => s.2.mp) m :=
  fun s => congrArg Store.mp (h s)

theorem pres_mp_upd {f : Store → Store} (h : ∀ s, (f s).mp = s.mp) : Pres (fun s : Heap V × Store => s.2.mp) (Store.upd f) :=
  fun s => h s.2

theorem sets_upd {n : Nat} {f : Store → Store} (h : ∀ s, (f s).sz = n ∧ (f s).mp = s.mp) : Sets (V := V) n (Store.upd f) := by
  intro s s' e
  cases e
  exact h s.2

theorem pres_fillScalar (v : V) : Pres (obj (V := V)) (Store.fillScalar v) :=
  Pres.bind pres_self fun _ => pres_heapM _

theorem pres_set (i : Nat) (v : V) : Pres (obj (V := V)) (Store.set i v) :=
  Pres.bind pres_self fun _ => Pres.bind (Pres.lift _) fun _ => pres_heapM _

theorem pres_fillVec (o : Store) : Pres (obj (V := V)) (Store.fillVec o) :=
  Pres.bind pres_self fun _ => Pres.bind (Pres.ass _ _) fun _ => (Pres.forN fun _ => Pres.bind (Pres.reads _) fun _ => pres_heapM _) _

/-- Keeps the length and the dimensions. -/
abbrev lm (s : Heap V × Store) : Nat × MP := (s.2.sz, s.2.mp)

theorem pres_lm {α : Type} {m : SM V α} (h : Pres (obj (V := V)) m) : Pres (lm (V := V)) m :=
  fun s => by simp only [lm]; rw [show (m s).2.2 = s.2 from h s]

theorem sets_lm {n : Nat} {m : SM V Unit} {f : Unit → SM V Unit} (h : Sets n m) (hf : ∀ a, Pres (lm (V := V)) (f a)) :
    Sets n (m >>= f) := by
  intro s s' e
  obtain ⟨a, s1, e1, e2⟩ := postBind e
  have h1 := h s s1 e1
  have h2 := (hf a).ok e2
  simp only [lm, Prod.mk.injEq] at h2
  exact ⟨h2.1.trans h1.1, h2.2.trans h1.2⟩

theorem sets_init (n : Nat) : Sets n (Store.init n : SM V Unit) := by
  refine sets_bind (pres_mp pres_self) fun st => ?_
  have tail : Sets n ((do
      Store.upd (fun s => { s with sz := n })
      let c ← M.lift (capOf n)
      Store.upd (fun s => { s with capacity := c })
      let b ← Store.heapM (Heap.new c)
      Store.upd (fun s => { s with p := some b, allocated := true })) : SM V Unit) := by
    refine sets_lm (sets_upd fun s => ⟨rfl, rfl⟩) fun _ => ?_
    refine Pres.bind (Pres.lift _) fun c => Pres.bind (fun s => rfl) fun _ => ?_
    exact Pres.bind (pres_lm (pres_heapM _)) fun b s => rfl
  split
  · refine sets_bind (Pres.ass _ _) fun _ => ?_
    refine sets_bind (pres_mp (pres_heapM _)) fun _ => ?_
    exact sets_bind (pres_mp_upd fun s => rfl) fun _ => tail
  · exact tail

theorem sets_resize (zero : V) (n : Nat) : Sets n (Store.resize zero n) := by
  refine sets_bind (Pres.ass _ _) fun _ => sets_bind (pres_mp pres_self) fun st => ?_
  split
  · exact sets_lm (sets_init n) fun _ => pres_lm (pres_fillScalar _)
  · split
    · refine sets_bind (Pres.ass _ _) fun _ => sets_bind (pres_mp (pres_heapM _)) fun _ => ?_
      refine sets_bind (Pres.lift _) fun c => sets_bind (pres_mp_upd fun s => rfl) fun _ => ?_
      refine sets_bind (pres_mp (pres_heapM _)) fun b => ?_
      exact sets_lm (sets_upd fun s => ⟨rfl, rfl⟩) fun _ => pres_lm (pres_fillScalar _)
    · exact sets_upd fun s => ⟨rfl, rfl⟩

theorem sets_borrowResize (n : Nat) : Sets n (borrowResize n : SM V Unit) := by
  refine sets_bind (Pres.ass _ _) fun _ => sets_bind (pres_mp pres_self) fun st => ?_
  split
  · exact sets_upd fun s => ⟨rfl, rfl⟩
  · intro s s' e; cases e

theorem sets_ctorSize (zero : V) (n : Nat) : Sets n (Store.ctorSize zero n) := by
  refine sets_bind (Pres.lift _) fun c => ?_
  refine sets_lm (sets_upd fun s => ⟨rfl, rfl⟩) fun _ => ?_
  refine Pres.bind (Pres.ass _ _) fun _ => Pres.bind (pres_lm (pres_heapM _)) fun b => ?_
  exact Pres.bind (fun s => rfl) fun _ => Pres.bind (pres_lm (pres_heapM _)) fun _ s => rfl

theorem sets_ctorInt (zero : V) (n : Int) : Sets (wrap64 n) (Store.ctorInt zero n) := by
  refine sets_bind (Pres.lift _) fun c => ?_
  refine sets_lm (sets_upd fun s => ⟨rfl, rfl⟩) fun _ => ?_
  refine Pres.bind (Pres.ass _ _) fun _ => Pres.bind (pres_lm (pres_heapM _)) fun b => ?_
  exact Pres.bind (fun s => rfl) fun _ => Pres.bind (pres_lm (pres_heapM _)) fun _ s => rfl

theorem sets_copyCtor (o : Store) : Sets o.sz (Store.copyCtor o : SM V Unit) := by
  refine sets_lm (sets_upd fun s => ⟨rfl, rfl⟩) fun _ => ?_
  split
  · exact Pres.bind (pres_lm (pres_heapM _)) fun b => Pres.bind (fun s => rfl) fun _ => pres_lm (pres_heapM _)
  · exact Pres.pure _

theorem sets_realloc (zero : V) (n : Nat) : Sets n (Store.realloc zero n) := by
  refine sets_bind (Pres.lift _) fun c => sets_bind (pres_mp_upd fun s => rfl) fun _ => ?_
  refine sets_bind (pres_mp (pres_heapM _)) fun b => sets_bind (pres_mp pres_self) fun st => ?_
  refine sets_bind (pres_mp (Pres.forN (fun i => Pres.bind (Pres.reads _) fun _ => pres_heapM _) _)) fun _ => ?_
  refine sets_bind (pres_mp (Pres.forN (fun i => pres_heapM _) _)) fun _ => ?_
  exact sets_bind (pres_mp (pres_heapM _)) fun _ => sets_upd fun s => ⟨rfl, rfl⟩

theorem storeAssign_shape (zero : V) (o : Store) (s s' : Heap V × Store) (e : Store.assign zero o s = (.ok (), s')) :
    s'.2.sz = max s.2.sz o.sz ∧ s'.2.mp = s.2.mp := by
  rw [Store.assign] at e
  obtain ⟨a, s1, e1, e2⟩ := postBind e
  cases e1
  have tail : Pres (lm (V := V)) (do
      let s ← Store.self
      M.forN s.sz (fun i => do
        let v ← M.reads (fun st => o.get st.1 i)
        Store.heapM (Heap.store s.p i v))) :=
    pres_lm (Pres.bind pres_self fun st => Pres.forN (fun i => Pres.bind (Pres.reads _) fun _ => pres_heapM _) _)
  by_cases h : o.sz > s.2.sz
  · rw [if_pos h] at e2
    have big : Sets o.sz (if s.2.allocated then Store.realloc zero (s.2.sz + (o.sz - s.2.sz)) else Store.resize zero o.sz) := by
      split
      · rw [show s.2.sz + (o.sz - s.2.sz) = o.sz by omega]; exact sets_realloc zero _
      · exact sets_resize zero _
    have := sets_lm big (fun _ => tail) s s'
    have h2 := this (by
      by_cases ha : s.2.allocated = true
      · rw [if_pos ha] at e2 ⊢; exact e2
      · rw [if_neg ha] at e2 ⊢; exact e2)
    rw [Nat.max_eq_right (by omega)]; exact h2
  · rw [if_neg h] at e2
    have := tail.ok e2
    simp only [lm, Prod.mk.injEq] at this
    rw [Nat.max_eq_left (by omega)]; exact this

/-! ## Operations on the machine -/

/-- Number of identifiers, which variables borrow, lengths and dimensions. -/
abbrev frame (s : Mach V) : Nat × (Nat → Bool) × (Nat → Nat × MP) :=
  (s.n, s.bor, fun y => ((s.st (y, false)).sz, (s.st (y, false)).mp))

theorem pres_temp {α : Type} (t : Nat) (m : SM V α) : Pres (frame (V := V)) (onSlot (t, true) m) := by
  intro s
  have : ∀ y : Nat, ((y, false) : Slot) ≠ (t, true) := fun y h => by cases h
  simp only [frame, onSlot, if_neg (this _)]

theorem pres_d {α : Type} (x : Nat) {m : SM V α} (h : Pres (lm (V := V)) m) : Pres (frame (V := V)) (onSlot (x, false) m) := by
  intro s
  have h1 := h (s.heap, s.st (x, false))
  simp only [lm, Prod.mk.injEq] at h1
  refine Prod.ext rfl (Prod.ext rfl ?_)
  funext y
  simp only [onSlot]
  by_cases hy : ((y, false) : Slot) = (x, false)
  · rw [if_pos hy, h1.1, h1.2]; cases hy; rfl
  · rw [if_neg hy]

theorem onSlot_inv {α : Type} {z : Slot} {m : SM V α} {s s' : Mach V} {a : α} (h : onSlot z m s = (.ok a, s')) :
    ∃ r, m (s.heap, s.st z) = (.ok a, r) ∧ s' = { s with heap := r.1, st := fun y => if y = z then r.2 else s.st y } := by
  simp only [onSlot] at h
  rcases hm : m (s.heap, s.st z) with ⟨o, r⟩
  rw [hm] at h
  cases h
  exact ⟨r, rfl, rfl⟩

theorem fillTemp_shape {zero : V} {conv : V → Out V} {t : Nat} {e : Expr V} {s s' : Mach V}
    (h : fillTemp zero conv t e s = (.ok (), s')) : frame s' = frame s ∧ (s'.st (t, true)).sz = e.size s.env := by
  rw [fillTemp, M.bind_ok (M.get_apply s)] at h
  obtain ⟨a, s1, e1, e2⟩ := postBind h
  have hl : Pres (fun s : Mach V => (frame s, (s.st (t, true)).sz)) (M.forN (e.size s.env) (fun i => do
      let v ← M.reads (fun s => e.el s.env i)
      let w ← M.lift (conv v)
      onSlot (t, true) (Store.set i w))) := by
    refine Pres.forN (fun i => ?_) _
    refine Pres.bind (Pres.reads _) fun v => Pres.bind (Pres.lift _) fun w => ?_
    intro s
    have h1 := pres_temp (V := V) t (Store.set i w) s
    have h2 := pres_set i w (s.heap, s.st (t, true))
    refine Prod.ext h1 ?_
    simp only [onSlot, if_pos]
    rw [show (Store.set i w (s.heap, s.st (t, true))).2.2 = s.st (t, true) from h2]
  have h2 := hl.ok e2
  simp only [Prod.mk.injEq] at h2
  refine ⟨?_, ?_⟩
  · have := (pres_temp (V := V) t _).ok e1
    exact Eq.trans (Prod.ext h2.1.1 (Prod.ext h2.1.2.1 h2.1.2.2)) this
  · rw [h2.2]
    obtain ⟨r, hr, rfl⟩ := onSlot_inv e1
    simp only [if_pos]
    exact (sets_resize zero _ _ _ hr).1

/-- Frame after the end of the life of `x`. -/
def gone (x : Nat) (F : Nat × (Nat → Bool) × (Nat → Nat × MP)) : Nat × (Nat → Bool) × (Nat → Nat × MP) :=
  (F.1, (fun y => if y = x then false else F.2.1 y), fun y => if y = x then (0, {}) else F.2.2 y)

theorem destroy_shape {x : Nat} {s s' : Mach V} (h : destroy x s = (.ok (), s')) : frame s' = gone x (frame s) := by
  rw [destroy] at h
  obtain ⟨_, s1, e1, h⟩ := postBind h
  obtain ⟨r1, hr1, rfl⟩ := onSlot_inv e1
  rw [M.bind_ok (M.get_apply _)] at h
  have fin : ∀ {t : Mach V}, M.modify (fun s : Mach V => { s with
        st := fun y => if y.1 = x then {} else s.st y
        bor := fun y => if y = x then false else s.bor y }) t = (.ok (), s') →
      t.n = s.n → t.bor = s.bor → (∀ y, y ≠ x → t.st (y, false) = s.st (y, false)) →
      frame s' = gone x (frame s) := by
    intro t e h1 h2 h3
    cases e
    simp only [frame, gone, h1, h2, Prod.mk.injEq, true_and]
    funext y
    by_cases hy : y = x
    · simp [hy]
    · simp [hy, h3 y hy]
  have neq : ∀ y : Nat, ((y, false) : Slot) ≠ (x, true) := fun y h => by cases h
  split at h
  · obtain ⟨_, s2, e2, h⟩ := postBind h
    obtain ⟨r2, hr2, rfl⟩ := onSlot_inv e2
    refine fin h rfl rfl (fun y hy => ?_)
    have : ((y, false) : Slot) ≠ (x, false) := fun h => hy (by cases h; rfl)
    simp only [if_neg this, if_neg (neq y)]
  · exact fin h rfl rfl (fun y hy => by simp only [if_neg (neq y)])

theorem withTmp_shape {body : Nat → M (Mach V) Unit} {s s' : Mach V} (h : withTmp body s = (.ok (), s')) :
    ∃ s1, body s.n { s with n := s.n + 1 } = (.ok (), s1) ∧ frame s' = gone s.n (frame s1) := by
  unfold withTmp at h
  rcases hm : body s.n { s with n := s.n + 1 } with ⟨o, s1⟩
  rw [hm] at h
  cases o with
  | ok a => exact ⟨s1, rfl, destroy_shape h⟩
  | thr m =>
    obtain ⟨_, s2, _, e2⟩ := postBind h
    cases e2
  | ub k => cases h

theorem decl_shape {body : Nat → M (Mach V) Unit} {s s' : Mach V} (h : decl body s = (.ok (), s')) :
    body s.n { s with n := s.n + 1 } = (.ok (), s') := by
  unfold decl at h
  rcases hm : body s.n { s with n := s.n + 1 } with ⟨o, s1⟩
  rw [hm] at h
  cases o with
  | ok a => cases h; rfl
  | thr m =>
    obtain ⟨_, s2, _, e2⟩ := postBind h
    cases e2
  | ub k => cases h

/-! ## Shapes of expressions -/

/-- State and shapes agree. -/
structure HasShapes (s : Mach V) (S : Shapes) : Prop where
  next : s.n = S.next
  bor : s.bor = S.bor
  len : ∀ x, (s.st (x, false)).sz = (S.sh x).len
  dim : ∀ x, dimMP (s.st (x, false)).mp = (S.sh x).dim
  fresh : ∀ x, S.next ≤ x → S.sh x = ⟨0, none⟩ ∧ S.bor x = false

theorem HasShapes.size {s : Mach V} {S : Shapes} (H : HasShapes s S) (e : Expr V) : e.size s.env = S.len e := by
  have hf : (fun x => (S.sh x).len) = s.env.size := by funext x; exact (H.len x).symm
  unfold Shapes.len
  rw [hf]
  induction e with
  | leaf x => rfl
  | rvec l mp => rfl
  | scal v => rfl
  | un f e ih => exact ih
  | sub e ind mp ih => rfl
  | bin f l r hl hr =>
    rw [Expr.size]
    by_cases h1 : l.isScal = true
    · have : lenOf s.env.size (.bin f l r) = lenOf s.env.size r := by
        cases l <;> first | (simp only [lenOf]; done) | cases h1
      rw [this, ← hr]
      by_cases h2 : r.isScal = true
      · rw [if_pos ⟨h1, h2⟩]
        cases r <;> first | rfl | cases h2
      · rw [if_neg (fun h => h2 h.2), if_neg h2, if_pos h1]
    · rw [if_neg (fun h => h1 h.1)]
      by_cases h2 : r.isScal = true
      · have : lenOf s.env.size (.bin f l r) = lenOf s.env.size l := by
          cases r <;> first
            | (cases l <;> first | (simp only [lenOf]; done) | exact absurd rfl h1)
            | cases h2
        rw [this, ← hl, if_pos h2]
      · have : lenOf s.env.size (.bin f l r) = max (lenOf s.env.size l) (lenOf s.env.size r) := by
          cases r <;> first
            | exact absurd rfl h2
            | (cases l <;> first | exact absurd rfl h1 | (simp only [lenOf]; done))
        rw [this, ← hl, ← hr, if_neg h2, if_neg h1]
        split <;> omega

theorem dims_agree (env : Env V) : ∀ (e : Expr V),
    (e.im env = true ↔ (dimsOf (fun x => dimMP (env.mp x)) e).isSome) ∧
    ∀ d, dimsOf (fun x => dimMP (env.mp x)) e = some d → e.nr env = .ok d.1 ∧ e.nc env = .ok d.2 := by
  intro e
  have base : ∀ mp : MP, (mp.im = true ↔ (dimMP mp).isSome) ∧
      ∀ d, dimMP mp = some d → (Out.ok mp.nr = .ok d.1 ∧ Out.ok mp.nc = .ok d.2) := by
    intro mp
    unfold dimMP
    cases mp.im with
    | true => simp
    | false => simp
  induction e with
  | leaf x => exact base (env.mp x)
  | rvec l mp => exact base mp
  | scal v => simp [Expr.im, dimsOf]
  | un f e ih => simp [Expr.im, dimsOf]
  | sub e ind mp ih => exact base mp
  | bin f l r hl hr =>
    have hscal : ∀ e : Expr V, e.isScal = true → dimsOf (fun x => dimMP (env.mp x)) e = none := by
      intro e h; cases e <;> first | rfl | cases h
    simp only [Expr.im, Expr.nr, Expr.nc, dimsOf]
    by_cases h1 : l.isScal = true
    · rw [if_pos h1, if_pos h1, if_pos h1, hscal l h1]
      exact hr
    · rw [if_neg h1, if_neg h1, if_neg h1]
      by_cases h2 : r.isScal = true
      · rw [if_pos h2, if_pos h2, if_pos h2, hscal r h2]
        cases hd : dimsOf (fun x => dimMP (env.mp x)) l with
        | none => rw [hd] at hl; simpa using hl
        | some a => rw [hd] at hl; simpa using hl
      · rw [if_neg h2, if_neg h2, if_neg h2]
        cases hd : dimsOf (fun x => dimMP (env.mp x)) l with
        | none =>
          rw [hd] at hl
          have il : l.im env = false := by simpa using hl.1
          cases hd' : dimsOf (fun x => dimMP (env.mp x)) r with
          | none =>
            rw [hd'] at hr
            have ir : r.im env = false := by simpa using hr.1
            simp [il, ir]
          | some b =>
            rw [hd'] at hr
            have ir : r.im env = true := by simpa using hr.1
            obtain ⟨n1, n2⟩ := hr.2 b rfl
            simp [il, ir, n1, n2]
        | some a =>
          rw [hd] at hl
          have il : l.im env = true := by simpa using hl.1
          obtain ⟨m1, m2⟩ := hl.2 a rfl
          cases hd' : dimsOf (fun x => dimMP (env.mp x)) r with
          | none =>
            rw [hd'] at hr
            have ir : r.im env = false := by simpa using hr.1
            simp [il, ir, m1, m2]
          | some b =>
            rw [hd'] at hr
            have ir : r.im env = true := by simpa using hr.1
            obtain ⟨n1, n2⟩ := hr.2 b rfl
            simp only [il, ir, m1, m2, n1, n2]
            refine ⟨by simp, ?_⟩
            intro d hd
            cases hd
            refine ⟨?_, ?_⟩
            · show Out.ok _ = Out.ok _
              congr 1
              split <;> omega
            · show Out.ok _ = Out.ok _
              congr 1
              split <;> omega

theorem HasShapes.dims {s : Mach V} {S : Shapes} (H : HasShapes s S) (e : Expr V) :
    dimsOf (fun x => dimMP (s.env.mp x)) e = S.dims e := by
  have : (fun x => dimMP (s.env.mp x)) = fun x => (S.sh x).dim := funext H.dim
  unfold Shapes.dims
  rw [this]

/-! ## Steps -/

theorem shapes_put_put (S : Shapes) (x : Nat) (a b : Shape) : (S.put x a).put x b = S.put x b := by
  simp only [Shapes.put, Shapes.mk.injEq, true_and, and_true]
  funext y
  by_cases h : y = x <;> simp [h]

theorem shapes_put_sh (S : Shapes) (x : Nat) (a : Shape) : (S.put x a).sh x = a := by simp [Shapes.put]

theorem shapes_put_self (S : Shapes) (x : Nat) : S.put x (S.sh x) = S := by
  simp only [Shapes.put]
  congr 1
  funext y
  by_cases h : y = x <;> simp [h]

theorem new_put (S : Shapes) (k : Nat) (a b : Shape) : (S.new k a).put (S.next + k) b = S.new k b := by
  simp only [Shapes.put, Shapes.new, Shapes.mk.injEq, true_and, and_true]
  funext y
  by_cases h : y = S.next + k <;> simp [h]

theorem HasShapes.frame {s s' : Mach V} {S : Shapes} (H : HasShapes s S) (h : frame s' = Mach.frame s) : HasShapes s' S := by
  simp only [Mach.frame, Prod.mk.injEq] at h
  obtain ⟨h1, h2, h3⟩ := h
  have h4 := fun y => Prod.mk.inj (congrFun h3 y)
  exact ⟨h1.trans H.next, h2.trans H.bor, fun x => (h4 x).1.trans (H.len x), fun x => by rw [(h4 x).2]; exact H.dim x, H.fresh⟩

theorem HasShapes.put {s s' : Mach V} {S : Shapes} (H : HasShapes s S) {x : Nat} (hx : x < S.next) (h1 : s'.n = s.n)
    (h2 : s'.bor = s.bor) (h3 : ∀ y, y ≠ x → s'.st (y, false) = s.st (y, false)) {σ : Shape}
    (h4 : (s'.st (x, false)).sz = σ.len) (h5 : dimMP (s'.st (x, false)).mp = σ.dim) : HasShapes s' (S.put x σ) := by
  refine ⟨h1.trans H.next, h2.trans H.bor, fun y => ?_, fun y => ?_, fun y hy => ?_⟩
  · by_cases hy : y = x
    · subst hy; rw [shapes_put_sh]; exact h4
    · rw [h3 y hy, H.len]; simp [Shapes.put, hy]
  · by_cases hy : y = x
    · subst hy; rw [shapes_put_sh]; exact h5
    · rw [h3 y hy, H.dim]; simp [Shapes.put, hy]
  · have hn : S.next ≤ y := hy
    have : y ≠ x := by omega
    simp only [Shapes.put, this, if_false]
    exact H.fresh y hn

theorem HasShapes.onD {s s' : Mach V} {S : Shapes} (H : HasShapes s S) {x : Nat} (hx : x < S.next) {m : SM V Unit}
    {n : Nat} {d : Option (Nat × Nat)}
    (hm : ∀ r, m (s.heap, s.st (x, false)) = (.ok (), r) → r.2.sz = n ∧ dimMP r.2.mp = d)
    (e : onSlot (x, false) m s = (.ok (), s')) : HasShapes s' (S.put x ⟨n, d⟩) := by
  obtain ⟨r, hr, rfl⟩ := onSlot_inv e
  obtain ⟨h1, h2⟩ := hm r hr
  refine H.put (s' := { s with heap := r.1, st := fun y => if y = (x, false) then r.2 else s.st y }) hx rfl rfl
    (fun y hy => ?_) ?_ ?_
  · have : ((y, false) : Slot) ≠ (x, false) := fun h => hy (by cases h; rfl)
    simp only [if_neg this]
  · simpa using h1
  · simpa using h2

theorem HasShapes.onSets {s s' : Mach V} {S : Shapes} (H : HasShapes s S) {x : Nat} (hx : x < S.next) {m : SM V Unit}
    {n : Nat} (hm : Sets n m) (e : onSlot (x, false) m s = (.ok (), s')) :
    HasShapes s' (S.put x ⟨n, (S.sh x).dim⟩) :=
  H.onD hx (fun r hr => by
    obtain ⟨h1, h2⟩ := hm _ _ hr
    exact ⟨h1, by rw [h2]; exact H.dim x⟩) e

theorem HasShapes.onKeep {α : Type} {s s' : Mach V} {S : Shapes} (H : HasShapes s S) {x : Nat} {m : SM V α} {a : α}
    (hm : Pres (lm (V := V)) m) (e : onSlot (x, false) m s = (.ok a, s')) : HasShapes s' S :=
  H.frame ((pres_d x hm).ok e)

theorem HasShapes.bump {s : Mach V} {S : Shapes} (H : HasShapes s S) :
    HasShapes { s with n := s.n + 1 } (S.new 0 ⟨0, none⟩) := by
  have f := H.fresh S.next (le_refl _)
  refine ⟨by show s.n + 1 = S.next + 0 + 1; rw [H.next], H.bor, fun y => ?_, fun y => ?_, fun y hy => ?_⟩
  · show _ = (if _ then _ else _ : Shape).len
    by_cases hy : y = S.next + 0
    · rw [if_pos hy]; show (s.st (y, false)).sz = _; rw [H.len, hy]; exact congrArg Shape.len f.1
    · rw [if_neg hy]; exact H.len y
  · show _ = (if _ then _ else _ : Shape).dim
    by_cases hy : y = S.next + 0
    · rw [if_pos hy]; show dimMP (s.st (y, false)).mp = _; rw [H.dim, hy]; exact congrArg Shape.dim f.1
    · rw [if_neg hy]; exact H.dim y
  · have hy' : S.next + 0 + 1 ≤ y := hy
    have := H.fresh y (by omega)
    refine ⟨?_, this.2⟩
    show (if _ then _ else _) = _
    rw [if_neg (by omega)]; exact this.1

theorem wrap_small {n : Nat} (h : n ≤ 2 ^ 30) : wrap64 (wrapI32 n) = n := by
  rw [Store.wrapI32_small (by omega), Store.wrap64_small (by omega)]

theorem HasShapes.setDims {s s' : Mach V} {S : Shapes} (H : HasShapes s S) {x : Nat} (hx : x < S.next) {e : Expr V}
    (h : setDims x e s = (.ok (), s')) :
    HasShapes s' (S.put x ⟨(S.sh x).len, match S.dims e with
      | some d => some d
      | none => (S.sh x).dim⟩) := by
  rw [Mach.setDims, M.bind_ok (M.get_apply s)] at h
  obtain ⟨h1, h2⟩ := dims_agree s.env e
  rw [H.dims e] at h1 h2
  cases hd : S.dims e with
  | none =>
    rw [hd] at h1
    rw [if_neg (by simpa using h1)] at h
    cases h
    rw [shapes_put_self]; exact H
  | some d =>
    rw [hd] at h1
    rw [if_pos (by simpa using h1), (h2 d hd).1, (h2 d hd).2] at h
    rw [M.bind_ok (m := M.lift (.ok _)) rfl, M.bind_ok (m := M.lift (.ok _)) rfl] at h
    refine H.onD hx (fun r hr => ?_) h
    cases hr
    exact ⟨H.len x, rfl⟩

theorem put_dims (S : Shapes) (x n : Nat) (e : Expr V) : (S.put x ⟨n, (S.sh x).dim⟩).dims e = S.dims e := by
  unfold Shapes.dims
  congr 1
  funext y
  by_cases h : y = x
  · subst h; rw [shapes_put_sh]
  · simp [Shapes.put, h]

/-- The assignment. -/
theorem HasShapes.assign {zero : V} {conv : V → Out V} {s s' : Mach V} {S : Shapes} (H : HasShapes s S) {x : Nat}
    (hx : x < S.next) {e : Expr V} (hl : S.len e ≤ 2 ^ 30) (h : assign zero conv x e s = (.ok (), s')) :
    HasShapes s' (S.put x ⟨S.len e, match S.dims e with
      | some d => some d
      | none => (S.sh x).dim⟩) := by
  have fin : ∀ {t : Mach V}, Mach.setDims x e t = (.ok (), s') → HasShapes t (S.put x ⟨S.len e, (S.sh x).dim⟩) →
      HasShapes s' (S.put x ⟨S.len e, match S.dims e with
        | some d => some d
        | none => (S.sh x).dim⟩) := by
    intro t ht Ht
    have := Ht.setDims (x := x) hx ht
    rw [shapes_put_put, shapes_put_sh, put_dims] at this
    exact this
  rw [Mach.assign, M.bind_ok (M.get_apply s)] at h
  split at h
  · rw [assignBorrow, M.bind_ok (M.get_apply s)] at h
    obtain ⟨_, s0, e0, h⟩ := postBind h
    have H0 : HasShapes s0 S := H.frame ((Pres.ass (g := Mach.frame) _ _).ok e0)
    obtain ⟨_, s1, e1, h⟩ := postBind h
    obtain ⟨f1, _⟩ := fillTemp_shape e1
    have H1 := H0.frame f1
    rw [M.bind_ok (M.get_apply s1)] at h
    obtain ⟨_, s2, e2, h⟩ := postBind h
    have H2 : HasShapes s2 S := H1.frame ((Pres.ass (g := Mach.frame) _ _).ok e2)
    obtain ⟨_, s3, e3, h⟩ := postBind h
    have H3 : HasShapes s3 (S.put x ⟨S.len e, (S.sh x).dim⟩) := by
      have := H2.onSets hx (sets_upd (n := e.size s1.env) (f := fun d => { d with sz := e.size s1.env }) fun s => ⟨rfl, rfl⟩) e3
      rw [H1.size] at this
      exact this
    rw [M.bind_ok (M.get_apply s3)] at h
    obtain ⟨_, s4, e4, h⟩ := postBind h
    refine fin h (H3.frame ?_)
    have : Pres (Mach.frame (V := V)) (M.forN (e.size s3.env) (fun i => do
        let v ← M.reads (fun s => (s.st (x, true)).get s.heap i)
        onSlot (x, false) (Store.set i v))) :=
      Pres.forN (fun i => Pres.bind (Pres.reads _) fun v => pres_d x (pres_lm (pres_set i v))) _
    exact this.ok e4
  · rw [assignBuffer] at h
    obtain ⟨_, s1, e1, h⟩ := postBind h
    obtain ⟨f1, g1⟩ := fillTemp_shape e1
    have H1 := H.frame f1
    obtain ⟨_, s2, e2, h⟩ := postBind h
    refine fin h ?_
    cases e2
    refine H1.put (s' := { s1 with st := fun y => if y = (x, false) then (Store.moveit (s1.st (x, false)) (s1.st (x, true))).1
      else if y = (x, true) then (Store.moveit (s1.st (x, false)) (s1.st (x, true))).2 else s1.st y }) hx rfl rfl
      (fun y hy => ?_) ?_ ?_
    · have k1 : ((y, false) : Slot) ≠ (x, false) := fun h => hy (by cases h; rfl)
      have k2 : ((y, false) : Slot) ≠ (x, true) := fun h => by cases h
      simp only [if_neg k1, if_neg k2]
    · simp only [if_pos, Store.moveit]
      rw [g1, H.size, wrap_small hl]
    · simp only [if_pos, Store.moveit]
      exact H1.dim x

theorem pres_subSet (x : Nat) (ind : List Nat) (pos : Nat) (v : V) : Pres (frame (V := V)) (subSet x ind pos v) :=
  Pres.bind Pres.get fun _ => Pres.bind (Pres.lift _) fun _ => Pres.bind (Pres.lift _) fun j =>
    pres_d x (pres_lm (pres_set j v))

theorem HasShapes.resize {zero : V} {s s' : Mach V} {S : Shapes} (H : HasShapes s S) {x n : Nat} (hx : x < S.next)
    (h : Mach.resize zero x n s = (.ok (), s')) : HasShapes s' (S.put x ⟨n, (S.sh x).dim⟩) := by
  rw [Mach.resize, M.bind_ok (M.get_apply s)] at h
  split at h
  · exact H.onSets hx (sets_borrowResize n) h
  · exact H.onSets hx (sets_resize zero n) h

theorem HasShapes.assignScalar {zero v : V} {s s' : Mach V} {S : Shapes} (H : HasShapes s S) {x : Nat} (hx : x < S.next)
    (h : Mach.assignScalar zero x v s = (.ok (), s')) : HasShapes s' (S.put x ⟨1, (S.sh x).dim⟩) := by
  rw [Mach.assignScalar, M.bind_ok (M.get_apply s)] at h
  split at h
  · obtain ⟨_, s1, e1, h⟩ := postBind h
    exact (H.onSets hx (sets_upd (n := 1) (f := fun d => { d with sz := 1 }) fun s => ⟨rfl, rfl⟩) e1).onKeep
      (pres_lm (pres_set 0 v)) h
  · obtain ⟨_, s1, e1, h⟩ := postBind h
    exact (H.onSets hx (sets_resize zero 1) e1).onKeep (pres_lm (pres_set 0 v)) h

/-- Declarations: the new variable is changed from the empty shape. -/
theorem HasShapes.declared {s s' : Mach V} {S : Shapes} (H : HasShapes s S) {body : Nat → M (Mach V) Unit} {σ : Shape}
    (h : decl body s = (.ok (), s'))
    (hb : ∀ t, HasShapes t (S.new 0 ⟨0, none⟩) → body S.next t = (.ok (), s') →
      HasShapes s' ((S.new 0 ⟨0, none⟩).put S.next σ)) : HasShapes s' (S.new 0 σ) := by
  have h1 := decl_shape h
  rw [H.next] at h1
  have := hb { s with n := S.next + 1 } (by rw [← H.next]; exact H.bump) h1
  have e := new_put S 0 ⟨0, none⟩ σ
  rw [Nat.add_zero] at e
  rw [e] at this
  exact this

theorem new_lt (S : Shapes) (a : Shape) : S.next < (S.new 0 a).next := by show _ < S.next + 0 + 1; omega
theorem new_sh (S : Shapes) (a : Shape) : (S.new 0 a).sh S.next = a := by simp [Shapes.new]

theorem HasShapes.declSize {zero : V} {s s' : Mach V} {S : Shapes} (H : HasShapes s S) {n : Nat}
    (h : Mach.declSize zero n s = (.ok (), s')) : HasShapes s' (S.new 0 ⟨n, none⟩) := by
  refine H.declared h fun t Ht ht => ?_
  have := Ht.onSets (new_lt S _) (sets_ctorSize zero n) ht
  rw [new_sh] at this; exact this

theorem HasShapes.declScalar {zero v : V} {s s' : Mach V} {S : Shapes} (H : HasShapes s S)
    (h : Mach.declScalar zero v s = (.ok (), s')) : HasShapes s' (S.new 0 ⟨1, none⟩) := by
  refine H.declared h fun t Ht ht => ?_
  obtain ⟨_, s1, e1, e2⟩ := postBind ht
  have := Ht.onSets (new_lt S _) (sets_ctorInt zero 1) e1
  rw [new_sh] at this
  exact this.onKeep (pres_lm (pres_set 0 v)) e2

theorem onMp {t t' : Mach V} {S : Shapes} {x r c : Nat} (Ht : HasShapes t S) (hx : x < S.next)
    (h : onSlot (x, false) (Store.upd (fun d => { d with mp := ⟨true, r, c⟩ })) t = (.ok (), t')) :
    HasShapes t' (S.put x ⟨(S.sh x).len, some (r, c)⟩) := by
  refine Ht.onD hx (fun r hr => ?_) h
  cases hr
  exact ⟨Ht.len x, rfl⟩

theorem HasShapes.matSize {zero : V} {t t' : Mach V} {S : Shapes} {r c : Nat} (hl : r * c ≤ 2 ^ 30)
    (Ht : HasShapes t (S.new 0 ⟨0, none⟩))
    (h : (do
      onSlot (S.next, false) (Store.ctorSize zero ((r * c) % two64))
      onSlot (S.next, false) (Store.upd (fun d => { d with mp := ⟨true, r, c⟩ }))) t = (.ok (), t')) :
    HasShapes t' ((S.new 0 ⟨0, none⟩).put S.next ⟨r * c, some (r, c)⟩) := by
  obtain ⟨_, s1, e1, e2⟩ := postBind h
  have h1 := Ht.onSets (new_lt S _) (sets_ctorSize zero _) e1
  have := onMp h1 (new_lt S ⟨0, none⟩) e2
  rw [shapes_put_put, shapes_put_sh, Nat.mod_eq_of_lt (by unfold two64; omega)] at this
  exact this

theorem HasShapes.declCopy {s s' : Mach V} {S : Shapes} (H : HasShapes s S) {y : Nat}
    (h : Mach.declCopy y s = (.ok (), s')) : HasShapes s' (S.step (.declCopy y : Cmd V)) := by
  have h1 := decl_shape h
  have Hb := H.bump
  rw [M.bind_ok (M.get_apply _)] at h1
  rw [Shapes.step]
  have hbor : ({ s with n := s.n + 1 } : Mach V).bor y = S.bor y := congrFun H.bor y
  rw [hbor] at h1
  by_cases hb : S.bor y = true
  · rw [if_pos hb] at h1 ⊢
    obtain ⟨_, s1, e1, e2⟩ := postBind h1
    have keep := (pres_temp (V := V) s.n _).ok e2
    cases e1
    refine HasShapes.frame ?_ keep
    refine ⟨?_, ?_, fun x => ?_, fun x => ?_, fun x hx => ?_⟩
    · show s.n + 1 = S.next + 0 + 1
      rw [H.next]
    · show (fun z => if z = s.n then true else s.bor z) = fun z => if z = S.next then true else S.bor z
      rw [H.next, H.bor]
    · show (if (x, false) = (s.n, false) then s.st (y, false) else s.st (x, false)).sz = (if x = S.next + 0 then S.sh y else S.sh x).len
      rw [H.next]
      by_cases hx : x = S.next
      · rw [if_pos (by rw [hx]), if_pos (by omega)]; exact H.len y
      · rw [if_neg (fun h => hx (by cases h; rfl)), if_neg (by omega)]; exact H.len x
    · show dimMP (if (x, false) = (s.n, false) then s.st (y, false) else s.st (x, false)).mp = (if x = S.next + 0 then S.sh y else S.sh x).dim
      rw [H.next]
      by_cases hx : x = S.next
      · rw [if_pos (by rw [hx]), if_pos (by omega)]; exact H.dim y
      · rw [if_neg (fun h => hx (by cases h; rfl)), if_neg (by omega)]; exact H.dim x
    · have hx' : S.next + 0 + 1 ≤ x := hx
      have := H.fresh x (by omega)
      refine ⟨?_, ?_⟩
      · show (if x = S.next + 0 then S.sh y else S.sh x) = _
        rw [if_neg (by omega)]; exact this.1
      · show (if x = S.next then true else S.bor x) = _
        rw [if_neg (by omega)]; exact this.2
  · rw [if_neg hb] at h1 ⊢
    obtain ⟨_, s1, e1, e2⟩ := postBind h1
    have keep := (pres_temp (V := V) s.n _).ok e2
    refine HasShapes.frame ?_ keep
    rw [H.next] at e1
    have e1' : onSlot (S.next, false) (Store.copyCtor (s.st (y, false))) { s with n := S.next + 1 } = (.ok (), s1) := e1
    rw [← H.next] at e1'
    have := Hb.onSets (x := s.n) (by rw [H.next]; exact new_lt S _) (sets_copyCtor (s.st (y, false))) e1'
    rw [H.next, new_sh, H.len] at this
    have e := new_put S 0 ⟨0, none⟩ ⟨(S.sh y).len, none⟩
    rw [Nat.add_zero] at e
    rw [e] at this
    exact this

theorem HasShapes.declExpr {zero : V} {conv : V → Out V} {s s' : Mach V} {S : Shapes} (H : HasShapes s S) {e : Expr V}
    (h : Mach.declExpr zero conv e s = (.ok (), s')) (hnew : (S.new 0 ⟨0, none⟩).len e = S.len e)
    (hdim : (S.new 0 ⟨0, none⟩).dims e = S.dims e) : HasShapes s' (S.new 0 ⟨S.len e, S.dims e⟩) := by
  refine H.declared h fun t Ht ht => ?_
  rw [M.bind_ok (M.get_apply t)] at ht
  have ⟨s1, H1, ht⟩ : ∃ s1, HasShapes s1 ((S.new 0 ⟨0, none⟩).put S.next ⟨S.len e, none⟩) ∧ (do
      let s ← M.get
      M.forN (s.st (S.next, false)).sz (fun i => do
        let v ← M.reads (fun s => e.el s.env i)
        let w ← M.lift (conv v)
        onSlot (S.next, false) (Store.set i w))
      Mach.setDims S.next e : M (Mach V) Unit) s1 = (.ok (), s') := by
    split at ht <;> obtain ⟨_, s1, e1, ht⟩ := postBind ht <;> refine ⟨s1, ?_, ht⟩
    · have := Ht.onSets (new_lt S _) (sets_resize zero _) e1
      rw [new_sh, Ht.size, hnew] at this; exact this
    · have := Ht.onSets (new_lt S _) (sets_upd (n := e.size t.env) (f := fun d => { d with sz := e.size t.env }) fun s => ⟨rfl, rfl⟩) e1
      rw [new_sh, Ht.size, hnew] at this; exact this
  rw [M.bind_ok (M.get_apply s1)] at ht
  obtain ⟨_, s2, e2, ht⟩ := postBind ht
  have hp : Pres (Mach.frame (V := V)) (M.forN (s1.st (S.next, false)).sz (fun i => do
      let v ← M.reads (fun s => e.el s.env i)
      let w ← M.lift (conv v)
      onSlot (S.next, false) (Store.set i w))) :=
    Pres.forN (fun i => Pres.bind (Pres.reads _) fun v => Pres.bind (Pres.lift _) fun w =>
      pres_d _ (pres_lm (pres_set i w))) _
  have H2 := H1.frame (hp.ok e2)
  have := H2.setDims (new_lt S ⟨0, none⟩) ht
  have hd := put_dims (S.new 0 ⟨0, none⟩) S.next (S.len e) e
  rw [new_sh] at hd
  rw [shapes_put_put, shapes_put_sh, hd, hdim] at this
  cases hdd : S.dims e with
  | none => rw [hdd] at this; exact this
  | some d => rw [hdd] at this; exact this

/-- An expression over existing variables does not see a new one. -/
theorem new_len_dims (S : Shapes) (hf : S.sh S.next = ⟨0, none⟩) (e : Expr V) :
    (S.new 0 ⟨0, none⟩).len e = S.len e ∧ (S.new 0 ⟨0, none⟩).dims e = S.dims e := by
  have : (S.new 0 ⟨0, none⟩).sh = S.sh := by
    funext y
    show (if y = S.next + 0 then _ else _) = _
    by_cases h : y = S.next
    · rw [if_pos (by omega), h, hf]
    · rw [if_neg (by omega)]
  unfold Shapes.len Shapes.dims
  rw [this]
  exact ⟨rfl, rfl⟩

theorem HasShapes.declTemp {zero : V} {s s' : Mach V} {S : Shapes} (H : HasShapes s S) {l : List V} {mp : MP}
    (h : Mach.declTemp zero l mp s = (.ok (), s')) : HasShapes s' (S.new 1 ⟨l.length, dimMP mp⟩) := by
  obtain ⟨s1, e1, hf⟩ := withTmp_shape h
  obtain ⟨_, s2, e2, e3⟩ := postBind e1
  have h3 := decl_shape e3
  have key : s2.n = s.n + 1 ∧ s2.bor = s.bor ∧ (∀ y, y ≠ s.n → s2.st (y, false) = s.st (y, false)) ∧
      (s2.st (s.n, false)).sz = l.length ∧ (s2.st (s.n, false)).mp = mp := by
    rw [makeTemp] at e2
    obtain ⟨_, t1, f1, e2⟩ := postBind e2
    obtain ⟨r, hr, rfl⟩ := onSlot_inv f1
    have hr' := sets_ctorSize zero _ _ _ hr
    obtain ⟨_, t2, f2, e2⟩ := postBind e2
    obtain ⟨r3, hr3, rfl⟩ := onSlot_inv e2
    cases hr3
    have hp : Pres (fun t : Mach V => (t.n, t.bor, fun y => t.st (y, false))) (M.forN l.length (fun i => do
        let v ← M.lift (getL l i)
        onSlot (s.n, false) (Store.set i v))) := by
      refine Pres.forN (fun i => Pres.bind (Pres.lift _) fun v => ?_) _
      intro t
      refine Prod.ext rfl (Prod.ext rfl ?_)
      funext y
      have := pres_set i v (t.heap, t.st (s.n, false))
      simp only [onSlot]
      rw [show (Store.set i v (t.heap, t.st (s.n, false))).2.2 = t.st (s.n, false) from this]
      split
      · rename_i hy; rw [← hy]
      · rfl
    have hq := hp.ok f2
    have q1 := congrArg Prod.fst hq
    have q2 := congrArg (fun z => z.2.1) hq
    have q4 := fun y => congrFun (congrArg (fun z => z.2.2) hq) y
    simp only at q1 q2 q4
    refine ⟨q1, q2, fun y hy => ?_, ?_, ?_⟩
    · have hne : ((y, false) : Slot) ≠ (s.n, false) := fun h => hy (by cases h; rfl)
      show (if ((y, false) : Slot) = (s.n, false) then _ else t2.st (y, false)) = _
      rw [if_neg hne, q4 y]
      exact if_neg hne
    · show (if ((s.n, false) : Slot) = (s.n, false) then { t2.st (s.n, false) with mp := mp } else _ : Store).sz = _
      rw [if_pos rfl]
      show (t2.st (s.n, false)).sz = _
      rw [q4 s.n]
      show (if ((s.n, false) : Slot) = (s.n, false) then r.2 else _ : Store).sz = _
      rw [if_pos rfl]
      exact hr'.1
    · show (if ((s.n, false) : Slot) = (s.n, false) then { t2.st (s.n, false) with mp := mp } else _ : Store).mp = _
      rw [if_pos rfl]
  obtain ⟨k1, k2, k3, k4, k5⟩ := key
  have hs1 := congrArg Prod.snd h3
  simp only at hs1
  have hn : s2.n = S.next + 1 := by rw [k1, H.next]
  have f1 := congrArg Prod.fst hf
  have f2 := congrArg (fun z => z.2.1) hf
  have f4 := fun y => congrFun (congrArg (fun z => z.2.2) hf) y
  rw [stealTemp] at hs1
  have st1 : ∀ y, y ≠ s.n → y ≠ s2.n → s1.st (y, false) = s2.st (y, false) := fun y h1 h2 => by
    rw [← hs1]
    have a1 : ((y, false) : Slot) ≠ (s2.n, false) := fun h => h2 (by cases h; rfl)
    have a2 : ((y, false) : Slot) ≠ (s.n, false) := fun h => h1 (by cases h; rfl)
    simp only [M.modify, if_neg a1, if_neg a2]
  have st2 : (s1.st (s2.n, false)).sz = (s2.st (s.n, false)).sz ∧ (s1.st (s2.n, false)).mp =
      if (s2.st (s.n, false)).mp.im then { im := true, nr := (s2.st (s.n, false)).mp.nr, nc := (s2.st (s.n, false)).mp.nc }
      else (s2.st (s2.n, false)).mp := by
    rw [← hs1]
    simp only [M.modify, if_pos]
    exact ⟨trivial, trivial⟩
  have hs1n : s1.n = s2.n + 1 ∧ s1.bor = s2.bor := by rw [← hs1]; exact ⟨rfl, rfl⟩
  clear hs1
  have hdef := H.fresh (S.next + 1) (by omega)
  have hdef0 := H.fresh S.next (by omega)
  refine ⟨?_, ?_, fun x => ?_, fun x => ?_, fun x hx => ?_⟩
  · rw [show s'.n = _ from f1]; show s1.n = S.next + 1 + 1; rw [hs1n.1, hn]
  · rw [show s'.bor = _ from f2]
    funext x
    show (if x = s.n then false else s1.bor x) = S.bor x
    rw [hs1n.2, k2, H.bor, H.next]
    by_cases hx : x = S.next
    · rw [if_pos hx, hx, hdef0.2]
    · rw [if_neg hx]
  · have := congrArg Prod.fst (f4 x)
    rw [show (s'.st (x, false)).sz = _ from this]
    show (if x = s.n then (0, {}) else ((s1.st (x, false)).sz, (s1.st (x, false)).mp) : Nat × MP).1 = (if x = S.next + 1 then (⟨l.length, dimMP mp⟩ : Shape) else S.sh x).len
    by_cases hx : x = s.n
    · rw [if_pos hx, if_neg (by rw [hx, H.next]; omega), hx, H.next, hdef0.1]
    · rw [if_neg hx]
      by_cases hx' : x = S.next + 1
      · rw [if_pos hx', hx', ← hn]; exact st2.1.trans k4
      · rw [if_neg hx']
        show (s1.st (x, false)).sz = _
        rw [st1 x hx (by omega), k3 x hx]; exact H.len x
  · have := congrArg Prod.snd (f4 x)
    rw [show (s'.st (x, false)).mp = _ from this]
    show dimMP (if x = s.n then (0, {}) else ((s1.st (x, false)).sz, (s1.st (x, false)).mp) : Nat × MP).2 = (if x = S.next + 1 then (⟨l.length, dimMP mp⟩ : Shape) else S.sh x).dim
    by_cases hx : x = s.n
    · rw [if_pos hx, if_neg (by rw [hx, H.next]; omega), hx, H.next, hdef0.1]; rfl
    · rw [if_neg hx]
      by_cases hx' : x = S.next + 1
      · rw [if_pos hx', hx', ← hn]
        show dimMP (s1.st (s2.n, false)).mp = dimMP mp
        rw [st2.2, k5]
        have hd : dimMP (s2.st (s2.n, false)).mp = none := by
          rw [k3 _ (by rw [hn, H.next]; omega), H.dim, hn, hdef.1]
        cases him : mp.im with
        | true => simp [dimMP, him]
        | false =>
          rw [if_neg (by simp), hd]; simp [dimMP, him]
      · rw [if_neg hx']
        show dimMP (s1.st (x, false)).mp = _
        rw [st1 x hx (by omega), k3 x hx]; exact H.dim x
  · have hx' : S.next + 1 + 1 ≤ x := hx
    have := H.fresh x (by omega)
    refine ⟨?_, this.2⟩
    show (if x = S.next + 1 then _ else _) = _
    rw [if_neg (by omega)]; exact this.1

theorem HasShapes.goneTemp {s1 s' : Mach V} {T : Shapes} (H : HasShapes s1 T) {t : Nat} (ht : T.sh t = ⟨0, none⟩)
    (hb : T.bor t = false) (hf : Mach.frame s' = gone t (Mach.frame s1)) : HasShapes s' T := by
  have f1 := congrArg Prod.fst hf
  have f2 := congrArg (fun z => z.2.1) hf
  have f4 := fun y => congrFun (congrArg (fun z => z.2.2) hf) y
  refine ⟨Eq.trans f1 H.next, ?_, fun x => ?_, fun x => ?_, H.fresh⟩
  · rw [show s'.bor = _ from f2]
    funext x
    show (if x = t then false else s1.bor x) = T.bor x
    by_cases hx : x = t
    · rw [if_pos hx, hx, hb]
    · rw [if_neg hx, H.bor]
  · rw [show (s'.st (x, false)).sz = _ from congrArg Prod.fst (f4 x)]
    show (if x = t then (0, {}) else ((s1.st (x, false)).sz, (s1.st (x, false)).mp) : Nat × MP).1 = _
    by_cases hx : x = t
    · rw [if_pos hx, hx, ht]
    · rw [if_neg hx]; exact H.len x
  · rw [show (s'.st (x, false)).mp = _ from congrArg Prod.snd (f4 x)]
    show dimMP (if x = t then (0, {}) else ((s1.st (x, false)).sz, (s1.st (x, false)).mp) : Nat × MP).2 = _
    by_cases hx : x = t
    · rw [if_pos hx, hx, ht]; rfl
    · rw [if_neg hx]; exact H.dim x

theorem new_empty (S : Shapes) (hf : S.sh S.next = ⟨0, none⟩) : S.new 0 ⟨0, none⟩ = { S with next := S.next + 1 } := by
  simp only [Shapes.new, Nat.add_zero, Shapes.mk.injEq, true_and, and_true]
  funext y
  by_cases h : y = S.next
  · rw [if_pos h, h, hf]
  · rw [if_neg h]

theorem HasShapes.subAssign {zero : V} {conv : V → Out V} {same : Bool} {s s' : Mach V} {S : Shapes} (H : HasShapes s S)
    {x : Nat} (hx : x < S.next) {ind : List Nat} {e : Expr V}
    (h : Mach.subAssign zero conv same x ind e s = (.ok (), s')) :
    HasShapes s' (S.step (.subAssign conv same x ind e)) := by
  obtain ⟨s1, h1, hf⟩ := withTmp_shape h
  have f0 := H.fresh S.next (le_refl _)
  have Hb := H.bump
  rw [new_empty S f0.1] at Hb
  rw [subAssignBody, M.bind_ok (M.get_apply _)] at h1
  obtain ⟨_, s2, e2, h1⟩ := postBind h1
  have ⟨hlen, h2⟩ : e.size ({ s with n := s.n + 1 } : Mach V).env = ind.length ∧ s2 = { s with n := s.n + 1 } := by
    by_cases hc : e.size ({ s with n := s.n + 1 } : Mach V).env = ind.length
    · rw [M.ass, M.lift_apply, Out.ass, if_pos hc] at e2; cases e2; exact ⟨hc, rfl⟩
    · rw [M.ass, M.lift_apply, Out.ass, if_neg hc] at e2; cases e2
  subst h2
  obtain ⟨_, s3, e3, h1⟩ := postBind h1
  obtain ⟨k3, z3⟩ := fillTemp_shape e3
  have H3 := Hb.frame k3
  rw [hlen] at z3
  rw [M.bind_ok (M.get_apply s3)] at h1
  have hlenx : (s3.st (x, false)).sz = (S.sh x).len := H3.len x
  rw [z3, hlenx] at h1
  have hp : Pres (Mach.frame (V := V)) (M.forN ind.length (fun i => do
      let v ← M.reads (fun s => (s.st (s1.n, true)).get s.heap i)
      subSet x ind (i % ind.length) v)) :=
    Pres.forN (fun i => Pres.bind (Pres.reads _) fun v => pres_subSet x ind _ v) _
  rw [H.next] at hf
  have hne : S.next ≠ x := by omega
  by_cases hg : same = true ∧ (S.sh x).len < ind.length
  · rw [if_pos hg] at h1
    obtain ⟨_, s4, e4, h1⟩ := postBind h1
    have H4 := H3.resize (by show x < S.next + 1; omega) e4
    have H5 := H4.frame ((Pres.forN (fun i => Pres.bind (Pres.reads _) fun v => pres_subSet x ind _ v) _).ok h1)
    have := H5.goneTemp (t := S.next) (by
      show (if S.next = x then _ else S.sh S.next) = _
      rw [if_neg hne]; exact f0.1) f0.2 hf
    simp only [Shapes.step, if_pos hg]
    exact this
  · rw [if_neg hg] at h1
    have H5 := H3.frame ((Pres.forN (fun i => Pres.bind (Pres.reads _) fun v => pres_subSet x ind _ v) _).ok h1)
    have := H5.goneTemp (t := S.next) f0.1 f0.2 hf
    simp only [Shapes.step, if_neg hg]
    exact this

theorem HasShapes.destroy {s s' : Mach V} {S : Shapes} (H : HasShapes s S) {x : Nat}
    (h : Mach.destroy x s = (.ok (), s')) : HasShapes s' (S.step (.destroy x : Cmd V)) := by
  have hf := destroy_shape h
  have f1 := congrArg Prod.fst hf
  have f2 := congrArg (fun z => z.2.1) hf
  have f4 := fun y => congrFun (congrArg (fun z => z.2.2) hf) y
  refine ⟨Eq.trans f1 H.next, ?_, fun y => ?_, fun y => ?_, fun y hy => ?_⟩
  · rw [show s'.bor = _ from f2]
    funext y
    show (if y = x then false else s.bor y) = if y = x then false else S.bor y
    rw [H.bor]
  · rw [show (s'.st (y, false)).sz = _ from congrArg Prod.fst (f4 y)]
    show (if y = x then (0, {}) else ((s.st (y, false)).sz, (s.st (y, false)).mp) : Nat × MP).1 = (if y = x then (⟨0, none⟩ : Shape) else S.sh y).len
    by_cases hy : y = x
    · rw [if_pos hy, if_pos hy]
    · rw [if_neg hy, if_neg hy]; exact H.len y
  · rw [show (s'.st (y, false)).mp = _ from congrArg Prod.snd (f4 y)]
    show dimMP (if y = x then (0, {}) else ((s.st (y, false)).sz, (s.st (y, false)).mp) : Nat × MP).2 = (if y = x then (⟨0, none⟩ : Shape) else S.sh y).dim
    by_cases hy : y = x
    · rw [if_pos hy, if_pos hy]; rfl
    · rw [if_neg hy, if_neg hy]; exact H.dim y
  · have := H.fresh y hy
    refine ⟨?_, ?_⟩
    · show (if y = x then (⟨0, none⟩ : Shape) else S.sh y) = _
      rw [this.1]; split <;> rfl
    · show (if y = x then false else S.bor y) = _
      rw [this.2]; split <;> rfl

theorem HasShapes.declBorrow {s s' : Mach V} {S : Shapes} (H : HasShapes s S) {p : Ptr} {n : Nat}
    (h : Mach.declBorrow p n s = (.ok (), s')) : HasShapes s' (S.step (.declBorrow p n : Cmd V)) := by
  have h1 := decl_shape h
  cases h1
  refine ⟨?_, ?_, fun x => ?_, fun x => ?_, fun x hx => ?_⟩
  · show s.n + 1 = S.next + 0 + 1
    rw [H.next]
  · show (fun z => if z = s.n then true else s.bor z) = fun z => if z = S.next then true else S.bor z
    rw [H.next, H.bor]
  · show (if (x, false) = (s.n, false) then ({ p := p, sz := n, capacity := n, allocated := true } : Store) else s.st (x, false)).sz = (if x = S.next + 0 then (⟨n, none⟩ : Shape) else S.sh x).len
    rw [H.next]
    by_cases hx : x = S.next
    · rw [if_pos (by rw [hx]), if_pos (by omega)]
    · rw [if_neg (fun h => hx (by cases h; rfl)), if_neg (by omega)]; exact H.len x
  · show dimMP (if (x, false) = (s.n, false) then ({ p := p, sz := n, capacity := n, allocated := true } : Store) else s.st (x, false)).mp = (if x = S.next + 0 then (⟨n, none⟩ : Shape) else S.sh x).dim
    rw [H.next]
    by_cases hx : x = S.next
    · rw [if_pos (by rw [hx]), if_pos (by omega)]; rfl
    · rw [if_neg (fun h => hx (by cases h; rfl)), if_neg (by omega)]; exact H.dim x
  · have hx' : S.next + 0 + 1 ≤ x := hx
    have := H.fresh x (by omega)
    refine ⟨?_, ?_⟩
    · show (if x = S.next + 0 then (⟨n, none⟩ : Shape) else S.sh x) = _
      rw [if_neg (by omega)]; exact this.1
    · show (if x = S.next then true else S.bor x) = _
      rw [if_neg (by omega)]; exact this.2

theorem HasShapes.exec {zero : V} {s s' : Mach V} {S : Shapes} (H : HasShapes s S) {c : Cmd V} (hc : S.Covered c)
    (h : Mach.exec zero c s = (.ok (), s')) : HasShapes s' (S.step c) := by
  cases c with
  | callerArray l => cases h; exact ⟨H.next, H.bor, H.len, H.dim, H.fresh⟩
  | declDefault =>
    exact H.declared (body := fun _ => pure ()) h fun t Ht ht => by
      cases ht
      have := shapes_put_self (S.new 0 ⟨0, none⟩) S.next
      rw [new_sh] at this
      rw [this]; exact Ht
  | declSize n => exact H.declSize h
  | declScalar v => exact H.declScalar h
  | declMat r c =>
    exact H.declared (body := fun x => do
      onSlot (x, false) (Store.ctorSize zero ((r * c) % two64))
      onSlot (x, false) (Store.upd (fun d => { d with mp := ⟨true, r, c⟩ }))) h fun t Ht ht => Ht.matSize hc ht
  | declMatVal r c v =>
    exact H.declared (body := fun x => do
      onSlot (x, false) (Store.ctorSize zero ((r * c) % two64))
      onSlot (x, false) (Store.upd (fun d => { d with mp := ⟨true, r, c⟩ }))
      onSlot (x, false) (Store.fillScalar v)) h fun t Ht ht => by
      obtain ⟨_, s1, e1, ht⟩ := postBind ht
      obtain ⟨_, s2, e2, ht⟩ := postBind ht
      exact (Ht.matSize hc (by rw [M.bind_ok e1]; exact e2)).onKeep (pres_lm (pres_fillScalar v)) ht
  | declCopy y => exact H.declCopy h
  | declExpr conv e =>
    have f := H.fresh S.next (le_refl _)
    exact H.declExpr h (new_len_dims S f.1 e).1 (new_len_dims S f.1 e).2
  | declTemp l mp => exact H.declTemp h
  | declPtr p n =>
    exact H.declared (body := fun x => do
      onSlot (x, false) (Store.ctorSize zero n)
      M.forN n (fun i => do
        let v ← M.reads (fun s => s.heap.load p i)
        onSlot (x, false) (Store.set i v))
      onSlot (x, false) (Store.upd (fun d => { d with mp := ⟨false, 0, 0⟩ }))) h fun t Ht ht => by
      obtain ⟨_, s1, e1, ht⟩ := postBind ht
      obtain ⟨_, s2, e2, ht⟩ := postBind ht
      have H1 := Ht.onSets (new_lt S _) (sets_ctorSize zero n) e1
      have hp : Pres (Mach.frame (V := V)) (M.forN n (fun i => do
          let v ← M.reads (fun s => s.heap.load p i)
          onSlot (S.next, false) (Store.set i v))) :=
        Pres.forN (fun i => Pres.bind (Pres.reads _) fun v => pres_d _ (pres_lm (pres_set i v))) _
      have H2 := H1.frame (hp.ok e2)
      have H3 := H2.onD (n := n) (d := none) (new_lt S ⟨0, none⟩) (fun r hr => by
        cases hr
        have := H2.len S.next
        rw [shapes_put_sh] at this
        exact ⟨this, rfl⟩) ht
      rw [shapes_put_put] at H3
      exact H3
  | declBorrow p n => exact H.declBorrow h
  | assign conv x e => exact H.assign hc.1 hc.2 h
  | assignScalar x v => exact H.assignScalar hc h
  | subAssign conv same x ind e => exact H.subAssign hc h
  | subAssignScalar x ind v =>
    exact H.frame ((Pres.forN (fun i => pres_subSet x ind i v) _).ok h)
  | setElem x i v => exact H.onKeep (pres_lm (pres_set i v)) h
  | resize x n => exact H.resize hc h
  | fill x v => exact H.onKeep (pres_lm (pres_fillScalar v)) h
  | fillVec x y =>
    have h' : Mach.fillVec x y s = (.ok (), s') := h
    rw [Mach.fillVec, M.bind_ok (M.get_apply s)] at h'
    exact H.onKeep (pres_lm (pres_fillVec _)) h'
  | pushBack x v => exact hc.elim
  | storeAssign x y =>
    have h' : Mach.storeAssign zero x y s = (.ok (), s') := h
    rw [Mach.storeAssign, M.bind_ok (M.get_apply s)] at h'
    refine H.onD hc (fun r hr => ?_) h'
    obtain ⟨h1, h2⟩ := storeAssign_shape zero _ _ _ hr
    refine ⟨?_, ?_⟩
    · rw [h1]; exact congrArg₂ max (H.len x) (H.len y)
    · rw [h2]; exact H.dim x
  | destroy x => exact H.destroy h

theorem HasShapes.runOk {zero : V} : ∀ {cs : List (Cmd V)} {s s' : Mach V} {S : Shapes}, HasShapes s S → S.CoveredAll cs →
    Mach.runOk zero cs s = (.ok (), s') → HasShapes s' (S.after cs)
  | [], _, _, _, H, _, h => by cases h; exact H
  | c :: cs, s, s', S, H, hc, h => by
    obtain ⟨_, s1, e1, e2⟩ := postBind h
    exact HasShapes.runOk (S := S.step c) (H.exec hc.1 e1) hc.2 e2

theorem hasShapes_start : HasShapes (Mach.start : Mach V) Shapes.start :=
  ⟨rfl, rfl, fun _ => rfl, fun _ => rfl, fun _ _ => ⟨rfl, rfl⟩⟩

/-! ## Matrices have as many elements as their dimensions say -/

theorem conforms_len {S : Shapes} (hw : S.Well) {d : Nat × Nat} : ∀ (e : Expr V), S.Conforms d e →
    ((∀ d', S.dims e = some d' → d' = d) ∧ (S.dims e = some d → S.len e = d.1 * d.2)) ∧
    S.len e ≤ d.1 * d.2 := by
  intro e
  induction e with
  | leaf x =>
    intro h
    simp only [Shapes.Conforms] at h
    show ((∀ d', (S.sh x).dim = some d' → d' = d) ∧ ((S.sh x).dim = some d → (S.sh x).len = d.1 * d.2)) ∧
      (S.sh x).len ≤ d.1 * d.2
    cases hd : (S.sh x).dim with
    | none => rw [hd] at h; exact ⟨⟨fun _ h' => (by cases h'), fun h' => (by cases h')⟩, h⟩
    | some d' =>
      rw [hd] at h
      have h' : d' = d := h
      have := hw x d' hd
      subst h'
      exact ⟨⟨fun _ h => (by cases h; rfl), fun _ => this.symm⟩, (by omega)⟩
  | rvec l mp =>
    intro h
    simp only [Shapes.Conforms] at h
    show ((∀ d', dimMP mp = some d' → d' = d) ∧ (dimMP mp = some d → l.length = d.1 * d.2)) ∧ l.length ≤ d.1 * d.2
    cases hd : dimMP mp with
    | none => rw [hd] at h; exact ⟨⟨fun _ h' => (by cases h'), fun h' => (by cases h')⟩, h⟩
    | some d' =>
      rw [hd] at h
      obtain ⟨h1, h2⟩ : d' = d ∧ l.length = d.1 * d.2 := h
      subst h1
      exact ⟨⟨fun _ h => (by cases h; rfl), fun _ => h2⟩, (by omega)⟩
  | scal v => intro h; exact ⟨⟨fun _ h' => (by cases h'), fun h' => (by cases h')⟩, h⟩
  | un f e ih => intro h; exact ⟨⟨fun _ h' => (by cases h'), fun h' => (by cases h')⟩, h⟩
  | sub e ind mp ih =>
    intro h
    simp only [Shapes.Conforms] at h
    show ((∀ d', dimMP mp = some d' → d' = d) ∧ (dimMP mp = some d → ind.length = d.1 * d.2)) ∧ ind.length ≤ d.1 * d.2
    cases hd : dimMP mp with
    | none => rw [hd] at h; exact ⟨⟨fun _ h' => (by cases h'), fun h' => (by cases h')⟩, h⟩
    | some d' =>
      rw [hd] at h
      obtain ⟨h1, h2⟩ : d' = d ∧ ind.length = d.1 * d.2 := h
      subst h1
      exact ⟨⟨fun _ h => (by cases h; rfl), fun _ => h2⟩, (by omega)⟩
  | bin f l r hl hr =>
    intro h
    obtain ⟨⟨l1, l2⟩, l3⟩ := hl h.1
    obtain ⟨⟨r1, r2⟩, r3⟩ := hr h.2
    have hd : S.dims (.bin f l r) = match S.dims l, S.dims r with
        | some a, some b => some (max a.1 b.1, max a.2 b.2)
        | some a, none => some a
        | none, b => b := by
      simp only [Shapes.dims, dimsOf]
      rfl
    have hscal : ∀ e : Expr V, e.isScal = true → S.dims e = none := by
      intro e h; cases e <;> first | rfl | cases h
    have hle : S.len (.bin f l r) ≤ max (S.len l) (S.len r) ∧
        (l.isScal = false → S.len l ≤ S.len (.bin f l r)) ∧ (r.isScal = false → S.len r ≤ S.len (.bin f l r)) := by
      unfold Shapes.len
      cases l <;> cases r <;> simp only [lenOf, Expr.isScal] <;> refine ⟨?_, fun _ => ?_, fun _ => ?_⟩ <;>
        first
        | omega
        | contradiction
    have ns : ∀ (e : Expr V) a, S.dims e = some a → e.isScal = false := by
      intro e a h
      cases hs : e.isScal with
      | false => rfl
      | true => rw [hscal e hs] at h; cases h
    have hd1 : ∀ d', S.dims (.bin f l r) = some d' → d' = d := by
      intro d' h'
      rw [hd] at h'
      cases dl : S.dims l with
      | none =>
        rw [dl] at h'
        exact r1 d' h'
      | some a =>
        have ha := l1 a dl
        cases dr : S.dims r with
        | none => rw [dl, dr] at h'; cases h'; exact ha
        | some b =>
          have hb := r1 b dr
          rw [dl, dr] at h'
          subst ha; subst hb
          cases h'
          exact Prod.ext (max_self _) (max_self _)
    refine ⟨⟨hd1, fun h' => ?_⟩, by omega⟩
    rw [hd] at h'
    cases dl : S.dims l with
    | some a =>
      have ha := l1 a dl
      have := hle.2.1 (ns l a dl)
      have := l2 (by rw [dl, ha])
      omega
    | none =>
      rw [dl] at h'
      have := hle.2.2 (ns r d h')
      have := r2 h'
      omega

theorem Well.step {S : Shapes} (hw : S.Well) {c : Cmd V} (hc : S.Fits c) : (S.step c).Well := by
  have hnew : ∀ (k : Nat) (σ : Shape), (∀ d, σ.dim = some d → d.1 * d.2 = σ.len) → (S.new k σ).Well := by
    intro k σ hσ x d
    show (if x = S.next + k then σ else S.sh x : Shape).dim = some d → d.1 * d.2 = (if x = S.next + k then σ else S.sh x : Shape).len
    split
    · exact hσ d
    · exact hw x d
  have hput : ∀ (y : Nat) (σ : Shape), (∀ d, σ.dim = some d → d.1 * d.2 = σ.len) → (S.put y σ).Well := by
    intro y σ hσ x d
    show (if x = y then σ else S.sh x : Shape).dim = some d → d.1 * d.2 = (if x = y then σ else S.sh x : Shape).len
    split
    · exact hσ d
    · exact hw x d
  have hkeep : ∀ (y n : Nat), ((S.sh y).dim ≠ none → n = (S.sh y).len) → (S.put y ⟨n, (S.sh y).dim⟩).Well := by
    intro y n hn
    refine hput y _ fun d hd => ?_
    have hd' : (S.sh y).dim = some d := hd
    rw [hw y d hd']
    exact (hn (by rw [hd']; simp)).symm
  cases c with
  | callerArray l => exact hw
  | declDefault => exact hnew 0 _ (fun d h => by cases h)
  | declSize n => exact hnew 0 _ (fun d h => by cases h)
  | declScalar v => exact hnew 0 _ (fun d h => by cases h)
  | declMat r c => exact hnew 0 _ (fun d h => by cases h; rfl)
  | declMatVal r c v => exact hnew 0 _ (fun d h => by cases h; rfl)
  | declCopy y =>
    rw [Shapes.step]
    split
    · exact hnew 0 (S.sh y) (hw y)
    · exact hnew 0 _ (fun d h => by cases h)
  | declExpr conv e => exact hnew 0 _ (fun d h => ((conforms_len hw e (hc d h)).1.2 h).symm)
  | declTemp l mp => exact hnew 1 _ (fun d h => (hc d h).symm)
  | declPtr p n => exact hnew 0 _ (fun d h => by cases h)
  | declBorrow p n => exact hnew 0 ⟨n, none⟩ (fun d h => by cases h)
  | assign conv x e =>
    rw [Shapes.step]
    cases hd : S.dims e with
    | none => exact hkeep x _ (hc.2 hd)
    | some d => exact hput x _ (fun d' h => by cases h; exact ((conforms_len hw e (hc.1 d hd)).1.2 hd).symm)
  | assignScalar x v => exact hkeep x 1 (fun h => (hc h).symm)
  | subAssign conv same x ind e =>
    have : (if same ∧ (S.sh x).len < ind.length then S.put x ⟨ind.length, (S.sh x).dim⟩ else S : Shapes).Well := by
      split
      · rename_i hs
        exact hkeep x _ (fun h => by have := hc hs.1 h; omega)
      · exact hw
    exact this
  | subAssignScalar x ind v => exact hw
  | setElem x i v => exact hw
  | resize x n => exact hkeep x n hc
  | fill x v => exact hw
  | fillVec x y => exact hw
  | pushBack x v => exact hw
  | storeAssign x y => exact hkeep x _ (fun h => by have := hc h; omega)
  | destroy x => exact hput x ⟨0, none⟩ (fun d h => by cases h)

theorem Well.after : ∀ {cs : List (Cmd V)} {S : Shapes}, S.Well → S.FitsAll cs → (S.after cs).Well
  | [], _, hw, _ => hw
  | c :: _, S, hw, hf => Well.after (S := S.step c) (Well.step hw hf.1) hf.2

theorem well_start : Shapes.start.Well := fun _ _ h => by cases h


/-! ## Theorems -/

/-- After a program that ends normally every variable has the length and the dimensions that the shapes
say. -/
theorem C90_characterised (zero : V) (cs : List (Cmd V)) (hc : Shapes.start.CoveredAll cs) (s : Mach V)
    (h : Mach.runOk zero cs Mach.start = (.ok (), s)) (x : Nat) :
    s.env.size x = ((Shapes.start.after cs).sh x).len ∧ dimMP (s.env.mp x) = ((Shapes.start.after cs).sh x).dim :=
  ⟨(hasShapes_start.runOk hc h).len x, (hasShapes_start.runOk hc h).dim x⟩

/-- The same for the expressions that the next command can use. -/
theorem C90_expressions (zero : V) (cs : List (Cmd V)) (hc : Shapes.start.CoveredAll cs) (s : Mach V)
    (h : Mach.runOk zero cs Mach.start = (.ok (), s)) (e : Expr V) :
    e.size s.env = (Shapes.start.after cs).len e ∧
    (e.im s.env = true ↔ ((Shapes.start.after cs).dims e).isSome) ∧
    ∀ d, (Shapes.start.after cs).dims e = some d → e.nr s.env = .ok d.1 ∧ e.nc s.env = .ok d.2 := by
  have H := hasShapes_start.runOk hc h
  have hd := dims_agree s.env e
  rw [H.dims e] at hd
  exact ⟨H.size e, hd.1, hd.2⟩

/-- Programs that respect the shapes: every matrix has as many elements as its dimensions say. -/
theorem C90_matrices (zero : V) (cs : List (Cmd V)) (hc : Shapes.start.CoveredAll cs) (hf : Shapes.start.FitsAll cs)
    (s : Mach V) (h : Mach.runOk zero cs Mach.start = (.ok (), s)) (x : Nat) (hx : (s.env.mp x).im = true) :
    (s.env.mp x).nr * (s.env.mp x).nc = s.env.size x := by
  have H := hasShapes_start.runOk hc h
  have hw := Well.after (V := V) well_start hf
  have hd : dimMP (s.env.mp x) = some ((s.env.mp x).nr, (s.env.mp x).nc) := by unfold dimMP; rw [if_pos hx]
  have hl : s.env.size x = _ := H.len x
  rw [hl]
  exact hw x _ (by rw [← H.dim x]; exact hd)

/-- The same for expressions whose parts fit together. -/
theorem C90_matrix_expressions (zero : V) (cs : List (Cmd V)) (hc : Shapes.start.CoveredAll cs)
    (hf : Shapes.start.FitsAll cs) (s : Mach V) (h : Mach.runOk zero cs Mach.start = (.ok (), s)) (e : Expr V)
    (d : Nat × Nat) (he : (Shapes.start.after cs).Conforms d e) (hi : e.im s.env = true) :
    e.nr s.env = .ok d.1 ∧ e.nc s.env = .ok d.2 ∧ e.size s.env = d.1 * d.2 := by
  have hw := Well.after (V := V) well_start hf
  obtain ⟨h1, h2, h3⟩ := C90_expressions zero cs hc s h e
  obtain ⟨d', hd'⟩ := Option.isSome_iff_exists.mp (h2.mp hi)
  obtain ⟨⟨c1, c2⟩, -⟩ := conforms_len hw e he
  have := c1 d' hd'
  subst this
  obtain ⟨n1, n2⟩ := h3 d' hd'
  exact ⟨n1, n2, by rw [h1]; exact c2 hd'⟩

/-- Run a program on integers from the empty state; length and dimensions of `x` if it ends normally. -/
def shapeAfter (cs : List (Cmd Int)) (x : Nat) : Option (Nat × Option (Nat × Nat)) :=
  match Mach.runOk 0 cs Mach.start with
  | (.ok _, s) => some (s.env.size x, dimMP (s.env.mp x))
  | _ => none

/-- Without the condition: a matrix that is given a vector of another length, is resized, or is given a
number keeps its dimensions. -/
theorem C90_false :
    shapeAfter [.declMat 2 2, .declTemp [1, 2, 3] {}, .assign .ok 0 (.leaf 2)] 0 = some (3, some (2, 2)) ∧
    shapeAfter [.declMat 2 2, .resize 0 7] 0 = some (7, some (2, 2)) ∧
    shapeAfter [.declMat 2 2, .assignScalar 0 5] 0 = some (1, some (2, 2)) ∧
    shapeAfter [.declMat 2 2, .pushBack 0 5] 0 = some (5, some (2, 2)) := by decide +kernel

/-- Two matrices of different shapes give a result that has fewer elements than its dimensions say. -/
theorem C90_operands_false :
    shapeAfter [.declMat 2 3, .declMat 3 2, .declExpr .ok (.bin (fun a b => .ok (a + b)) (.leaf 0) (.leaf 1))] 2 =
      some (6, some (3, 3)) := by decide +kernel

/-- A copy of a matrix is no matrix. -/
theorem C90_copy_false :
    shapeAfter [.declMat 2 3, .declCopy 0] 1 = some (6, none) ∧
    shapeAfter [.declMat 2 3] 0 = some (6, some (2, 3)) := by decide +kernel

/-- A program with matrices, subset assignment and an expression that respects the shapes. -/
def shapeExample : List (Cmd Int) :=
  [.declMatVal 2 3 1, .declTemp [1, 2, 3, 4, 5, 6] ⟨true, 2, 3⟩,
   .subAssign .ok true 0 [0, 1] (.rvec [7, 8] {}),
   .assign .ok 0 (.bin (fun a b => .ok (a + b)) (.leaf 0) (.bin (fun a b => .ok (a * b)) (.leaf 2) (.scal 2)))]

example : Shapes.start.CoveredAll shapeExample ∧ Shapes.start.FitsAll shapeExample := by
  refine ⟨⟨show 2 * 3 ≤ 2 ^ 30 by decide, trivial, show (0 : Nat) < 3 by decide, ⟨by decide, by decide⟩, trivial⟩,
    ⟨trivial, ?_, fun _ _ => by decide, ⟨?_, by decide⟩, trivial⟩⟩
  · intro d h; cases h; rfl
  · intro d h; cases h; exact ⟨rfl, rfl, show 1 ≤ 2 * 3 by decide⟩
example : shapeAfter shapeExample 0 = some (6, some (2, 3)) := by decide +kernel

theorem shapeExample_fine : Shapes.start.CoveredAll shapeExample ∧ Shapes.start.FitsAll shapeExample := by
  refine ⟨⟨show 2 * 3 ≤ 2 ^ 30 by decide, trivial, show (0 : Nat) < 3 by decide, ⟨by decide, by decide⟩, trivial⟩,
    ⟨trivial, ?_, fun _ _ => by decide, ⟨?_, by decide⟩, trivial⟩⟩
  · intro d h; cases h; rfl
  · intro d h; cases h; exact ⟨rfl, rfl, show 1 ≤ 2 * 3 by decide⟩

theorem shapeExample_run : Mach.runOk 0 shapeExample Mach.start = (.ok (), (Mach.runOk 0 shapeExample Mach.start).2) :=
  Prod.ext (by decide +kernel) rfl

example : let s := (Mach.runOk 0 shapeExample Mach.start).2
    s.env.size 0 = ((Shapes.start.after shapeExample).sh 0).len ∧ (s.env.mp 0).nr * (s.env.mp 0).nc = s.env.size 0 ∧
    ((Expr.bin (fun a b => .ok (a + b)) (.leaf 0) (.leaf 2)).size s.env = (Shapes.start.after shapeExample).len
      (.bin (fun a b => Out.ok (a + b)) (.leaf 0) (.leaf 2) : Expr Int)) ∧
    (Expr.leaf 0 : Expr Int).nr s.env = .ok 2 :=
  ⟨(C90_characterised 0 _ shapeExample_fine.1 _ shapeExample_run 0).1,
    C90_matrices 0 _ shapeExample_fine.1 shapeExample_fine.2 _ shapeExample_run 0 (by decide +kernel),
    (C90_expressions 0 _ shapeExample_fine.1 _ shapeExample_run _).1,
    (C90_matrix_expressions 0 _ shapeExample_fine.1 shapeExample_fine.2 _ shapeExample_run (.leaf 0) (2, 3) rfl (by decide +kernel)).1⟩

end ETR.Mach
