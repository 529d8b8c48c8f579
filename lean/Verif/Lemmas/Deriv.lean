import Verif.Spec.Deriv
import Verif.Lemmas.Cap

/-! Lemmas on derivative variables: memory of one object, loops, evaluation at one index. -/

namespace ETR
open Spec
variable {T : Type}

theorem M.forN_congr {σ : Type} {f g : Nat → M σ Unit} {n : Nat} (h : ∀ i, i < n → f i = g i) :
    M.forN n f = M.forN n g := by
  induction n with
  | zero => rfl
  | succ n ih => rw [M.forN_succ, M.forN_succ, ih (fun i hi => h i (by omega)), h n (by omega)]

namespace Buf

/-- The object has memory for its `n` elements. -/
structure Room (b : Buf T) (n : Nat) : Prop where
  al : b.allocated = true
  sz : b.sz = n
  cap : n ≤ b.cells.length

theorem check_ok {b : Buf T} {n i : Nat} (hr : b.Room n) (hi : i < n) : b.check i = .ok () := by
  unfold check
  rw [Out.ass_pos hr.al, Out.ok_bind, Out.ass_pos (by rw [hr.sz]; exact hi)]

theorem get_cell {b : Buf T} {n i : Nat} {v : T} (hr : b.Room n) (hi : i < n) (hc : b.cells[i]? = some (some v)) :
    b.get i = .ok v := by
  unfold get
  rw [check_ok hr hi, Out.ok_bind, hc]

theorem get_inv {b : Buf T} {i : Nat} {v : T} (h : b.get i = .ok v) :
    b.allocated = true ∧ i < b.sz ∧ b.cells[i]? = some (some v) := by
  unfold get check at h
  by_cases h1 : b.allocated = true
  · by_cases h2 : i < b.sz
    · rw [Out.ass_pos h1, Out.ass_pos h2, Out.ok_bind, Out.ok_bind] at h
      rcases hc : b.cells[i]? with _ | _ | w <;> rw [hc] at h <;> simp_all
    · rw [Out.ass_pos h1, Out.ass_neg h2, Out.ok_bind, Out.thr_bind] at h
      cases h
  · rw [Out.ass_neg h1, Out.thr_bind, Out.thr_bind] at h
    cases h

theorem Is.room {b : Buf T} {l : List T} (h : b.Is l) (h0 : l.length ≠ 0) : b.Room l.length := by
  obtain ⟨a, c, d⟩ := get_inv (h.2 (l.length - 1) (by omega))
  refine ⟨a, h.1, ?_⟩
  by_contra hc
  rw [List.getElem?_eq_none (by omega)] at d
  cases d

theorem Is.cell {b : Buf T} {l : List T} (h : b.Is l) {i : Nat} (hi : i < l.length) :
    b.cells[i]? = some (some l[i]) := (get_inv (h.2 i hi)).2.2

theorem is_of_cells {b : Buf T} {l : List T} (hr : b.Room l.length)
    (h : ∀ i (hi : i < l.length), b.cells[i]? = some (some l[i])) : b.Is l :=
  ⟨hr.sz, fun i hi => get_cell hr hi (h i hi)⟩

theorem is_nil : Buf.Is ({} : Buf T) [] := ⟨rfl, fun _ hi => absurd hi (by simp)⟩

theorem resize_ok (zero : T) {n : Nat} (b : Buf T) (h1 : 1 ≤ n) (h2 : n ≤ 2 ^ 59) :
    ∃ b', resize zero n b = (.ok (), b') ∧ b'.Room n ∧ b'.mp = b.mp ∧ (b.Room n → b' = b) := by
  unfold resize
  rw [if_neg (by omega)]
  by_cases hc : b.allocated = true ∧ n ≤ b.cells.length
  · rw [if_pos hc]
    refine ⟨_, rfl, ⟨hc.1, rfl, hc.2⟩, rfl, ?_⟩
    intro hr
    have := hr.sz
    subst this
    rfl
  · rw [if_neg hc]
    obtain ⟨c, e, hlo, hhi⟩ := capOf_spec (n := n) (by omega)
    rw [e]
    simp only []
    rw [if_neg (by omega), if_neg (by omega)]
    refine ⟨_, rfl, ⟨rfl, rfl, ?_⟩, rfl, ?_⟩
    · simp
    · intro hr
      exact absurd ⟨hr.al, hr.cap⟩ hc

theorem set_ok {b : Buf T} {n i : Nat} (v : T) (hr : b.Room n) (hi : i < n) :
    set i v b = (.ok (), { b with cells := b.cells.set i (some v) }) := by
  unfold set
  rw [check_ok hr hi]
  simp only []
  rw [if_pos (lt_of_lt_of_le hi hr.cap)]

theorem Room.set {b : Buf T} {n i : Nat} {v : T} (hr : b.Room n) :
    Room { b with cells := b.cells.set i (some v) } n :=
  ⟨hr.al, hr.sz, by simpa using hr.cap⟩

end Buf

/-- A loop that computes element `i` and writes it to an object that keeps its size. -/
theorem loop_set {σ : Type} {put : Buf T → σ} {on : M (Buf T) Unit → M σ Unit}
    (hon : ∀ m b, on m (put b) = ((m b).1, put (m b).2)) {m : Nat → M σ T} {f : Nat → T} {n : Nat} {b0 : Buf T}
    (hr : b0.Room n)
    (hm : ∀ i, i < n → ∀ b, b.Room n → b.mp = b0.mp → (∀ j, i ≤ j → b.cells[j]? = b0.cells[j]?) →
      m i (put b) = (.ok (f i), put b)) :
    ∃ b', M.forN n (fun i => do
        let d ← m i
        on (Buf.set i d)) (put b0) = (.ok (), put b') ∧ b'.Room n ∧ b'.mp = b0.mp ∧
      ∀ i, i < n → b'.cells[i]? = some (some (f i)) := by
  obtain ⟨s', e, b, hb, h1, h2, h3, _⟩ := M.forN_ok (f := fun i => do
        let d ← m i
        on (Buf.set i d)) (I := fun i s => ∃ b, s = put b ∧ b.Room n ∧ b.mp = b0.mp ∧
        (∀ j, j < i → b.cells[j]? = some (some (f j))) ∧ ∀ j, i ≤ j → b.cells[j]? = b0.cells[j]?)
      n (s := put b0) ⟨b0, rfl, hr, rfl, fun _ hj => absurd hj (by omega), fun _ _ => rfl⟩ (by
    rintro i s hi ⟨b, rfl, h1, h2, h3, h4⟩
    refine ⟨_, ?_, { b with cells := b.cells.set i (some (f i)) }, rfl, h1.set, h2, ?_, ?_⟩
    · rw [M.bind_ok (hm i hi b h1 h2 h4), hon, Buf.set_ok _ h1 hi]
    · intro j hj
      show (b.cells.set i (some (f i)))[j]? = _
      rcases Nat.lt_or_ge j i with h | h
      · rw [List.getElem?_set_ne (by omega)]; exact h3 j h
      · have : j = i := by omega
        subst this
        rw [List.getElem?_set_self (lt_of_lt_of_le hi h1.cap)]
    · intro j hj
      show (b.cells.set i (some (f i)))[j]? = _
      rw [List.getElem?_set_ne (by omega)]; exact h4 j (by omega))
  exact ⟨b, by rw [e, hb], h1, h2, h3⟩

namespace AV

/-- Replace the value of a variable. -/
def putVal (s : AV T) (x : DVar) (b : Buf T) : AV T := { s with val := fun y => if y = x then b else s.val y }
/-- Replace the derivative of a variable. -/
def putDer (s : AV T) (x : DVar) (b : Buf T) : AV T := { s with der := fun y => if y = x then b else s.der y }
/-- Replace a constant. -/
def putCon (s : AV T) (c : Nat) (b : Buf T) : AV T := { s with con := fun y => if y = c then b else s.con y }

@[simp] theorem putVal_self (s : AV T) (x : DVar) : s.putVal x (s.val x) = s := by
  have : (fun y => if y = x then s.val x else s.val y) = s.val := by
    funext y; by_cases h : y = x <;> simp [h]
  unfold putVal; rw [this]
@[simp] theorem putDer_self (s : AV T) (x : DVar) : s.putDer x (s.der x) = s := by
  have : (fun y => if y = x then s.der x else s.der y) = s.der := by
    funext y; by_cases h : y = x <;> simp [h]
  unfold putDer; rw [this]
@[simp] theorem putCon_self (s : AV T) (x : Nat) : s.putCon x (s.con x) = s := by
  have : (fun y => if y = x then s.con x else s.con y) = s.con := by
    funext y; by_cases h : y = x <;> simp [h]
  unfold putCon; rw [this]

theorem onVal_put {α : Type} (s : AV T) (x : DVar) (m : M (Buf T) α) (b : Buf T) :
    onVal x m (s.putVal x b) = ((m b).1, s.putVal x (m b).2) := by
  unfold onVal
  rw [M.zoom_apply]
  simp only [putVal, if_true]
  congr 2
  funext y
  by_cases h : y = x <;> simp [h]

theorem onDer_put {α : Type} (s : AV T) (x : DVar) (m : M (Buf T) α) (b : Buf T) :
    onDer x m (s.putDer x b) = ((m b).1, s.putDer x (m b).2) := by
  unfold onDer
  rw [M.zoom_apply]
  simp only [putDer, if_true]
  congr 2
  funext y
  by_cases h : y = x <;> simp [h]

theorem onCon_put {α : Type} (s : AV T) (x : Nat) (m : M (Buf T) α) (b : Buf T) :
    onCon x m (s.putCon x b) = ((m b).1, s.putCon x (m b).2) := by
  unfold onCon
  rw [M.zoom_apply]
  simp only [putCon, if_true]
  congr 2
  funext y
  by_cases h : y = x <;> simp [h]

theorem onVal_ok {α : Type} {s : AV T} {x : DVar} {m : M (Buf T) α} {a : α} {b : Buf T}
    (h : m (s.val x) = (.ok a, b)) : onVal x m s = (.ok a, s.putVal x b) := by
  have := onVal_put s x m (s.val x)
  rw [putVal_self, h] at this
  exact this

theorem onDer_ok {α : Type} {s : AV T} {x : DVar} {m : M (Buf T) α} {a : α} {b : Buf T}
    (h : m (s.der x) = (.ok a, b)) : onDer x m s = (.ok a, s.putDer x b) := by
  have := onDer_put s x m (s.der x)
  rw [putDer_self, h] at this
  exact this

theorem onCon_ok {α : Type} {s : AV T} {x : Nat} {m : M (Buf T) α} {a : α} {b : Buf T}
    (h : m (s.con x) = (.ok a, b)) : onCon x m s = (.ok a, s.putCon x b) := by
  have := onCon_put s x m (s.con x)
  rw [putCon_self, h] at this
  exact this

@[simp] theorem val_putDer (s : AV T) (x : DVar) (b : Buf T) : (s.putDer x b).val = s.val := rfl
@[simp] theorem con_putDer (s : AV T) (x : DVar) (b : Buf T) : (s.putDer x b).con = s.con := rfl
@[simp] theorem indep_putDer (s : AV T) (x : DVar) (b : Buf T) : (s.putDer x b).indep = s.indep := rfl
@[simp] theorem init_putDer (s : AV T) (x : DVar) (b : Buf T) : (s.putDer x b).derivInit = s.derivInit := rfl
@[simp] theorem der_putDer (s : AV T) (x : DVar) (b : Buf T) : (s.putDer x b).der x = b := by simp [putDer]
theorem der_putDer_ne (s : AV T) {x y : DVar} (b : Buf T) (h : y ≠ x) : (s.putDer x b).der y = s.der y := by simp [putDer, h]
@[simp] theorem der_putVal (s : AV T) (x : DVar) (b : Buf T) : (s.putVal x b).der = s.der := rfl
@[simp] theorem con_putVal (s : AV T) (x : DVar) (b : Buf T) : (s.putVal x b).con = s.con := rfl
@[simp] theorem indep_putVal (s : AV T) (x : DVar) (b : Buf T) : (s.putVal x b).indep = s.indep := rfl
@[simp] theorem init_putVal (s : AV T) (x : DVar) (b : Buf T) : (s.putVal x b).derivInit = s.derivInit := rfl
@[simp] theorem val_putVal (s : AV T) (x : DVar) (b : Buf T) : (s.putVal x b).val x = b := by simp [putVal]
theorem val_putVal_ne (s : AV T) {x y : DVar} (b : Buf T) (h : y ≠ x) : (s.putVal x b).val y = s.val y := by simp [putVal, h]
@[simp] theorem der_putCon (s : AV T) (x : Nat) (b : Buf T) : (s.putCon x b).der = s.der := rfl
@[simp] theorem val_putCon (s : AV T) (x : Nat) (b : Buf T) : (s.putCon x b).val = s.val := rfl
@[simp] theorem indep_putCon (s : AV T) (x : Nat) (b : Buf T) : (s.putCon x b).indep = s.indep := rfl
@[simp] theorem con_putCon (s : AV T) (x : Nat) (b : Buf T) : (s.putCon x b).con x = b := by simp [putCon]
theorem con_putCon_ne (s : AV T) {x y : Nat} (b : Buf T) (h : y ≠ x) : (s.putCon x b).con y = s.con y := by simp [putCon, h]

end AV

/-! ### Evaluation at one index -/

/-- The operand elements seen at one index. -/
structure Pt (T : Type) where
  con : Nat → T
  var : DVar → T
  der : DVar → T

namespace DExpr

/-- The value computed by `getVal` from operand elements. -/
def gVal (A : DArith T) (p : Pt T) : DExpr → T
  | con c => p.con c
  | var x => p.var x
  | bin op l r => A.op (l.boolVal && r.boolVal) op (l.gVal A p) (r.gVal A p)
  | sin e => A.conv e.boolVal (A.sin (e.gVal A p))

/-- The derivative computed by `getDeriv` from operand elements. -/
def gDer (A : DArith T) (p : Pt T) : DExpr → T
  | con _ => A.lit 0
  | var x => p.der x
  | bin .add l r => A.conv (l.boolDer && r.boolDer) (A.add (l.gDer A p) (r.gDer A p))
  | bin .sub l r => A.conv (l.boolDer && r.boolDer) (A.sub (l.gDer A p) (r.gDer A p))
  | bin .mul l r =>
    A.conv (l.boolVal && r.boolVal) (A.add (A.mul (l.gDer A p) (r.gVal A p)) (A.mul (r.gDer A p) (l.gVal A p)))
  | bin .div l r => match r with
    | con c => A.div (l.gDer A p) (p.con c)
    | r => A.conv (l.boolVal && r.boolVal)
        (A.div (A.sub (A.mul (l.gDer A p) (r.gVal A p)) (A.mul (l.gVal A p) (r.gDer A p))) (A.pow (r.gDer A p) 2))
  | bin _ _ _ => A.lit 0
  | sin e => if e.isLeaf then A.cos (e.gVal A p) else A.conv e.boolDer (A.cos (e.gDer A p))

/-- At index `i` the operands of `e` are the elements `p`. -/
structure SeesAt (s : AV T) (p : Pt T) (e : DExpr) (i : Nat) : Prop where
  con : ∀ c, Leaf.con c ∈ leaves e → leafVal (s.con c) i = .ok (p.con c)
  var : ∀ x, Leaf.var x ∈ leaves e → leafVal (s.val x) i = .ok (p.var x)
  sz : ∀ x, Leaf.var x ∈ leaves e → (s.der x).sz = (s.val x).sz
  der : ∀ x, Leaf.var x ∈ leaves e → leafVal (s.der x) i = .ok (p.der x)

theorem SeesAt.left {s : AV T} {p : Pt T} {op : DOp} {l r : DExpr} {i : Nat} (h : SeesAt s p (bin op l r) i) :
    SeesAt s p l i :=
  ⟨fun c hc => h.con c (by simp [leaves, hc]), fun x hx => h.var x (by simp [leaves, hx]),
    fun x hx => h.sz x (by simp [leaves, hx]), fun x hx => h.der x (by simp [leaves, hx])⟩

theorem SeesAt.right {s : AV T} {p : Pt T} {op : DOp} {l r : DExpr} {i : Nat} (h : SeesAt s p (bin op l r) i) :
    SeesAt s p r i :=
  ⟨fun c hc => h.con c (by simp [leaves, hc]), fun x hx => h.var x (by simp [leaves, hx]),
    fun x hx => h.sz x (by simp [leaves, hx]), fun x hx => h.der x (by simp [leaves, hx])⟩

theorem SeesAt.arg {s : AV T} {p : Pt T} {e : DExpr} {i : Nat} (h : SeesAt s p (sin e) i) : SeesAt s p e i :=
  ⟨h.con, h.var, h.sz, h.der⟩

theorem getVal_ok {A : DArith T} {s : AV T} {p : Pt T} {e : DExpr} {i : Nat} (h : SeesAt s p e i) :
    e.getVal A s i = .ok (e.gVal A p) := by
  induction e with
  | con c => exact h.con c (by simp [leaves])
  | var x => exact h.var x (by simp [leaves])
  | bin op l r hl hr => rw [getVal, hl h.left, Out.ok_bind, hr h.right, Out.ok_bind, gVal]; rfl
  | sin e he => rw [getVal, he h.arg, Out.ok_bind, gVal]; rfl

theorem varDeriv_ok {A : DArith T} {s : AV T} {x : DVar} {i : Nat} {d : T} (h1 : (s.der x).sz = (s.val x).sz)
    (h2 : leafVal (s.der x) i = .ok d) : varDeriv A x i s = (.ok d, s) := by
  unfold varDeriv
  rw [M.bind_ok (M.get_apply s), if_neg (by simpa using h1)]
  show M.reads (fun s => leafVal (s.der x) i) s = _
  rw [M.reads_apply, h2]

theorem getDeriv_ok {A : DArith T} {s : AV T} {p : Pt T} {e : DExpr} {i : Nat} (h : SeesAt s p e i) :
    e.getDeriv A i s = (.ok (e.gDer A p), s) := by
  induction e with
  | con c => rfl
  | var x => exact varDeriv_ok (h.sz x (by simp [leaves])) (h.der x (by simp [leaves]))
  | bin op l r hl hr =>
    have vl : M.reads (fun s => l.getVal A s i) s = (.ok (l.gVal A p), s) := by
      rw [M.reads_apply, getVal_ok h.left]
    have vr : M.reads (fun s => r.getVal A s i) s = (.ok (r.gVal A p), s) := by
      rw [M.reads_apply, getVal_ok h.right]
    cases op
    case mul =>
      rw [getDeriv, M.bind_ok vl, M.bind_ok vr, M.bind_ok (hl h.left), M.bind_ok (hr h.right)]; rfl
    case div =>
      rw [getDeriv, M.bind_ok vl, M.bind_ok vr, M.bind_ok (hl h.left), M.bind_ok (hr h.right)]
      cases r <;> rfl
    all_goals rw [getDeriv, M.bind_ok (hl h.left), M.bind_ok (hr h.right)] <;> first | rfl | simp
  | sin e he =>
    have ve : M.reads (fun s => e.getVal A s i) s = (.ok (e.gVal A p), s) := by
      rw [M.reads_apply, getVal_ok h.arg]
    rw [getDeriv, gDer]
    by_cases hle : e.isLeaf = true
    · rw [if_pos hle, if_pos hle, M.bind_ok ve]; rfl
    · rw [if_neg hle, if_neg hle, M.bind_ok (he h.arg)]; rfl

/-! ### Recycling -/

theorem modIdx_ok {i n : Nat} (h : n ≠ 0) : modIdx i n = .ok (i % n) := by rw [modIdx, if_neg h]

theorem leafVal_mod {b : Buf T} {i n : Nat} (h : b.sz ∣ n) : leafVal b (i % n) = leafVal b i := by
  unfold leafVal
  by_cases h0 : b.sz = 0
  · simp [modIdx, h0]
  · rw [modIdx_ok h0, modIdx_ok h0, Nat.mod_mod_of_dvd _ h]

theorem getVal_mod {A : DArith T} {s : AV T} {e : DExpr} {i n : Nat} (h : ∀ v ∈ leaves e, v.size s ∣ n) :
    e.getVal A s (i % n) = e.getVal A s i := by
  induction e with
  | con c => exact leafVal_mod (h (.con c) (by simp [leaves]))
  | var x => exact leafVal_mod (h (.var x) (by simp [leaves]))
  | bin op l r hl hr =>
    rw [getVal, getVal, hl (fun v hv => h v (by simp [leaves, hv])), hr (fun v hv => h v (by simp [leaves, hv]))]
  | sin e he => rw [getVal, getVal, he h]

/-- `sinus` is not applied to an expression of type `bool`. -/
def Num : DExpr → Prop
  | con _ => True
  | var _ => True
  | bin _ l r => Num l ∧ Num r
  | sin e => Num e ∧ e.boolVal = false

theorem Num.bool {e : DExpr} (h : e.Num) : e.boolAt = e.boolVal := by
  induction e with
  | con c => rfl
  | var x => rfl
  | bin op l r hl hr => rw [boolAt, boolVal, hl h.1, hr h.2]
  | sin e he => rw [boolAt, boolVal, h.2]

/-- When every operand evenly divides the operand expressions it is part of, `operator[]` and `getVal` agree. -/
theorem elem_eq_getVal {A : DArith T} {s : AV T} {e : DExpr} (h : Even s e) (hn : e.Num)
    (h0 : ∀ v ∈ leaves e, v.size s ≠ 0) : ∀ i, i < e.size s → e.elem A s i = e.getVal A s i := by
  induction e with
  | con c =>
    intro i hi
    rw [elem, getVal, leafVal, modIdx_ok (by intro h; rw [size, h] at hi; omega), Out.ok_bind, Nat.mod_eq_of_lt (by simpa [size] using hi)]
  | var c =>
    intro i hi
    rw [elem, getVal, leafVal, modIdx_ok (by intro h; rw [size, h] at hi; omega), Out.ok_bind, Nat.mod_eq_of_lt (by simpa [size] using hi)]
  | bin op l r hl hr =>
    intro i hi
    have l0 : ∀ v ∈ leaves l, v.size s ≠ 0 := fun v hv => h0 v (by simp [leaves, hv])
    have r0 : ∀ v ∈ leaves r, v.size s ≠ 0 := fun v hv => h0 v (by simp [leaves, hv])
    have e1 : ∀ e : DExpr, (∀ v ∈ leaves e, v.size s ≠ 0) → e.size s ≠ 0 := by
      intro e
      induction e with
      | con c => intro h; exact h (.con c) (by simp [leaves])
      | var x => intro h; exact h (.var x) (by simp [leaves])
      | bin op l r hl hr =>
        intro h
        have := hl (fun v hv => h v (by simp [leaves, hv]))
        rw [size]; split <;> omega
      | sin e he => exact he
    rw [elem, getVal, modIdx_ok (e1 l l0), Out.ok_bind, modIdx_ok (e1 r r0),
      hl h.1 hn.1 l0 _ (Nat.mod_lt _ (Nat.pos_of_ne_zero (e1 l l0))), getVal_mod h.2.2.1, hn.1.bool, hn.2.bool]
    congr 1
    funext a
    rw [Out.ok_bind, hr h.2.1 hn.2 r0 _ (Nat.mod_lt _ (Nat.pos_of_ne_zero (e1 r r0))), getVal_mod h.2.2.2]
  | sin e he =>
    intro i hi
    have : e.size s ≠ 0 := by intro h; rw [size, h] at hi; omega
    rw [elem, getVal, modIdx_ok this, Out.ok_bind, he h.1 hn.1 h0 _ (Nat.mod_lt _ (Nat.pos_of_ne_zero this)),
      getVal_mod h.2, hn.2]
    rfl

theorem leaf_le_size {s : AV T} {e : DExpr} {v : Leaf} (h : v ∈ leaves e) : v.size s ≤ e.size s := by
  induction e with
  | con c => simp only [leaves, List.mem_singleton] at h; subst h; exact le_refl _
  | var c => simp only [leaves, List.mem_singleton] at h; subst h; exact le_refl _
  | bin op l r hl hr =>
    simp only [leaves, List.mem_append] at h
    rw [size]
    rcases h with h | h
    · have := hl h; split <;> omega
    · have := hr h; split <;> omega
  | sin e he => exact he h

theorem size_mem {s : AV T} {e : DExpr} : ∃ v ∈ leaves e, e.size s = v.size s := by
  induction e with
  | con c => exact ⟨.con c, by simp [leaves], rfl⟩
  | var c => exact ⟨.var c, by simp [leaves], rfl⟩
  | bin op l r hl hr =>
    obtain ⟨v, hv, ev⟩ := hl
    obtain ⟨w, hw, ew⟩ := hr
    rw [size]
    split
    · exact ⟨v, by simp [leaves, hv], ev⟩
    · exact ⟨w, by simp [leaves, hw], ew⟩
  | sin e he => exact he

/-- Equally long or scalar operands divide evenly. -/
theorem even_of_conform {s : AV T} {n : Nat} {e : DExpr} (h0 : n ≠ 0) (h : ∀ v ∈ leaves e, v.size s = n ∨ v.size s = 1) : Even s e := by
  have key : ∀ e : DExpr, (∀ v ∈ leaves e, v.size s = n ∨ v.size s = 1) → ∀ v ∈ leaves e, v.size s ∣ e.size s := by
    intro e h v hv
    obtain ⟨w, hw, ew⟩ := size_mem (s := s) (e := e)
    have h1 := leaf_le_size (s := s) hv
    rcases h v hv with h2 | h2
    · rcases h w hw with h3 | h3
      · rw [h2, ew, h3]
      · rw [ew, h3] at h1 ⊢
        rw [show v.size s = 1 by omega]
    · rw [h2]; exact one_dvd _
  induction e with
  | con c => trivial
  | var c => trivial
  | bin op l r hl hr =>
    have a : ∀ v ∈ leaves l, v.size s = n ∨ v.size s = 1 := fun v hv => h v (by simp [leaves, hv])
    have b : ∀ v ∈ leaves r, v.size s = n ∨ v.size s = 1 := fun v hv => h v (by simp [leaves, hv])
    exact ⟨hl a, hr b, key l a, key r b⟩
  | sin e he => exact ⟨he h, key e h⟩

end DExpr
end ETR
