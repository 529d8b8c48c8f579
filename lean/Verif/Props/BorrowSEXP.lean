import Verif.Model.BorrowSEXP
import Verif.Lemmas.Eval
import Verif.Lemmas.StoreSpec
import Verif.Lemmas.MachFun
import Verif.Lemmas.Cap
import Verif.Lemmas.Step
import Verif.Spec.Shape

/-! C67: vectors that borrow an R object. -/

namespace ETR
namespace Sexp
open Heap Spec
variable {V : Type}

/-- The memory at `b` belongs to R, has not been freed and holds the elements `l`. -/
structure RHolds (h : Heap V) (b : Nat) (l : List V) : Prop where
  live : (h.blk b).live = true
  newed : (h.blk b).newed = false
  len : (h.blk b).len = l.length
  cell : ∀ i, (h.blk b).cell i = l[i]?

theorem RHolds.foreign (h : Heap V) (l : List V) : RHolds (h.foreign l).1 (h.foreign l).2 l := by
  constructor <;> simp [Heap.foreign]

@[simp] theorem self_apply (st : Heap V × SVec) : self st = (.ok st.2.d, st) := rfl
@[simp] theorem upd_apply (f : Sexp → Sexp) (st : Heap V × SVec) : upd f st = (.ok (), (st.1, { st.2 with d := f st.2.d })) := rfl
theorem heapM_apply {α : Type} (m : M (Heap V) α) (h : Heap V) (s : SVec) : heapM m (h, s) = ((m h).1, ((m h).2, s)) := rfl
theorem tempM_ok {α : Type} {m : SM V α} {h h' : Heap V} {s : SVec} {t : Store} {o : Out α} (e : m (h, s.temp) = (o, (h', t))) :
    tempM m (h, s) = (o, (h', { s with temp := t })) := by
  unfold tempM; rw [M.zoom_apply]; simp [e]

theorem delete_foreign {h : Heap V} {b : Nat} (hn : (h.blk b).newed = false) : Heap.delete (some b) h = (.ub .badFree, h) := by
  simp [Heap.delete, hn]

/-! ## Operations that work in place -/

/-- Operations on the vector: element writes (also through subsets), assignment of a number, `fill`, `resize`. -/
inductive Op (V : Type) where
  | write (i : Nat) (v : V)
  | number (v : V)
  | fill (v : V)
  | resize (n : Nat)

/-- Run an operation; an exception is caught by the caller. -/
def Op.run (zero : V) : Op V → XM V Unit
  | .write i v => Sexp.set i v
  | .number v => assignScalar zero v
  | .fill v => fillScalar v
  | .resize n => Sexp.resize zero n

def runOps (zero : V) : List (Op V) → XM V Unit
  | [] => pure ()
  | o :: os => fun st => match o.run zero st with
    | (.ub k, st') => (.ub k, st')
    | (_, st') => runOps zero os st'

/-- What the operations are supposed to do: elements of the R object and length of the vector. -/
def Op.spec : Op V → List V × Nat → List V × Nat
  | .write i v, (l, n) => if i < n then (l.set i v, n) else (l, n)
  | .number v, (l, _) => (l.set 0 v, 1)
  | .fill v, (l, n) => (List.replicate n v ++ l.drop n, n)
  | .resize k, (l, n) => if k = 0 then (l, n) else (l, k)

/-- The operation does not ask for more elements than the R object has. -/
def Op.Fits (n : Nat) : Op V → Prop
  | .resize k => k ≤ n
  | .number _ => 1 ≤ n
  | _ => True

theorem checkIdx_ok {s : Sexp} {b i : Nat} (hp : s.p = some b) (hi : i < s.sz) : s.checkIdx i = .ok () := by
  simp [checkIdx, hp, hi]

theorem set_ok {h : Heap V} {s : SVec} {b i : Nat} {v : V} (hp : s.d.p = some b) (hi : i < s.d.sz) (h1 : (h.blk b).live = true)
    (h2 : s.d.sz ≤ (h.blk b).len) :
    Sexp.set i v (h, s) = (.ok (), (h.setCells b (fun j => if j = i then some v else (h.blk b).cell j), s)) := by
  unfold Sexp.set
  rw [M.bind_ok (m := self) (self_apply _), M.bind_ok (s' := (h, s)) (a := ()) (by rw [M.lift_apply, checkIdx_ok hp hi]),
    heapM_apply, hp, store_some h1 (by omega)]

theorem resize_keep {zero : V} {h : Heap V} {s : SVec} {n : Nat} (hn : 1 ≤ n) (ha : s.d.allocated = true) (hc : n ≤ s.d.capacity) :
    Sexp.resize zero n (h, s) = (.ok (), (h, { s with d := { s.d with sz := n } })) := by
  unfold Sexp.resize
  rw [M.bind_ok (M.ass_pos hn _), M.bind_ok (m := self) (self_apply _), if_neg (by simp [ha]), if_neg (by simp only []; omega)]
  rfl

theorem RHolds.setCells {h : Heap V} {b : Nat} {l l' : List V} (R : RHolds h b l) (hl : l'.length = l.length) {f : Nat → Option V}
    (hf : ∀ i, f i = l'[i]?) : RHolds (h.setCells b f) b l' :=
  ⟨by simpa using R.live, by simpa using R.newed, by simpa [hl] using R.len, fun i => by rw [setCells_cell, hf]⟩

theorem step_inplace {zero : V} {h : Heap V} {b n : Nat} {l : List V} {mp : MP} (R : RHolds h b l) (hn : n ≤ l.length) (o : Op V)
    (ho : o.Fits l.length) :
    ∃ h', ((o.run zero (h, ⟨{ p := some b, sz := n, capacity := l.length, allocated := true, mp := mp }, {}⟩)).1.isUB = false) ∧
      (o.run zero (h, ⟨{ p := some b, sz := n, capacity := l.length, allocated := true, mp := mp }, {}⟩)).2
        = (h', ⟨{ p := some b, sz := (o.spec (l, n)).2, capacity := l.length, allocated := true, mp := mp }, {}⟩) ∧
      RHolds h' b (o.spec (l, n)).1 ∧ (o.spec (l, n)).2 ≤ l.length ∧ (o.spec (l, n)).1.length = l.length ∧
      (∀ c, c ≠ b → h'.blk c = h.blk c) ∧ h'.next = h.next := by
  cases o with
  | write i v =>
    by_cases hi : i < n
    · have e := set_ok (h := h) (s := ⟨{ p := some b, sz := n, capacity := l.length, allocated := true, mp := mp }, {}⟩) (v := v)
        (b := b) rfl hi R.live (by rw [R.len]; exact hn)
      refine ⟨h.setCells b (fun j => if j = i then some v else (h.blk b).cell j), by simp only [Op.run]; rw [e]; rfl,
        by simp only [Op.run]; rw [e]; simp [Op.spec, hi], ?_, ?_, ?_, ?_, rfl⟩
      · simp only [Op.spec, if_pos hi]
        refine R.setCells (by simp) fun j => ?_
        rw [List.getElem?_set, R.cell]
        by_cases hj : j = i
        · subst hj; simp [show j < l.length by omega]
        · simp [hj, Ne.symm hj]
      · simp [Op.spec, hi, hn]
      · simp [Op.spec, hi]
      · intro c hc; exact setCells_ne _ _ hc
    · have e : Sexp.set i v (h, ⟨{ p := some b, sz := n, capacity := l.length, allocated := true, mp := mp }, {}⟩)
          = (.thr "Error: out of boundaries --> value beyond size of vector",
              (h, ⟨{ p := some b, sz := n, capacity := l.length, allocated := true, mp := mp }, {}⟩)) := by
        unfold Sexp.set
        rw [M.bind_ok (m := self) (self_apply _), M.bind_thr]
        rw [M.lift_apply]
        simp [checkIdx, hi]
      refine ⟨h, by simp only [Op.run]; rw [e]; rfl, by simp only [Op.run]; rw [e]; simp [Op.spec, hi], ?_, ?_, ?_, fun _ _ => rfl, rfl⟩
      · simpa [Op.spec, hi] using R
      · simpa [Op.spec, hi] using hn
      · simp [Op.spec, hi]
  | number v =>
    have ho : 1 ≤ l.length := ho
    have e1 := resize_keep (zero := zero) (h := h)
      (s := ⟨{ p := some b, sz := n, capacity := l.length, allocated := true, mp := mp }, {}⟩) (le_refl 1) rfl ho
    have e2 := set_ok (h := h) (s := ⟨{ p := some b, sz := 1, capacity := l.length, allocated := true, mp := mp }, {}⟩) (v := v)
        (b := b) (i := 0) rfl (by simp) R.live (by rw [R.len]; exact ho)
    have e : assignScalar zero v (h, ⟨{ p := some b, sz := n, capacity := l.length, allocated := true, mp := mp }, {}⟩)
        = (.ok (), (h.setCells b (fun j => if j = 0 then some v else (h.blk b).cell j),
            ⟨{ p := some b, sz := 1, capacity := l.length, allocated := true, mp := mp }, {}⟩)) := (M.bind_ok e1).trans e2
    refine ⟨h.setCells b (fun j => if j = 0 then some v else (h.blk b).cell j), by simp only [Op.run]; rw [e]; rfl, by simp only [Op.run]; rw [e]; simp [Op.spec], ?_, ?_, ?_, ?_, rfl⟩
    · simp only [Op.spec]
      refine R.setCells (by simp) fun j => ?_
      rw [List.getElem?_set, R.cell]
      by_cases hj : j = 0
      · subst hj; rw [if_pos rfl, if_pos rfl, if_pos (by omega)]
      · simp [hj, Ne.symm hj]
    · simpa [Op.spec] using ho
    · simp [Op.spec]
    · intro c hc; exact setCells_ne _ _ hc
  | fill v =>
    have e : fillScalar v (h, ⟨{ p := some b, sz := n, capacity := l.length, allocated := true, mp := mp }, {}⟩)
        = (.ok (), (h.setCells b (fun j => if j < n then some v else (h.blk b).cell j),
            ⟨{ p := some b, sz := n, capacity := l.length, allocated := true, mp := mp }, {}⟩)) := by
      unfold fillScalar
      rw [M.bind_ok (m := self) (self_apply _), heapM_apply, fillRange_some R.live (by rw [R.len]; exact hn)]
    refine ⟨h.setCells b (fun j => if j < n then some v else (h.blk b).cell j), by simp only [Op.run]; rw [e]; rfl,
      by simp only [Op.run]; rw [e]; rfl, ?_, hn, ?_, ?_, rfl⟩
    · simp only [Op.spec]
      refine R.setCells (by simp; omega) fun j => ?_
      rw [R.cell]
      by_cases hj : j < n
      · rw [if_pos hj, List.getElem?_append_left (by simpa using hj)]
        simp [hj]
      · rw [if_neg hj, List.getElem?_append_right (by simp; omega)]
        simp only [List.length_replicate, List.getElem?_drop]
        congr 1; omega
    · simp [Op.spec]; omega
    · intro c hc; exact setCells_ne _ _ hc
  | resize k =>
    by_cases hk : k = 0
    · subst hk
      have e : Sexp.resize zero 0 (h, ⟨{ p := some b, sz := n, capacity := l.length, allocated := true, mp := mp }, {}⟩)
          = (.thr "Size has to be larger than 0", (h, ⟨{ p := some b, sz := n, capacity := l.length, allocated := true, mp := mp }, {}⟩)) := by
        unfold Sexp.resize; rw [M.bind_thr (M.ass_neg (by omega) _)]
      refine ⟨h, by simp only [Op.run]; rw [e]; rfl, by simp only [Op.run]; rw [e]; rfl, R, hn, rfl, fun _ _ => rfl, rfl⟩
    · have e := resize_keep (zero := zero) (h := h)
        (s := ⟨{ p := some b, sz := n, capacity := l.length, allocated := true, mp := mp }, {}⟩) (n := k) (by omega) rfl ho
      refine ⟨h, by simp only [Op.run]; rw [e]; rfl, by simp only [Op.run]; rw [e]; simp [Op.spec, hk], ?_, ?_, ?_, fun _ _ => rfl, rfl⟩
      · simpa [Op.spec, hk] using R
      · simpa [Op.spec, hk, Op.Fits] using ho
      · simp [Op.spec, hk]

theorem runOps_inplace {zero : V} {b : Nat} {mp : MP} (os : List (Op V)) : ∀ {h : Heap V} {n : Nat} {l : List V}, RHolds h b l →
    n ≤ l.length → (∀ o ∈ os, o.Fits l.length) →
    ∃ h', runOps zero os (h, ⟨{ p := some b, sz := n, capacity := l.length, allocated := true, mp := mp }, {}⟩)
        = (.ok (), (h', ⟨{ p := some b, sz := (os.foldl (fun a o => o.spec a) (l, n)).2, capacity := l.length, allocated := true, mp := mp }, {}⟩)) ∧
      RHolds h' b (os.foldl (fun a o => o.spec a) (l, n)).1 ∧ (os.foldl (fun a o => o.spec a) (l, n)).2 ≤ l.length ∧
      (os.foldl (fun a o => o.spec a) (l, n)).1.length = l.length ∧ (∀ c, c ≠ b → h'.blk c = h.blk c) := by
  induction os with
  | nil => intro h n l R hn _; exact ⟨h, rfl, R, hn, rfl, fun _ _ => rfl⟩
  | cons o os ih =>
    intro h n l R hn hf
    obtain ⟨h1, u, e, R1, n1, l1, fr, _⟩ := step_inplace (zero := zero) (mp := mp) R hn o (hf o (by simp))
    rcases hm : o.run zero (h, ⟨{ p := some b, sz := n, capacity := l.length, allocated := true, mp := mp }, {}⟩) with ⟨r, st⟩
    rw [hm] at u e
    simp only at u e
    subst e
    obtain ⟨h2, e2, R2, n2, l2, fr2⟩ := ih (n := (o.spec (l, n)).2) R1 (by rw [l1]; exact n1) (by intro o' ho'; rw [l1]; exact hf o' (by simp [ho']))
    rw [l1] at e2 n2 l2
    refine ⟨h2, ?_, R2, n2, l2, fun c hc => by rw [fr2 c hc, fr c hc]⟩
    show (match o.run zero (h, (⟨{ p := some b, sz := n, capacity := l.length, allocated := true, mp := mp }, {}⟩ : SVec)) with
      | (Out.ub k, st') => ((Out.ub k, st') : Out Unit × _)
      | (_, st') => runOps zero os st') = _
    rw [hm]
    cases r with
    | ok a => exact e2
    | thr m => exact e2
    | ub k => simp [Out.isUB] at u

/-- C67 for element writes (also through subsets), assignments of numbers, `fill` and `resize`, as long as not more elements are asked
for than the R object has: any sequence of them works on the R object in place, touches no other memory, and the destruction of the vector
leaves the R object alone.  The vector is a matrix if the R object is one, with its dimensions. -/
theorem C67_inplace_partial {zero : V} {h : Heap V} {b : Nat} {l : List V} (R : RHolds h b l) (dim : Option (Nat × Nat))
    (os : List (Op V)) (hf : ∀ o ∈ os, o.Fits l.length) :
    ∃ h' s', runOps zero os (h, ⟨ofR b l.length dim, {}⟩) = (.ok (), (h', s')) ∧
      RHolds h' b (os.foldl (fun a o => o.spec a) (l, l.length)).1 ∧
      s'.d.sz = (os.foldl (fun a o => o.spec a) (l, l.length)).2 ∧ dimMP s'.d.mp = dim ∧ (∀ c, c ≠ b → h'.blk c = h.blk c) ∧
      ∃ s'', destroy (h', s') = (.ok (), (h', s'')) := by
  obtain ⟨h', e, R', _, _, fr⟩ := runOps_inplace (zero := zero) (mp := (ofR b l.length dim).mp) os R (le_refl _) hf
  refine ⟨h', _, e, R', rfl, by cases dim <;> rfl, fr, ?_⟩
  exact ⟨_, rfl⟩

/-- Two element writes and a number on an R vector with three elements. -/
example : ∃ h' s', runOps 0 [.write 2 30, .write 7 9, .resize 2, .fill 5] (((Heap.empty.foreign [1, 2, 3]).1 : Heap Nat),
    ⟨ofR 0 3 none, {}⟩) = (.ok (), (h', s')) ∧ RHolds h' 0 [5, 5, 30] := by
  obtain ⟨h', s', e, R, _⟩ := C67_inplace_partial (zero := 0) (RHolds.foreign Heap.empty [1, 2, 3]) none
    [.write 2 30, .write 7 9, .resize 2, .fill 5] (by simp [Op.Fits])
  exact ⟨h', s', e, R⟩

/-! ## Assignment of vectors -/

/-- The vector shows `l`: its memory is valid and holds `l`. -/
structure Sees (h : Heap V) (d : Sexp) (q : Nat) (l : List V) : Prop where
  p : d.p = some q
  sz : d.sz = l.length
  live : (h.blk q).live = true
  len : l.length ≤ (h.blk q).len
  cell : ∀ i (hi : i < l.length), (h.blk q).cell i = some l[i]

theorem Sees.get {h : Heap V} {d : Sexp} {q : Nat} {l : List V} (S : Sees h d q l) {i : Nat} (hi : i < l.length) :
    d.get h i = .ok l[i] := by
  unfold Sexp.get
  rw [checkIdx_ok S.p (by rw [S.sz]; exact hi), Out.ok_bind, S.p]
  have := S.len
  exact load_some S.live (by omega) (S.cell i hi)

theorem Sees.agrees {h : Heap V} {d : Sexp} {q : Nat} {l : List V} (S : Sees h d q l) :
    Agrees (env h d) (fun _ => some l) := by
  intro x l' hl
  simp only [Option.some.injEq] at hl
  subst hl
  exact ⟨S.sz, fun i hi => S.get hi⟩

theorem Sees.frame {h h' : Heap V} {d : Sexp} {q : Nat} {l : List V} (S : Sees h d q l) (hb : h'.blk q = h.blk q) : Sees h' d q l :=
  ⟨S.p, S.sz, by rw [hb]; exact S.live, by rw [hb]; exact S.len, by rw [hb]; exact S.cell⟩

/-- Matrix expressions have dimensions. -/
theorem dims_of_im {en : Env V} : ∀ {e : Expr V}, e.im en = true → ∃ r c, e.nr en = .ok r ∧ e.nc en = .ok c := by
  intro e
  induction e with
  | leaf x => intro _; exact ⟨_, _, rfl, rfl⟩
  | rvec l mp => intro _; exact ⟨_, _, rfl, rfl⟩
  | scal v => intro _; exact ⟨_, _, rfl, rfl⟩
  | un f e ih => intro h; simp [Expr.im] at h
  | sub e ind mp ih => intro _; exact ⟨_, _, rfl, rfl⟩
  | bin f l r il ir =>
    intro h
    simp only [Expr.im] at h
    simp only [Expr.nr, Expr.nc]
    by_cases hl : l.isScal = true
    · simp only [hl, if_true] at h ⊢; exact ir h
    · simp only [hl, Bool.false_eq_true, if_false] at h ⊢
      by_cases hr : r.isScal = true
      · simp only [hr, if_true] at h ⊢; exact il h
      · simp only [hr, Bool.false_eq_true, if_false] at h ⊢
        cases il' : l.im en <;> cases ir' : r.im en
        · simp [il', ir'] at h
        · obtain ⟨a, c, ha, hc⟩ := ir ir'
          exact ⟨a, c, by simpa using ha, by simpa using hc⟩
        · obtain ⟨a, c, ha, hc⟩ := il il'
          exact ⟨a, c, by simpa using ha, by simpa using hc⟩
        · obtain ⟨a, c, ha, hc⟩ := il il'
          obtain ⟨a', c', ha', hc'⟩ := ir ir'
          exact ⟨if a > a' then a else a', if c > c' then c else c', by simp [ha, ha'], by simp [hc, hc']⟩

/-- The loop that fills `temp`. -/
theorem fillTemp {h : Heap V} {d : Sexp} {tmp : Store} {q t : Nat} {l l' : List V} {e : Expr V} (S : Sees h d q l)
    (hp : tmp.p = some t) (ha : tmp.allocated = true) (hz : tmp.sz = l'.length) (hl : (h.blk t).live = true)
    (hn : l'.length ≤ (h.blk t).len) (hne : t ≠ q) (he : eval (fun _ => some l) e = some l') :
    M.forN l'.length (fun i => do
      let v ← M.reads (fun st => e.el (env st.1 st.2.d) i)
      tempM (Store.set i v)) (h, ⟨d, tmp⟩)
    = (.ok (), (h.setCells t (fun j => if j < l'.length then l'[j]? else (h.blk t).cell j), ⟨d, tmp⟩)) := by
  have key : ∀ n, n ≤ l'.length → M.forN n (fun i => do
      let v ← M.reads (fun st => e.el (env st.1 st.2.d) i)
      tempM (Store.set i v)) (h, (⟨d, tmp⟩ : SVec))
    = (.ok (), (h.setCells t (fun j => if j < n then l'[j]? else (h.blk t).cell j), ⟨d, tmp⟩)) := by
    intro n
    induction n with
    | zero => intro _; simp
    | succ n ih =>
      intro hnl
      have S' : Sees (h.setCells t (fun j => if j < n then l'[j]? else (h.blk t).cell j)) d q l :=
        S.frame (setCells_ne _ _ (Ne.symm hne))
      obtain ⟨_, _, hel⟩ := eval_sound S'.agrees e he
      rw [M.forN_succ, M.bind_ok (ih (by omega)), M.bind_ok (a := l'[n]) (s' := (h.setCells t (fun j => if j < n then l'[j]? else (h.blk t).cell j), ⟨d, tmp⟩)) (by
        rw [M.reads_apply, hel n (by omega)])]
      have es : Store.set n l'[n] (h.setCells t (fun j => if j < n then l'[j]? else (h.blk t).cell j), tmp)
          = (.ok (), (h.setCells t (fun j => if j < n + 1 then l'[j]? else (h.blk t).cell j), tmp)) := by
        unfold Store.set
        rw [M.bind_ok (m := Store.self) (Store.self_apply _), M.bind_ok (a := ()) (s' := (h.setCells t (fun j => if j < n then l'[j]? else (h.blk t).cell j), tmp)) (by
          rw [M.lift_apply]; simp [Store.checkIdx, ha, hz, show n < l'.length by omega])]
        rw [Store.heapM_apply, hp, store_some (by simpa using hl) (by simp only [setCells_len]; omega)]
        simp only [setCells_cell, setCells_setCells]
        congr 3
        funext j
        rcases Nat.lt_trichotomy j n with hj | hj | hj
        · simp [hj, show j ≠ n by omega, show j < n + 1 by omega]
        · subst hj; simp [show j < l'.length by omega]
        · simp [show ¬ j < n by omega, show j ≠ n by omega, show ¬ j < n + 1 by omega]
      exact tempM_ok es
  exact key _ (le_refl _)

/-- `x = e` once `temp` has its memory: the two memory blocks change places. -/
theorem assign_swap {zero : V} {h h1 : Heap V} {d : Sexp} {tmp tmp1 : Store} {q t : Nat} {l l' : List V} {e : Expr V}
    (S : Sees h d q l) (S1 : Sees h1 d q l) (hal : d.allocated = true) (htd : d.todelete = false) (hc : l.length ≤ d.capacity)
    (hr : Store.resize zero l'.length (h, tmp) = (.ok (), (h1, tmp1)))
    (hp : tmp1.p = some t) (ha : tmp1.allocated = true) (hz : tmp1.sz = l'.length) (hl : (h1.blk t).live = true)
    (hn : l'.length ≤ (h1.blk t).len) (hne : t ≠ q) (hb : tmp1.capacity < 2 ^ 31) (hb' : l'.length < 2 ^ 31)
    (he : eval (fun _ => some l) e = some l') (hll : l'.length = l.length) :
    ∃ mp, Sexp.assign zero e (h, ⟨d, tmp⟩) = (.ok (),
      (h1.setCells t (fun j => if j < l'.length then l'[j]? else (h1.blk t).cell j),
        ⟨{ d with p := some t, sz := l'.length, capacity := tmp1.capacity, mp := mp },
         { tmp1 with p := some q, sz := l'.length, capacity := d.capacity }⟩)) := by
  obtain ⟨hne', hsz, _⟩ := eval_sound S.agrees e he
  have hpos := List.length_pos_iff.mpr hne'
  have e0 : (M.reads (fun st : Heap V × SVec => Out.ok (e.size (env st.1 st.2.d)))) (h, ⟨d, tmp⟩) = (.ok l'.length, (h, ⟨d, tmp⟩)) := by
    rw [M.reads_apply, hsz]
  unfold Sexp.assign assignBy
  rw [M.bind_ok e0, M.bind_ok (tempM_ok (s := ⟨d, tmp⟩) hr), M.bind_ok (fillTemp S1 hp ha hz hl hn hne he),
    M.bind_ok (m := self) (self_apply _), if_neg (by simp only [S.sz]; omega)]
  have em : moveit zero (h1.setCells t (fun j => if j < l'.length then l'[j]? else (h1.blk t).cell j), ⟨d, tmp1⟩)
      = (.ok (), (h1.setCells t (fun j => if j < l'.length then l'[j]? else (h1.blk t).cell j),
          ⟨{ d with p := some t, sz := l'.length, capacity := tmp1.capacity },
           { tmp1 with p := some q, sz := l'.length, capacity := d.capacity }⟩)) := by
    unfold moveit
    rw [M.bind_ok (m := self) (self_apply _), if_pos (by simp [htd]), M.bind_ok (tempM_ok (m := Store.self) (Store.self_apply _)),
      M.bind_ok (resize_keep (s := ⟨d, tmp1⟩) (by simp only [hz]; omega) hal (by simp only [hz]; omega))]
    unfold swapTemp
    simp only [hz, hp, S.p, Store.wrapI32_small hb', Store.wrapI32_small hb, Store.wrap64_small (show l'.length < 2 ^ 64 by omega),
      Store.wrap64_small (show tmp1.capacity < 2 ^ 64 by omega)]
  dsimp only
  rw [M.bind_ok em, M.bind_ok (M.get_apply _)]
  split
  · rename_i him
    obtain ⟨r, c, hr', hc'⟩ := dims_of_im him
    exact ⟨⟨true, r, c⟩, by rw [hr', hc']; rfl⟩
  · exact ⟨d.mp, rfl⟩

/-- State after an even number of assignments: the vector uses the memory of R. -/
structure Even (h : Heap V) (s : SVec) (b : Nat) (l : List V) : Prop where
  R : RHolds h b l
  p : s.d.p = some b
  sz : s.d.sz = l.length
  cap : s.d.capacity = l.length
  al : s.d.allocated = true
  td : s.d.todelete = false
  lt : b < h.next
  sched : h.sched = []
  tmp : (s.temp.p = none ∧ s.temp.allocated = false) ∨ ∃ t, s.temp.p = some t ∧ t ≠ b ∧ t < h.next ∧ s.temp.allocated = true ∧
    (h.blk t).live = true ∧ (h.blk t).newed = true ∧ l.length ≤ s.temp.capacity ∧ s.temp.capacity ≤ (h.blk t).len ∧
    s.temp.capacity < 2 ^ 31

/-- State after an odd number of assignments: `temp` has the memory of R, with the elements `l0` from before. -/
structure Odd (h : Heap V) (s : SVec) (b : Nat) (l0 l : List V) : Prop where
  R : RHolds h b l0
  al : s.d.allocated = true
  td : s.d.todelete = false
  tp : s.temp.p = some b
  ta : s.temp.allocated = true
  tc : s.temp.capacity = l.length
  lt : b < h.next
  sched : h.sched = []
  len : l0.length = l.length
  cap : l.length ≤ s.d.capacity
  cap' : s.d.capacity < 2 ^ 31
  own : ∃ t, t ≠ b ∧ t < h.next ∧ Sees h s.d t l ∧ (h.blk t).newed = true ∧ s.d.capacity ≤ (h.blk t).len

theorem even_odd {zero : V} {h : Heap V} {s : SVec} {b : Nat} {l l' : List V} {e : Expr V} (E : Even h s b l)
    (hL : l.length ≤ 2 ^ 30) (he : eval (fun _ => some l) e = some l') (hll : l'.length = l.length) :
    ∃ h' s', Sexp.assign zero e (h, s) = (.ok (), (h', s')) ∧ Odd h' s' b l l' := by
  obtain ⟨d, tmp⟩ := s
  have S : Sees h d b l := ⟨E.p, E.sz, E.R.live, by rw [E.R.len], fun i hi => by rw [E.R.cell, List.getElem?_eq_getElem hi]⟩
  have hpos : 1 ≤ l'.length := by
    have := (eval_sound S.agrees e he).1
    exact List.length_pos_iff.mpr this
  rcases E.tmp with ⟨hp, ha⟩ | ⟨t, hp, hne, hlt, ha, hl, hnw, hcap, hcl, hc31⟩
  · simp only at hp ha
    obtain ⟨c, ec, hc1, hc2⟩ := capOf_spec (n := l'.length) (by omega)
    have hr := Store.resize_fresh (zero := zero) (s := tmp) E.sched hpos (by omega) ec hc1 ha
    have hne : h.next ≠ b := by have := E.lt; omega
    have S1 : Sees (h.addBlk (Store.zeroBlk zero c l'.length)) d b l := S.frame (addBlk_ne _ _ (Ne.symm hne))
    obtain ⟨mp, ea⟩ := assign_swap S S1 E.al E.td (by have := E.cap; simp only at this; omega) hr rfl rfl rfl (by simp [Store.zeroBlk])
      (by simpa [Store.zeroBlk] using hc1) hne (by simp only []; omega) (by omega) he hll
    refine ⟨_, _, ea, ?_⟩
    have fr : ((h.addBlk (Store.zeroBlk zero c l'.length)).setCells h.next (fun j => if j < l'.length then l'[j]? else
        ((h.addBlk (Store.zeroBlk zero c l'.length)).blk h.next).cell j)).blk b = h.blk b := by
      rw [setCells_ne _ _ (Ne.symm hne), addBlk_ne _ _ (Ne.symm hne)]
    refine ⟨⟨by rw [fr]; exact E.R.live, by rw [fr]; exact E.R.newed, by rw [fr]; exact E.R.len, by rw [fr]; exact E.R.cell⟩, E.al, E.td, rfl, rfl,
      by simp only [hll]; exact E.cap, by simp; have := E.lt; omega, by simpa using E.sched, hll.symm, hc1, by simp only []; omega,
      h.next, hne, by simp, ⟨rfl, rfl, by simp [Store.zeroBlk], by simpa [Store.zeroBlk] using hc1, fun i hi => ?_⟩,
      by simp [Store.zeroBlk], by simp [Store.zeroBlk]⟩
    rw [setCells_cell, if_pos hi, List.getElem?_eq_getElem hi]
  · simp only at hp ha hcap hcl hc31
    have hr := Store.resize_keep (zero := zero) (h := h) (s := tmp) hpos ha (by omega)
    obtain ⟨mp, ea⟩ := assign_swap S S E.al E.td (by have := E.cap; simp only at this; omega) hr hp ha rfl hl
      (by omega) hne hc31 (by omega) he hll
    refine ⟨_, _, ea, ?_⟩
    have fr : (h.setCells t (fun j => if j < l'.length then l'[j]? else (h.blk t).cell j)).blk b = h.blk b :=
      setCells_ne _ _ (Ne.symm hne)
    refine ⟨⟨by rw [fr]; exact E.R.live, by rw [fr]; exact E.R.newed, by rw [fr]; exact E.R.len, by rw [fr]; exact E.R.cell⟩, E.al, E.td, rfl, ha,
      by simp only [hll]; exact E.cap, by simpa using E.lt, by simpa using E.sched, hll.symm, by simp only []; omega, hc31,
      t, hne, by simpa using hlt, ⟨rfl, rfl, by simpa using hl, by simp only [setCells_len]; omega, fun i hi => ?_⟩, by simpa using hnw, by simpa using hcl⟩
    rw [setCells_cell, if_pos hi, List.getElem?_eq_getElem hi]

theorem odd_even {zero : V} {h : Heap V} {s : SVec} {b : Nat} {l0 l l' : List V} {e : Expr V} (O : Odd h s b l0 l)
    (hL : l.length ≤ 2 ^ 30) (he : eval (fun _ => some l) e = some l') (hll : l'.length = l.length) :
    ∃ h' s', Sexp.assign zero e (h, s) = (.ok (), (h', s')) ∧ Even h' s' b l' := by
  obtain ⟨d, tmp⟩ := s
  obtain ⟨t, hne, hlt, S, hnw, hcl⟩ := O.own
  have hpos : 1 ≤ l'.length := by
    have := (eval_sound S.agrees e he).1
    exact List.length_pos_iff.mpr this
  have hp := O.tp
  have ha := O.ta
  have htc := O.tc
  simp only at hp ha htc S hcl
  have hr := Store.resize_keep (zero := zero) (h := h) (s := tmp) hpos ha (by omega)
  obtain ⟨mp, ea⟩ := assign_swap S S O.al O.td O.cap hr hp ha rfl O.R.live (by rw [O.R.len, O.len, hll]) (Ne.symm hne)
    (by simp only []; omega) (by omega) he hll
  refine ⟨_, _, ea, ?_⟩
  refine ⟨O.R.setCells (by rw [O.len, hll]) fun i => ?_, rfl, rfl, by simp only [htc, hll], O.al, O.td, by simpa using O.lt, by simpa using O.sched,
    .inr ⟨t, rfl, hne, by simpa using hlt, ha, by simpa using S.live, by simpa using hnw, by simp only [hll]; exact O.cap, by simpa using hcl, O.cap'⟩⟩
  by_cases hi : i < l'.length
  · rw [if_pos hi]
  · rw [if_neg hi, O.R.cell, List.getElem?_eq_none (by rw [O.len]; omega), List.getElem?_eq_none (by omega)]

/-- A sequence of assignments. -/
def runAssigns (zero : V) : List (Expr V) → XM V Unit
  | [] => pure ()
  | e :: es => do
    Sexp.assign zero e
    runAssigns zero es

theorem Even.destroy {h : Heap V} {s : SVec} {b : Nat} {l : List V} (E : Even h s b l) :
    ∃ h' s', Sexp.destroy (h, s) = (.ok (), (h', s')) ∧ RHolds h' b l := by
  obtain ⟨d, tmp⟩ := s
  have htd := E.td
  simp only at htd
  unfold Sexp.destroy
  rcases E.tmp with ⟨hp, ha⟩ | ⟨t, hp, hne, hlt, ha, hl, hnw, _⟩
  · simp only at hp ha
    refine ⟨h, ⟨d, tmp⟩, ?_, E.R⟩
    · rw [M.bind_ok (tempM_ok (s := ⟨d, tmp⟩) (Store.dtor_none hp))]
      unfold dtor
      rw [M.bind_ok (m := self) (self_apply _), if_neg (by simp [htd])]
      rfl
  · simp only at hp ha
    have e1 : Store.dtor (h, tmp) = (.ok (), (h.kill t, { tmp with sz := 0, capacity := 0, p := none, allocated := false })) := by
      unfold Store.dtor
      rw [M.bind_ok (m := Store.self) (Store.self_apply _), if_pos (by simp [hp]), if_pos ha, M.bind_ok (a := ()) (s' := (h.kill t, tmp)) (by
        rw [Store.heapM_apply, hp, delete_some hnw hl])]
      rfl
    refine ⟨h.kill t, ⟨d, { tmp with sz := 0, capacity := 0, p := none, allocated := false }⟩, ?_, ?_⟩
    · rw [M.bind_ok (tempM_ok (s := ⟨d, tmp⟩) e1)]
      unfold dtor
      rw [M.bind_ok (m := self) (self_apply _), if_neg (by simp [htd])]
      rfl
    · have fr := kill_ne h (Ne.symm hne)
      exact ⟨by rw [fr]; exact E.R.live, by rw [fr]; exact E.R.newed, by rw [fr]; exact E.R.len, by rw [fr]; exact E.R.cell⟩

theorem Odd.destroy {h : Heap V} {s : SVec} {b : Nat} {l0 l : List V} (O : Odd h s b l0 l) :
    ∃ st, Sexp.destroy (h, s) = (.ub .badFree, st) := by
  obtain ⟨d, tmp⟩ := s
  have hp := O.tp
  have ha := O.ta
  simp only at hp ha
  have e1 : Store.dtor (h, tmp) = (.ub .badFree, (h, tmp)) := by
    unfold Store.dtor
    rw [M.bind_ok (m := Store.self) (Store.self_apply _), if_pos (by simp [hp]), if_pos ha, M.bind_ub (s' := (h, tmp)) (k := .badFree) (by
      rw [Store.heapM_apply, hp, delete_foreign O.R.newed])]
  exact ⟨_, M.bind_ub (tempM_ok (s := ⟨d, tmp⟩) e1)⟩

/-- C67, exactly, for sequences of assignments `x = e` that keep the length: `val k` are the elements of the vector after `k`
assignments.  The vector always shows the right elements, but the R object is updated only by every second assignment, and the
destruction of the vector after an odd number of assignments frees the memory of R. -/
theorem C67_assign_characterised {zero : V} {h : Heap V} {b : Nat} {l : List V} (R : RHolds h b l) (hlt : b < h.next) (hs : h.sched = [])
    (hL : l.length ≤ 2 ^ 30) (dim : Option (Nat × Nat)) (es : List (Expr V)) (val : Nat → List V) (h0 : val 0 = l)
    (hv : ∀ k (hk : k < es.length), eval (fun _ => some (val k)) es[k] = some (val (k + 1)) ∧ (val (k + 1)).length = l.length) :
    ∃ h' s', runAssigns zero es (h, ⟨ofR b l.length dim, {}⟩) = (.ok (), (h', s')) ∧ s'.d.sz = l.length ∧
      (∀ i (hi : i < (val es.length).length), s'.d.get h' i = .ok (val es.length)[i]) ∧
      (es.length % 2 = 0 → RHolds h' b (val es.length) ∧ ∃ h'' s'', destroy (h', s') = (.ok (), (h'', s'')) ∧ RHolds h'' b (val es.length)) ∧
      (es.length % 2 = 1 → RHolds h' b (val (es.length - 1)) ∧ ∃ st, destroy (h', s') = (.ub .badFree, st)) := by
  have E0 : Even h ⟨ofR b l.length dim, {}⟩ b l := ⟨R, rfl, rfl, rfl, rfl, rfl, hlt, hs, .inl ⟨rfl, rfl⟩⟩
  have key : ∀ (n : Nat) (es : List (Expr V)) (val : Nat → List V) (h : Heap V) (s : SVec), es.length = n →
      (∀ k (hk : k < es.length), eval (fun _ => some (val k)) es[k] = some (val (k + 1)) ∧ (val (k + 1)).length = l.length) →
      (val 0).length = l.length → Even h s b (val 0) →
      ∃ h' s', runAssigns zero es (h, s) = (.ok (), (h', s')) ∧ (val es.length).length = l.length ∧
        (es.length % 2 = 0 → Even h' s' b (val es.length)) ∧
        (es.length % 2 = 1 → Odd h' s' b (val (es.length - 1)) (val es.length)) := by
    intro n
    induction n using Nat.strong_induction_on with
    | _ n ih =>
      intro es val h s hn hv hl0 E
      match es with
      | [] => exact ⟨h, s, rfl, hl0, fun _ => E, by simp⟩
      | [e] =>
        obtain ⟨a1, a2⟩ := hv 0 (by simp)
        obtain ⟨h', s', e1, O⟩ := even_odd (zero := zero) E (by omega) a1 (by omega)
        refine ⟨h', s', ?_, a2, by simp, fun _ => by simpa using O⟩
        exact (M.bind_ok (m := Sexp.assign zero e) e1).trans rfl
      | e :: e' :: es =>
        obtain ⟨a1, a2⟩ := hv 0 (by simp)
        obtain ⟨b1, b2⟩ := hv 1 (by simp)
        obtain ⟨h1, s1, e1, O⟩ := even_odd (zero := zero) E (by omega) a1 (by omega)
        obtain ⟨h2, s2, e2, E2⟩ := odd_even (zero := zero) O (by omega) b1 (by omega)
        simp only [List.length_cons] at hn
        obtain ⟨h', s', e3, c1, c2, c3⟩ := ih es.length (by omega) es (fun k => val (k + 2)) h2 s2 rfl (by
          intro k hk
          have := hv (k + 2) (by simp; omega)
          simpa using this) b2 E2
        refine ⟨h', s', ?_, by simpa using c1, ?_, ?_⟩
        · exact (M.bind_ok (m := Sexp.assign zero e) e1).trans ((M.bind_ok (m := Sexp.assign zero e') e2).trans e3)
        · intro hm
          simp only [List.length_cons] at hm ⊢
          exact c2 (by omega)
        · intro hm
          simp only [List.length_cons] at hm ⊢
          have := c3 (by omega)
          rw [show es.length + 1 + 1 - 1 = es.length - 1 + 2 by omega]
          exact this
  obtain ⟨h', s', e, c1, c2, c3⟩ := key es.length es val h ⟨ofR b l.length dim, {}⟩ rfl hv (by rw [h0]) (by rw [h0]; exact E0)
  refine ⟨h', s', e, ?_, ?_, ?_, ?_⟩
  · rcases Nat.mod_two_eq_zero_or_one es.length with hm | hm
    · rw [(c2 hm).sz, c1]
    · obtain ⟨t, _, _, S, _⟩ := (c3 hm).own
      rw [S.sz, c1]
  · intro i hi
    rcases Nat.mod_two_eq_zero_or_one es.length with hm | hm
    · have E := c2 hm
      exact Sees.get ⟨E.p, E.sz, E.R.live, by rw [E.R.len], fun i hi => by rw [E.R.cell, List.getElem?_eq_getElem hi]⟩ hi
    · obtain ⟨t, _, _, S, _⟩ := (c3 hm).own
      exact S.get hi
  · intro hm
    exact ⟨(c2 hm).R, (c2 hm).destroy⟩
  · intro hm
    exact ⟨(c3 hm).R, (c3 hm).destroy⟩

/-- C67 is false for every assignment of a vector of the same length: the R object keeps its old elements, and the destruction of the
vector frees the memory of R. -/
theorem C67_assign_false {zero : V} {h : Heap V} {b : Nat} {l l' : List V} (R : RHolds h b l) (hlt : b < h.next) (hs : h.sched = [])
    (hL : l.length ≤ 2 ^ 30) (dim : Option (Nat × Nat)) {e : Expr V} (he : eval (fun _ => some l) e = some l') (hl : l'.length = l.length) :
    ∃ h' s', Sexp.assign zero e (h, ⟨ofR b l.length dim, {}⟩) = (.ok (), (h', s')) ∧ RHolds h' b l ∧
      ∃ st, destroy (h', s') = (.ub .badFree, st) := by
  obtain ⟨h', s', e1, _, _, _, c⟩ := C67_assign_characterised (zero := zero) R hlt hs hL dim [e]
    (fun k => if k = 0 then l else l') rfl (by
      intro k hk
      have : k = 0 := by simpa using hk
      subst this
      exact ⟨he, hl⟩)
  obtain ⟨c1, c2⟩ := c (by simp)
  refine ⟨h', s', ?_, by simpa using c1, c2⟩
  have : (Sexp.assign zero e >>= fun _ => pure ()) = Sexp.assign zero e := by
    exact bind_pure (m := M (Heap V × SVec)) _
  rw [← this]; exact e1

/-- C67 is false for every assignment of a longer vector: it frees the memory of R at once. -/
theorem C67_grow_false {zero : V} {h : Heap V} {b : Nat} {l l' : List V} (R : RHolds h b l) (hlt : b < h.next) (hs : h.sched = [])
    (dim : Option (Nat × Nat)) {e : Expr V} (he : eval (fun _ => some l) e = some l') (hl : l.length < l'.length) (hL : l'.length ≤ 2 ^ 30) :
    ∃ st, Sexp.assign zero e (h, ⟨ofR b l.length dim, {}⟩) = (.ub .badFree, st) := by
  have S : Sees h (ofR b l.length dim) b l :=
    ⟨rfl, rfl, R.live, by rw [R.len], fun i hi => by rw [R.cell, List.getElem?_eq_getElem hi]⟩
  obtain ⟨hne', hsz, _⟩ := eval_sound S.agrees e he
  obtain ⟨c, ec, hc1, hc2⟩ := capOf_spec (n := l'.length) (by omega)
  have hr := Store.resize_fresh (zero := zero) (s := ({} : Store)) hs (show 1 ≤ l'.length by omega) (by omega) ec hc1 rfl
  have hne : h.next ≠ b := by omega
  have S1 : Sees (h.addBlk (Store.zeroBlk zero c l'.length)) (ofR b l.length dim) b l := S.frame (addBlk_ne _ _ (Ne.symm hne))
  have e0 : (M.reads (fun st : Heap V × SVec => Out.ok (e.size (env st.1 st.2.d)))) (h, ⟨ofR b l.length dim, {}⟩)
      = (.ok l'.length, (h, ⟨ofR b l.length dim, {}⟩)) := by
    rw [M.reads_apply, hsz]
  have ef := fillTemp S1 (tmp := { ({} : Store) with p := some h.next, sz := l'.length, capacity := c, allocated := true })
    rfl rfl rfl (by simp [Store.zeroBlk]) (by simpa [Store.zeroBlk] using hc1) hne he
  have er : ∀ (h' : Heap V) (tmp : Store), (h'.blk b).newed = false →
      Sexp.resize zero l'.length (h', ⟨ofR b l.length dim, tmp⟩) = (.ub .badFree, (h', ⟨ofR b l.length dim, tmp⟩)) := by
    intro h' tmp hn
    unfold Sexp.resize
    rw [M.bind_ok (M.ass_pos (by omega) _), M.bind_ok (m := self) (self_apply _), if_neg (by simp [ofR]), if_pos (by simpa [ofR] using hl),
      M.bind_ok (M.ass_pos (by simp [ofR]) _), M.bind_ub]
    rw [heapM_apply]
    simp only [ofR]
    rw [delete_foreign hn]
  unfold Sexp.assign assignBy
  rw [M.bind_ok e0, M.bind_ok (tempM_ok (s := ⟨ofR b l.length dim, {}⟩) hr), M.bind_ok ef,
    M.bind_ok (m := self) (self_apply _), if_pos (by simp only [S.sz]; omega)]
  exact ⟨_, M.bind_ub (er _ _ (by rw [setCells_newed, addBlk_ne _ _ (Ne.symm hne)]; exact R.newed))⟩

/-- C67 is false for `push_back`: it frees the memory of R. -/
theorem C67_push_false {zero v : V} {h : Heap V} {b : Nat} {l : List V} (R : RHolds h b l) (hlt : b < h.next) (hs : h.sched = [])
    (hL : l.length ≤ 2 ^ 29) (dim : Option (Nat × Nat)) :
    ∃ st, Sexp.pushBack zero v (h, ⟨ofR b l.length dim, {}⟩) = (.ub .badFree, st) := by
  have hn : ∃ n, n = (if l.length = 0 then 1 else l.length * 2) ∧ l.length < n ∧ n ≤ 2 ^ 30 := by
    refine ⟨_, rfl, ?_⟩; split <;> omega
  obtain ⟨n, en, hn1, hn2⟩ := hn
  obtain ⟨c, ec, _, hc1, hc2⟩ := capOfI32_spec (n := n) (by omega)
  have hne : h.next ≠ b := by omega
  have loop1 : ∀ (s : SVec) k, k ≤ l.length → ∃ f, M.forN k (fun i => do
      let v ← M.reads (fun st : Heap V × SVec => st.1.load (some b) i)
      heapM (Heap.store (some h.next) i v)) (h.addBlk ⟨c, fun _ => none, true, true⟩, s)
      = (.ok (), (h.addBlk ⟨c, f, true, true⟩, s)) := by
    intro s k
    induction k with
    | zero => intro _; exact ⟨_, rfl⟩
    | succ k ih =>
      intro hk
      obtain ⟨f, ef⟩ := ih (by omega)
      refine ⟨fun j => if j = k then some l[k] else f j, ?_⟩
      rw [M.forN_succ, M.bind_ok ef, M.bind_ok (a := l[k]) (s' := (h.addBlk ⟨c, f, true, true⟩, s)) (by
        rw [M.reads_apply, load_some (by rw [addBlk_ne _ _ (Ne.symm hne)]; exact R.live)
          (by rw [addBlk_ne _ _ (Ne.symm hne), R.len]; omega)
          (by rw [addBlk_ne _ _ (Ne.symm hne), R.cell, List.getElem?_eq_getElem (by omega)])])]
      rw [heapM_apply, store_some (by simp) (by simp; omega), addBlk_setCells]
      simp
  have loop2 : ∀ (s : SVec) (f : Nat → Option V) k, l.length + k ≤ c → ∃ g, M.forN k (fun i => heapM (Heap.store (some h.next) (l.length + i) zero))
      (h.addBlk ⟨c, f, true, true⟩, s) = (.ok (), (h.addBlk ⟨c, g, true, true⟩, s)) := by
    intro s f k
    induction k with
    | zero => intro _; exact ⟨f, rfl⟩
    | succ k ih =>
      intro hk
      obtain ⟨g, eg⟩ := ih (by omega)
      refine ⟨fun j => if j = l.length + k then some zero else g j, ?_⟩
      rw [M.forN_succ, M.bind_ok eg, heapM_apply, store_some (by simp) (by simp; omega), addBlk_setCells]
      simp
  unfold Sexp.pushBack
  rw [M.bind_ok (m := self) (self_apply _), if_pos (by rfl)]
  simp only [show (ofR b l.length dim).sz = l.length from rfl, ← en]
  have er : ∃ st, Sexp.realloc zero n (h, ⟨ofR b l.length dim, {}⟩) = (.ub .badFree, st) := by
    unfold Sexp.realloc
    rw [M.bind_ok (m := self) (self_apply _), if_neg (by simpa [ofR] using hn1), M.bind_ok (a := c) (by rw [M.lift_apply, ec]),
      M.bind_ok (m := upd _) (upd_apply _ _), M.bind_ok (a := h.next) (by rw [heapM_apply, new_ok hs (by omega)])]
    obtain ⟨f, ef⟩ := loop1 ⟨{ ofR b l.length dim with capacity := c }, {}⟩ l.length (le_refl _)
    obtain ⟨g, eg⟩ := loop2 ⟨{ ofR b l.length dim with capacity := c }, {}⟩ f (n - l.length) (by omega)
    simp only [show (ofR b l.length dim).p = some b from rfl, show (ofR b l.length dim).sz = l.length from rfl] at ef eg ⊢
    rw [M.bind_ok ef, M.bind_ok eg, M.bind_ok (m := upd _) (upd_apply _ _)]
    have ed : ∀ s : SVec, heapM (Heap.delete (some b)) (h.addBlk ⟨c, g, true, true⟩, s) = (.ub .badFree, (h.addBlk ⟨c, g, true, true⟩, s)) := by
      intro s
      rw [heapM_apply, delete_foreign (by rw [addBlk_ne _ _ (Ne.symm hne)]; exact R.newed)]
    exact ⟨_, M.bind_ub (ed _)⟩
  obtain ⟨st, er⟩ := er
  exact ⟨st, by rw [M.bind_ub er]⟩

/-- C67 is false for the assignment of another R object to the same vector: it frees the memory of the first. -/
theorem C67_again_false {h : Heap V} {b : Nat} {l : List V} (R : RHolds h b l) (dim : Option (Nat × Nat)) (b' n : Nat)
    (dim' : Option (Nat × Nat)) :
    ∃ st, Sexp.assignSEXP b' n dim' (h, ⟨ofR b l.length dim, {}⟩) = (.ub .badFree, st) := by
  refine ⟨(h, ⟨ofR b l.length dim, {}⟩), ?_⟩
  unfold Sexp.assignSEXP
  rw [M.bind_ok (m := self) (self_apply _), if_pos (by rfl), M.bind_ok (M.ass_pos (by simp [ofR]) _), M.bind_ub]
  rw [heapM_apply]
  simp only [ofR]
  rw [delete_foreign R.newed]

/-- The R vector (1, 2, 3), assigned `x = x + x` once: it still is (1, 2, 3). -/
example : ∃ h' s', Sexp.assign 0 (.bin (fun a c => .ok (a + c)) (.leaf 0) (.leaf 0)) (((Heap.empty.foreign [1, 2, 3]).1 : Heap Nat),
    ⟨ofR 0 3 none, {}⟩) = (.ok (), (h', s')) ∧ RHolds h' 0 [1, 2, 3] ∧ ∃ st, destroy (h', s') = (.ub .badFree, st) :=
  C67_assign_false (l' := [2, 4, 6]) (RHolds.foreign Heap.empty [1, 2, 3]) (by simp [Heap.foreign]) rfl (by simp) none (by decide) rfl

/-- `C67_assign_characterised` for two assignments: the R object holds the result. -/
example : ∃ h' s', runAssigns 0 [.bin (fun a c => .ok (a + c)) (.leaf 0) (.leaf 0), .un (fun a => .ok (a + 1)) (.leaf 0)]
    (((Heap.empty.foreign [1, 2, 3]).1 : Heap Nat), ⟨ofR 0 3 none, {}⟩) = (.ok (), (h', s')) ∧ RHolds h' 0 [3, 5, 7] := by
  obtain ⟨h', s', e, _, _, h, _⟩ := C67_assign_characterised (zero := 0) (RHolds.foreign Heap.empty [1, 2, 3]) (by simp [Heap.foreign]) rfl
    (by simp) none [.bin (fun a c => .ok (a + c)) (.leaf 0) (.leaf 0), .un (fun a => .ok (a + 1)) (.leaf 0)]
    (fun k => match k with | 0 => [1, 2, 3] | 1 => [2, 4, 6] | _ => [3, 5, 7]) rfl (fun k hk => by
      match k, hk with
      | 0, _ => exact ⟨rfl, rfl⟩
      | 1, _ => exact ⟨rfl, rfl⟩)
  exact ⟨h', s', e, (h rfl).1⟩

end Sexp
end ETR
