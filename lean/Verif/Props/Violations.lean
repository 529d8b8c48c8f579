import Verif.Props.Program
import Verif.Props.Frame
import Verif.Props.Assign
import Verif.Props.MatSubset
import Verif.Props.Memory

/-! Concrete programs that violate C06, C11, C18, C19, C41 and C83 on the machine. -/

namespace ETR
namespace Mach
open Store

/-- C06 is false: `Vec<int> a(SI{1}); try { a.resize(2^60); } catch (...) {}` releases the memory of `a` before the allocation fails
(BaseStore.hpp 262-276); the destructor of `a` releases it a second time. -/
theorem C06_false : ∃ s, runAll (0 : Int) [.declSize 1] start = (none, s) ∧ (exec 0 (.resize 0 (2 ^ 60)) s).1 = .thr "std::bad_alloc" ∧
    (runAll (0 : Int) [.declSize 1, .resize 0 (2 ^ 60), .destroy 0] start).1 = some .badFree :=
  ⟨(runAll (0 : Int) [.declSize 1] start).2, Prod.ext (by decide +kernel) rfl, by decide +kernel, by decide +kernel⟩

/-- C11 is false for long vectors: after `a = e` with `2^31` elements the size of `a` is not `2^31`. -/
theorem C11_false_length : ∃ s' : Mach Int, runAll (0 : Int)
      [.declDefault, .assign .ok 0 (.rvec (List.replicate (2 ^ 31) 7) {})] start = (none, s') ∧
    s'.env.size 0 ≠ 0 ∧ s'.env.size 0 ≠ (Expr.rvec (List.replicate (2 ^ 31) 7) {}).size s'.env := by
  obtain ⟨s', e1, e2⟩ := C16_false_length
  refine ⟨s', e1, by rw [e2]; decide, ?_⟩
  rw [e2, Expr.size, List.length_replicate]
  decide

/-- C18 is false: `Vec<int> a; a = c(1, 2); a = c(3, 4);` throws an exception. -/
theorem C18_false : (runOk (0 : Int) [.declDefault, .assign .ok 0 (.rvec [1, 2] {}), .assign .ok 0 (.rvec [3, 4] {})] start).1
    = .thr "try to delete nullptr" := by decide +kernel

/-- C19 is false: let `x` be a vector on the memory `p` of the caller, allocated with `new[]`.  After `x.d.fill(<temporary>)`
(Borrow.hpp 106-111) `x[0] = 9` is not a write to `p[0]`: the element is in the memory of the temporary, and `p` is released. -/
theorem C19_false :
    let c := Store.ctorSize (0 : Int) 3 (Heap.empty, {})
    let bor : Store := { p := c.2.2.p, sz := 3, capacity := 3, allocated := true }
    let t := Store.ctorSize 0 3 (c.2.1, {})
    let f := Store.fillRVec t.2.2 (t.2.1, bor)
    let g := Store.set 0 9 f.2
    f.1.isOk = true ∧ g.1 = .ok () ∧ g.2.2.get g.2.1 0 = .ok 9 ∧ g.2.1.load c.2.2.p 0 = .ub .useAfterFree ∧
      g.2.1.load t.2.2.p 0 = .ok 9 := by
  decide +kernel

/-- C41 is false for two indices of type `double` (C37): `m(1.0, 3.0) = 7` for a matrix with 2 rows and 3 columns changes the cell in
row 2 and column 1. -/
theorem C41_false : ∃ s ind mp, runAll (0 : Int) [.declMat 2 3] start = (none, s) ∧
    subsetM s.env (.leaf 0) (.dbl (.fin 1)) (.dbl (.fin 3)) [] = (.ok (.sub (.leaf 0) ind mp), []) ∧
    (exec 0 (.subAssignScalar 0 ind 7) s).1 = .ok () ∧
    (List.range 6).map ((exec 0 (.subAssignScalar 0 ind 7) s).2.env.get 0) = [0, 7, 0, 0, 0, 0].map Out.ok :=
  ⟨(runAll (0 : Int) [.declMat 2 3] start).2, [1], ⟨false, 0, 0⟩, Prod.ext (by decide +kernel) rfl,
    subsetM_of_calc (nr := 2) (nc := 3) (l := List.replicate 6 0) (im := ([1], ⟨false, 0, 0⟩))
      ⟨⟨by decide +kernel, by decide +kernel⟩, by decide +kernel, by decide +kernel, by decide +kernel, by decide +kernel⟩
      (by decide +kernel), by decide +kernel, by decide +kernel⟩

/-! ### C83: long right-hand sides allocate at every assignment -/

/-- The state of vector `0` before each of the assignments of `n` elements: two blocks, both with a capacity below `n`. -/
structure Short (n : Nat) (s : Mach Int) : Prop where
  sched : s.heap.sched = []
  bor : s.bor 0 = false
  d : Own s.heap (s.st (0, false))
  t : Own s.heap (s.st (0, true))
  dp : (s.st (0, false)).p ≠ none
  tp : (s.st (0, true)).allocated = true → (s.st (0, true)).p ≠ none
  apart : ∀ b, (s.st (0, false)).p = some b → (s.st (0, true)).p ≠ some b
  dc : (s.st (0, false)).capacity < n
  tc : (s.st (0, true)).capacity < n

theorem resize_next {zero : Int} {h h' : Heap Int} {s s' : Store} {n : Nat} (hs : h.sched = []) (w : Own h s) (h1 : 1 ≤ n) (h2 : n ≤ 2 ^ 59)
    (hal : s.allocated = true → s.p ≠ none) (hc : s.capacity < n) (e : Store.resize zero n (h, s) = (.ok (), (h', s'))) :
    h'.next = h.next + 1 ∧ capOf n = .ok s'.capacity := by
  obtain ⟨c, ec, hc1, hc2⟩ := capOf_spec (n := n) (by omega)
  cases hp : s.p with
  | none =>
    have ha : s.allocated = false := by
      cases ha : s.allocated with
      | false => rfl
      | true => exact absurd hp (hal ha)
    rw [resize_fresh hs h1 (by omega) ec hc1 ha] at e
    cases e
    exact ⟨rfl, ec⟩
  | some b =>
    rw [resize_grow hs h1 (by omega) ec hc1 w hp hc] at e
    cases e
    exact ⟨rfl, ec⟩

/-- The capacity of `2^32` elements, after it went through `int`. -/
theorem cap_wraps {c : Nat} (h : capOf (2 ^ 32) = .ok c) : wrap64 (wrapI32 c) < 2 ^ 32 ∧ wrap64 (wrapI32 c) ≤ c := by
  obtain ⟨c', ec, h1, h2⟩ := capOf_spec (n := 2 ^ 32) (by norm_num)
  rw [h] at ec
  cases ec
  have e1 : c % 4294967296 = c - 4294967296 := by omega
  have e2 : wrapI32 c = ((c - 4294967296 : Nat) : Int) := by
    unfold wrapI32
    simp only [e1]
    rw [if_pos (by omega)]
  rw [e2, wrap64_small (by omega)]
  omega

theorem Short.assign {s : Mach Int} (h : Short (2 ^ 32) s) : ∃ s', exec 0 (.assign .ok 0 (.rvec (List.replicate (2 ^ 32) 7) {})) s = (.ok (), s') ∧
    Short (2 ^ 32) s' ∧ s'.heap.next = s.heap.next + 1 := by
  obtain ⟨n, hn⟩ : ∃ n, n = 2 ^ 32 := ⟨_, rfl⟩
  have cw : ∀ {c}, capOf n = .ok c → wrap64 (wrapI32 c) < n ∧ wrap64 (wrapI32 c) ≤ c := by rw [hn]; exact cap_wraps
  have n1 : 1 ≤ n := by rw [hn]; norm_num
  have n2 : n ≤ 2 ^ 59 := by rw [hn]; norm_num
  rw [← hn] at h ⊢
  clear hn
  obtain ⟨ha, t1, e1, w1, st1, z1, al1, _⟩ := resize_spec (zero := (0 : Int)) (n := n) h.sched h.t h.tp n1 n2
  obtain ⟨x1, x2⟩ := resize_next h.sched h.t n1 n2 h.tp h.tc e1
  set e : Expr Int := .rvec (List.replicate n 7) {} with he
  have hsz : e.size s.env = n := by simp [he, Expr.size]
  obtain ⟨hb, e2, w2, sh2, st2⟩ := slotLoop (s0 := s) (z := (0, true)) (g := fun i s => e.el s.env i >>= Out.ok) (L := List.replicate n 7) w1
    (by simp [z1]) (fun i hi h' _ st' => by
      rw [he]
      simp only [Expr.el, getL, List.getElem?_eq_getElem hi]
      rfl)
  simp only [List.length_replicate] at e2
  have hnx : hb.next = ha.next := by
    have := KP.forN (P := fun s1 : Mach Int => s1.heap.next = ha.next ∧ s1.st = (s.put (0, true) (ha, t1)).st) n
      (f := fun i => do let v ← M.reads (fun s => e.el s.env i >>= Out.ok); onSlot (0, true) (Store.set i v))
      (fun i _ => KP.bind (KP.reads _) (fun v => slotSet_count)) (s.put (0, true) (ha, t1)) ⟨rfl, rfl⟩
    rw [e2] at this
    exact this.1
  have hft : fillTemp 0 Out.ok 0 e s = (.ok (), s.put (0, true) (hb, t1)) := by
    unfold fillTemp
    rw [M.bind_ok (M.get_apply _), hsz, M.bind_ok (onSlot_ok e1)]
    simp only [M.reads_lift]
    exact e2
  set s1 := s.put (0, true) (hb, t1) with hs1
  set s2 : Mach Int := { s1 with st := fun y =>
    if y = (0, false) then (moveit (s1.st (0, false)) (s1.st (0, true))).1
    else if y = (0, true) then (moveit (s1.st (0, false)) (s1.st (0, true))).2 else s1.st y } with hs2
  have hmv : moveTemp 0 s1 = (.ok (), s2) := rfl
  refine ⟨s2, ?_, ?_, ?_⟩
  · show Mach.assign 0 Out.ok 0 e s = _
    unfold Mach.assign
    rw [M.bind_ok (M.get_apply _), if_neg (by simp [h.bor])]
    unfold assignBuffer
    rw [M.bind_ok hft, M.bind_ok hmv]
    unfold setDims
    rw [M.bind_ok (M.get_apply _), if_neg (by simp [he, Expr.im])]
    rfl
  · have d1 : s1.st (0, false) = s.st (0, false) := put_ne _ _ (by simp)
    have d2 : s1.st (0, true) = t1 := put_same _ _ _
    have t2p : t1.p ≠ none := by
      intro hp
      have := (w1.null hp).1
      omega
    obtain ⟨b, hp⟩ := Option.ne_none_iff_exists'.mp t2p
    obtain ⟨q1, q2, q3, q4, q5, q6⟩ := w2.ptr b hp
    obtain ⟨bd, hd⟩ := Option.ne_none_iff_exists'.mp h.dp
    obtain ⟨p1, p2, p3, p4, p5⟩ := h.d.ptr bd hd
    have hne : bd ≠ b := by
      rintro rfl
      rcases st1.ptr bd hp with g | g
      · exact h.apart bd hd g
      · omega
    have hblk : hb.blk bd = s.heap.blk bd := by
      rw [st2.frame bd (by have := st1.next_le; omega) (by rw [hp]; simpa using Ne.symm hne), st1.frame bd p1 (h.apart bd hd)]
    have f1 : s2.st (0, false) = { s.st (0, false) with p := t1.p, sz := wrap64 (wrapI32 t1.sz), capacity := wrap64 (wrapI32 t1.capacity), allocated := true } := by
      simp only [hs2, if_true, moveit, d1, d2]
    have f2 : s2.st (0, true) = { t1 with p := (s.st (0, false)).p, sz := (s.st (0, false)).sz, capacity := (s.st (0, false)).capacity } := by
      simp [hs2, moveit, d1, d2]
    have hh : s2.heap = hb := rfl
    refine ⟨st2.sched (st1.sched h.sched), h.bor, ?_, ?_, ?_, ?_, ?_, ?_, ?_⟩
    · rw [f1, hh]
      refine ⟨fun b' hb' => ?_, fun hn => absurd hn (by simpa using t2p)⟩
      simp only [hp, Option.some.injEq] at hb'
      subst hb'
      exact ⟨q1, q2, q3, by have := (cw x2).2; simp only; omega, rfl⟩
    · rw [f2, hh]
      refine ⟨fun b' hb' => ?_, fun hn => absurd hn (by simpa using h.dp)⟩
      simp only [hd, Option.some.injEq] at hb'
      subst hb'
      rw [hblk]
      have := st1.next_le
      have := st2.next_le
      exact ⟨by omega, p2, p3, p4, al1⟩
    · rw [f1]; exact t2p
    · rw [f2]; exact fun _ => h.dp
    · rw [f1, f2]
      intro b' hb'
      simp only [hp, Option.some.injEq] at hb'
      simp only [hd]
      subst hb'
      simpa using hne
    · rw [f1]; exact (cw x2).1
    · rw [f2]; exact h.dc
  · show hb.next = _
    omega

/-- C83 is false for long right-hand sides: every assignment of `2^32` elements allocates a block, since the capacity passes through an `int`
(BaseStore.hpp 295-307). -/
theorem C83_false (k : Nat) : ∃ s', runAll (0 : Int) (.declSize 1 :: List.replicate k (.assign .ok 0 (.rvec (List.replicate (2 ^ 32) 7) {}))) start
    = (none, s') ∧ s'.heap.next = 1 + k := by
  have loop : ∀ k (s : Mach Int), Short (2 ^ 32) s → ∃ s', runAll (0 : Int) (List.replicate k (.assign .ok 0 (.rvec (List.replicate (2 ^ 32) 7) {}))) s
      = (none, s') ∧ s'.heap.next = s.heap.next + k := by
    intro k
    induction k with
    | zero => exact fun s _ => ⟨s, rfl, rfl⟩
    | succ k ih =>
      intro s h
      obtain ⟨s1, e1, h1, n1⟩ := h.assign
      obtain ⟨s2, e2, n2⟩ := ih s1 h1
      refine ⟨s2, ?_, by omega⟩
      rw [List.replicate_succ, runAll, e1]
      exact e2
  have e0 : exec (0 : Int) (.declSize 1) start = (.ok (), (exec (0 : Int) (.declSize 1) start).2) := Prod.ext (by decide +kernel) rfl
  have h0 : Short (2 ^ 32) (exec (0 : Int) (.declSize 1) start).2 := by
    have r : Reach (0 : Int) (exec (0 : Int) (.declSize 1) start).2 :=
      ⟨[.declSize 1], .cons (by show _ ≤ _; decide) trivial, by rw [runAll, e0]; rfl⟩
    have I := r.inv
    refine ⟨by decide +kernel, by decide +kernel, (I.d 0 (by decide +kernel)).wf.own, (I.t 0).own, by decide +kernel, by decide +kernel, ?_, by decide +kernel, by decide +kernel⟩
    intro b _
    rw [show ((exec (0 : Int) (.declSize 1) start).2.st (0, true)).p = none from by decide +kernel]
    simp
  obtain ⟨s', e', n'⟩ := loop k _ h0
  refine ⟨s', ?_, ?_⟩
  · rw [runAll, e0]; exact e'
  · rw [n', show (exec (0 : Int) (.declSize 1) start).2.heap.next = 1 from by decide +kernel]

end Mach
end ETR
