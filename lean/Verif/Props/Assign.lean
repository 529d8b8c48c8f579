import Verif.Props.Machine
import Verif.Lemmas.MachBor

/-! Assignment: C11, C12, C13, C16, C20. -/

namespace ETR
namespace Mach
open Store Spec

variable {V : Type}

/-! ## Reachable states -/

theorem runAll_append {zero : V} : ∀ (cs ds : List (Cmd V)) (s s1 : Mach V),
    runAll zero cs s = (none, s1) → runAll zero (cs ++ ds) s = runAll zero ds s1 := by
  intro cs
  induction cs with
  | nil => intro ds s s1 h; simp only [runAll, Prod.mk.injEq, true_and] at h; rw [← h]; rfl
  | cons c cs ih =>
    intro ds s s1 h
    rw [List.cons_append, runAll]
    rw [runAll] at h
    rcases hm : exec zero c s with ⟨o, s2⟩
    rw [hm] at h
    cases o with
    | ub k => simp at h
    | ok u => exact ih ds s2 s1 h
    | thr e => exact ih ds s2 s1 h

theorem AllowedAll.append {zero : V} : ∀ (cs ds : List (Cmd V)) (s s1 : Mach V),
    AllowedAll zero cs s → runAll zero cs s = (none, s1) → AllowedAll zero ds s1 →
    AllowedAll zero (cs ++ ds) s := by
  intro cs
  induction cs with
  | nil => intro ds s s1 _ h hd; simp only [runAll, Prod.mk.injEq, true_and] at h; rw [h]; exact hd
  | cons c cs ih =>
    intro ds s s1 ha h hd
    refine ⟨ha.1, ?_⟩
    have h2 := ha.2
    rw [runAll] at h
    rcases hm : exec zero c s with ⟨o, s2⟩
    rw [hm] at h h2
    cases o with
    | ub k => trivial
    | ok u => exact ih ds s2 s1 h2 h hd
    | thr e => exact ih ds s2 s1 h2 h hd

theorem Reach.runAll {zero : V} {s s' : Mach V} (r : Reach zero s) {ds : List (Cmd V)}
    (ha : AllowedAll zero ds s) (h : Mach.runAll zero ds s = (none, s')) : Reach zero s' := by
  obtain ⟨cs, hc, e⟩ := r
  exact ⟨cs ++ ds, AllowedAll.append cs ds _ _ hc e ha, by rw [runAll_append cs ds _ _ e, h]⟩

theorem Reach.step {zero : V} {s s' : Mach V} (r : Reach zero s) {c : Cmd V} (ha : s.Allowed c)
    {o : Out Unit} (h : exec zero c s = (o, s')) (ho : ∀ k, o ≠ .ub k) : Reach zero s' := by
  have hrun : Mach.runAll zero [c] s = (none, s') := by
    rw [Mach.runAll, h]
    cases o with
    | ub k => exact absurd rfl (ho k)
    | ok u => rfl
    | thr e => rfl
  refine r.runAll (ds := [c]) ⟨ha, ?_⟩ hrun
  rw [h]
  cases o <;> trivial

theorem Reach.start (zero : V) : Reach zero (start : Mach V) := ⟨[], trivial, rfl⟩

/-- In reachable states borrowed vectors have a usable `temp`. -/
theorem Reach.good {zero : V} {s : Mach V} (r : Reach zero s) {x : Nat} (hb : s.bor x = true) :
    Good (s.st (x, true)) := by
  obtain ⟨cs, ha, e⟩ := r
  exact (runAll_ready (a := false) (x := x) cs Mach.start Inv.start ha (by simp)
    (Ready.triv rfl rfl) s e).good (Or.inl hb)

/-! ## C11 snapshot semantics -/

/-- The values of the right-hand side before the assignment, converted to the element type. -/
def Evals (s : Mach V) (conv : V → Out V) (e : Expr V) (L : List V) : Prop :=
  L.length = e.size s.env ∧ ∀ i (hi : i < L.length), (e.el s.env i >>= conv) = .ok L[i]

theorem assign_ok_cases {zero : V} {s s' : Mach V} (r : Reach zero s) {conv : V → Out V} {x : Nat}
    {e : Expr V} (hlt : x < s.n) (hlim : e.size s.env ≤ 2 ^ 30)
    (h : exec zero (.assign conv x e) s = (.ok (), s')) :
    ∃ L : List V, L ≠ [] ∧ Evals s conv e L ∧ ShowsVar s' x L ∧ s'.env.mp x = newMp s x e ∧
      (s.bor x = false → ∀ y, y ≠ x → SameVar s s' y) ∧
      (s.bor x = true → (s.st (x, false)).sz ≤ L.length ∧ L.length ≤ (s.st (x, false)).capacity) := by
  have I := r.inv
  replace h : Mach.assign zero conv x e s = (.ok (), s') := h
  have hp := fillTemp_post (zero := zero) (conv := conv) (t := x) (e := e) I hlim
  cases hb : s.bor x with
  | false =>
    have h' := h
    unfold Mach.assign at h'
    rw [M.bind_ok (M.get_apply _), if_neg (by rw [hb]; simp)] at h'
    unfold assignBuffer at h'
    rw [M.bind_apply] at h'
    rcases hm : fillTemp zero conv x e s with ⟨o, s1⟩
    rw [hm] at h' hp
    cases o with
    | ub k => simp at h'
    | thr m => simp at h'
    | ok u =>
      obtain ⟨hg, L, hL, hsz, hel⟩ := hp
      obtain ⟨s2, e2, sh, mp, sv, _⟩ := I.assign (zero := zero) hlt hb hg hsz hel hL (by omega)
      rw [h] at e2
      simp only [Prod.mk.injEq, true_and] at e2
      subst e2
      exact ⟨L, hL, ⟨hsz.symm, hel⟩, sh, mp, fun _ => sv, by simp⟩
  | true =>
    obtain ⟨b, hpb, _⟩ := (I.b x hb).ptr
    have h' := h
    unfold Mach.assign at h'
    rw [M.bind_ok (M.get_apply _), if_pos hb] at h'
    unfold assignBorrow at h'
    rw [M.bind_ok (M.get_apply _)] at h'
    by_cases hc : e.size s.env ≤ (s.st (x, false)).capacity
    · rw [M.bind_ok (M.ass_pos hc _), M.bind_apply] at h'
      rcases hm : fillTemp zero conv x e s with ⟨o, s1⟩
      rw [hm] at h' hp
      cases o with
      | ub k => simp at h'
      | thr m => simp at h'
      | ok u =>
        obtain ⟨hg, L, hL, hsz, hel⟩ := hp
        obtain ⟨h1, t1, e1, st1, _⟩ := fillTemp_ok (zero := zero) I hg hsz hel hL (by omega)
        have henv := I.env_put (t := x) (r := (h1, t1)) st1
        rw [hm] at e1
        simp only [Prod.mk.injEq, true_and] at e1
        subst e1
        simp only [] at h'
        rw [M.bind_ok (M.get_apply _)] at h'
        by_cases hs : (s.st (x, false)).sz ≤ e.size s.env
        · obtain ⟨s2, e2, sh, _, _, mp, _⟩ := I.assignB (zero := zero) hlt hb hpb hg hsz hel hL
            (by omega) (by omega) (by omega)
          rw [h] at e2
          simp only [Prod.mk.injEq, true_and] at e2
          subst e2
          exact ⟨L, hL, ⟨hsz.symm, hel⟩, sh, mp, by simp, fun _ => ⟨by omega, by omega⟩⟩
        · rw [M.bind_thr (M.ass_neg (by rw [put_ne _ _ (by simp), henv]; exact hs) _)] at h'
          simp at h'
    · rw [M.bind_thr (M.ass_neg hc _)] at h'
      simp at h'

/-- C11 (partial: right-hand sides of at most `2^30` elements).  In every reachable state, for every
expression and every target, including all ways in which the target may occur in the expression: if
`x = e` succeeds, then `x` has the length of `e` and its elements are the values the elements of `e`
had before, and no other vector has changed (unless `x` borrows its memory). -/
theorem C11_snapshot_partial {zero : V} {s s' : Mach V} (r : Reach zero s) (conv : V → Out V)
    (x : Nat) (e : Expr V) (hlt : x < s.n) (hlim : e.size s.env ≤ 2 ^ 30)
    (h : exec zero (.assign conv x e) s = (.ok (), s')) :
    ∃ L : List V, Evals s conv e L ∧ ShowsVar s' x L ∧
      (s.bor x = false → ∀ y, y ≠ x → SameVar s s' y) := by
  obtain ⟨L, _, h1, h2, _, h3, _⟩ := assign_ok_cases r hlt hlim h
  exact ⟨L, h1, h2, h3⟩

/-- `Vec a = c(1, 2, 3, 4, 5); a = subset(a, [1, 0]) + a` — the target is read recycled and
subsetted. -/
def aliasHistory : List (Cmd Int) :=
  [.declTemp [1, 2, 3, 4, 5] {},
   .assign .ok 1 (.bin (fun a b => .ok (a + b)) (.sub (.leaf 1) [1, 0] {}) (.leaf 1))]

theorem aliasAllowed : AllowedAll 0 aliasHistory start := by
  refine .cons (by show _ ≤ _; decide) <| .cons ⟨by decide +kernel, fun v => Out.NoMem.ok v,
    ⟨fun v w => Out.NoMem.ok _, trivial, trivial⟩, by decide +kernel⟩ trivial

example : ∃ s s', Reach (0 : Int) s ∧
    exec 0 (.assign .ok 1 (.bin (fun a b => .ok (a + b)) (.sub (.leaf 1) [1, 0] {}) (.leaf 1))) s
      = (.ok (), s') ∧ (List.range 5).map (s'.env.get 1) = [3, 3, 5, 5, 7].map Out.ok :=
  ⟨(runAll 0 (aliasHistory.take 1) start).2, _,
    ⟨aliasHistory.take 1, .cons aliasAllowed.1 trivial, Prod.ext (by decide +kernel) rfl⟩,
    Prod.ext (by decide +kernel) rfl, by decide +kernel⟩

/-! ## C12 repeated assignment -/

/-- C12 (partial: `x` was created with at least one element and owns its memory; lengths up to
`2^30`).  Whatever has happened since the declaration of `x` (any allowed operations on any vectors,
also failing ones, but not the destruction of `x`): assigning a non-empty expression whose
elements can be computed succeeds and `x` then shows them. -/
theorem C12_assignable_partial {zero : V} {s0 s1 s : Mach V} (r : Reach zero s0) (c : Cmd V)
    (hc : c.isDecl = true) (hal : s0.Allowed c) (h1 : exec zero c s0 = (.ok (), s1))
    (hb : s1.bor (s0.newId c) = false) (hne : 1 ≤ s1.env.size (s0.newId c))
    (ds : List (Cmd V)) (hds : AllowedAll zero ds s1) (hnd : Cmd.destroy (s0.newId c) ∉ ds)
    (h2 : runAll zero ds s1 = (none, s))
    (conv : V → Out V) (e : Expr V) (L : List V) (hL : L ≠ []) (hlim : L.length ≤ 2 ^ 30)
    (hev : Evals s conv e L) :
    ∃ s', exec zero (.assign conv (s0.newId c) e) s = (.ok (), s') ∧ ShowsVar s' (s0.newId c) L := by
  have r1 : Reach zero s1 := r.step hal h1 (by simp)
  have R1 := decl_ready r.inv hal hc h1 hb hne
  have R := runAll_ready (a := true) ds s1 r1.inv hds (fun _ => hnd) R1 s h2
  have I := (r1.runAll hds h2).inv
  have hg := R.good (Or.inr rfl)
  have hnb := (runAll_nb ds s1 s ⟨R1.lt rfl, hb⟩ h2).2
  obtain ⟨s', e1, sh, _⟩ := I.assign (zero := zero) (R.lt rfl) hnb hg hev.1.symm hev.2 hL hlim
  exact ⟨s', e1, sh⟩

/-- The hypotheses are met after `Vec a(SI{2}); a = c(7); a(9) = 0 (rejected)`; the next assignment is
`a = a + c(1, 2, 3)`. -/
example : ∃ s1 s : Mach Int, exec 0 (.declSize 2) start = (.ok (), s1) ∧ s1.bor 0 = false ∧
    1 ≤ s1.env.size 0 ∧ runAll 0 [.assign .ok 0 (.rvec [7] {}), .setElem 0 9 0] s1 = (none, s) ∧
    (exec 0 (.setElem 0 9 0) s).1 ≠ .ok () ∧
    ∃ s', exec 0 (.assign .ok 0 (.bin (fun a b => .ok (a + b)) (.leaf 0) (.rvec [1, 2, 3] {}))) s
      = (.ok (), s') ∧ (List.range 3).map (s'.env.get 0) = [8, 9, 10].map Out.ok :=
  ⟨_, _, Prod.ext (by decide +kernel) rfl, by decide +kernel, by decide +kernel,
    Prod.ext (by decide +kernel) rfl,
    by decide +kernel, _, Prod.ext (by decide +kernel) rfl, by decide +kernel⟩

/-- C12 is false: a default constructed vector accepts a first vector assignment and rejects all
further ones.  `Vec a; a = c(1, 2); a = c(1, 2);` -/
theorem C12_false_default_constructed :
    let a := Cmd.assign (V := Int) .ok 0 (.rvec [1, 2] {})
    ∃ s1 s2, AllowedAll 0 [.declDefault, a, a] start ∧
      runAll 0 [.declDefault] start = (none, s1) ∧ exec 0 a s1 = (.ok (), s2) ∧
      (exec 0 a s2).1 = .thr "try to delete nullptr" := by
  refine ⟨_, _, ?_, Prod.ext (by decide +kernel) rfl, Prod.ext (by decide +kernel) rfl,
    by decide +kernel⟩
  exact .cons trivial <| .cons ⟨by decide +kernel, fun v => Out.NoMem.ok v, trivial,
    by decide +kernel⟩ <| .cons ⟨by decide +kernel, fun v => Out.NoMem.ok v, trivial,
    by decide +kernel⟩ trivial

/-- The same for every expression and in every later state as long as `a` is not touched otherwise:
the second assignment of a non-empty expression always throws and changes nothing. -/
theorem C12_false_second_assignment {zero : V} {s : Mach V} (x : Nat) (hb : s.bor x = false)
    (conv : V → Out V) (e : Expr V) (ha : (s.st (x, true)).allocated = true)
    (hp : (s.st (x, true)).p = none) (hc : (s.st (x, true)).capacity = 0)
    (hsz : 1 ≤ e.size s.env) :
    exec zero (.assign conv x e) s = (.thr "try to delete nullptr", s) :=
  assign_bad hb ha hp hc hsz

/-! ## C13 the matrix attribute -/

/-- C13 (partial: the right-hand side is a matrix, or the target was no matrix before). -/
theorem C13_dims_partial {zero : V} {s s' : Mach V} (r : Reach zero s) (conv : V → Out V)
    (x : Nat) (e : Expr V) (hlt : x < s.n) (hlim : e.size s.env ≤ 2 ^ 30)
    (h : exec zero (.assign conv x e) s = (.ok (), s'))
    (hx : e.im s.env = true ∨ (s.env.mp x).im = false) :
    (s'.env.mp x).im = e.im s.env ∧ (e.im s.env = true →
      e.nr s.env = .ok (s'.env.mp x).nr ∧ e.nc s.env = .ok (s'.env.mp x).nc) := by
  obtain ⟨L, _, _, _, hmp, _⟩ := assign_ok_cases r hlt hlim h
  rw [hmp]
  unfold newMp
  cases him : e.im s.env with
  | true =>
    obtain ⟨⟨a, ha⟩, ⟨b, hb⟩⟩ := Expr.nr_ok e him
    rw [ha, hb]
    simp [val]
  | false =>
    rw [him] at hx
    simp only [Bool.false_eq_true, if_false, false_imp_iff, and_true]
    rcases hx with hx | hx
    · simp at hx
    · exact hx

example : ((exec (0 : Int) (.assign .ok 0 (.rvec [1, 2, 3, 4, 5, 6] ⟨true, 3, 2⟩)) (runAll 0 sampleHistory start).2).2.env.mp 0).im = true :=
  (C13_dims_partial sampleReach .ok 0 (.rvec [1, 2, 3, 4, 5, 6] ⟨true, 3, 2⟩) (by decide +kernel) (by decide +kernel)
    (Prod.ext (by decide +kernel) rfl) (.inl rfl)).1

/-- C13, what is missing: a right-hand side that is no matrix leaves the attribute as it was. -/
theorem C13_stale_partial {zero : V} {s s' : Mach V} (r : Reach zero s) (conv : V → Out V)
    (x : Nat) (e : Expr V) (hlt : x < s.n) (hlim : e.size s.env ≤ 2 ^ 30)
    (h : exec zero (.assign conv x e) s = (.ok (), s')) (him : e.im s.env = false) :
    s'.env.mp x = s.env.mp x := by
  obtain ⟨L, _, _, _, hmp, _⟩ := assign_ok_cases r hlt hlim h
  rw [hmp]
  unfold newMp
  rw [him]; rfl

example : (exec (0 : Int) (.assign .ok 0 (.rvec [1, 2, 3] {})) (runAll 0 sampleHistory start).2).2.env.mp 0 =
    (runAll (0 : Int) sampleHistory start).2.env.mp 0 :=
  C13_stale_partial sampleReach .ok 0 (.rvec [1, 2, 3] {}) (by decide +kernel) (by decide +kernel) (Prod.ext (by decide +kernel) rfl) rfl

/-- C13 is false: `Vec m(2, 2); m = c(1, 2, 3);` leaves a "2 by 2 matrix" of three elements. -/
theorem C13_false_stale_dims :
    ∃ s s', Reach (0 : Int) s ∧ exec 0 (.assign .ok 0 (.rvec [1, 2, 3] {})) s = (.ok (), s') ∧
      (Expr.rvec [(1 : Int), 2, 3] {}).im s.env = false ∧
      s'.env.mp 0 = ⟨true, 2, 2⟩ ∧ s'.env.size 0 = 3 :=
  ⟨(runAll 0 [.declMat 2 2] start).2, _,
    ⟨[.declMat 2 2], .cons (by show _ ≤ _; decide) trivial, Prod.ext (by decide +kernel) rfl⟩,
    Prod.ext (by decide +kernel) rfl, by decide +kernel, by decide +kernel, by decide +kernel⟩

/-- The hypotheses of `C13_dims_partial` with a matrix on the right. -/
example : ∃ s s', Reach (0 : Int) s ∧
    exec 0 (.assign .ok 0 (.rvec [1, 2, 3, 4, 5, 6] ⟨true, 3, 2⟩)) s = (.ok (), s') ∧
      s'.env.mp 0 = ⟨true, 3, 2⟩ ∧ s'.env.size 0 = 6 :=
  ⟨(runAll 0 [.declMat 2 2] start).2, _,
    ⟨[.declMat 2 2], .cons (by show _ ≤ _; decide) trivial, Prod.ext (by decide +kernel) rfl⟩,
    Prod.ext (by decide +kernel) rfl, by decide +kernel, by decide +kernel⟩

/-! ## C16 lengths -/

/-- C16 (partial: lengths up to `2^30`). -/
theorem C16_length_partial {zero : V} {s s' : Mach V} (r : Reach zero s) (conv : V → Out V)
    (x : Nat) (e : Expr V) (hlt : x < s.n) (hlim : e.size s.env ≤ 2 ^ 30)
    (h : exec zero (.assign conv x e) s = (.ok (), s')) : s'.env.size x = e.size s.env := by
  obtain ⟨L, _, h1, h2, _⟩ := assign_ok_cases r hlt hlim h
  rw [h2.1, h1.1]

example : (exec (0 : Int) (.assign .ok 0 (.rvec [1, 2, 3] {})) (runAll 0 sampleHistory start).2).2.env.size 0 = 3 :=
  C16_length_partial sampleReach .ok 0 (.rvec [1, 2, 3] {}) (by decide +kernel) (by decide +kernel) (Prod.ext (by decide +kernel) rfl)

/-- `Vec a; a = <n elements>` for every length that fits in memory: the resulting length went through
a 32-bit `int`. -/
theorem assign_length_wraps (zero v : V) (n : Nat) (h1 : 1 ≤ n) (h2 : n ≤ 2 ^ 59) :
    ∃ s', runAll zero [.declDefault, .assign .ok 0 (.rvec (List.replicate n v) {})] start
      = (none, s') ∧ s'.env.size 0 = wrap64 (wrapI32 n) := by
  set s0 : Mach V := { start with n := 1 } with hs0
  obtain ⟨ha, t1, e1, w1, _, z1, _⟩ := resize_spec (zero := zero) (h := s0.heap) (s := {}) (n := n)
    rfl (Own.default _) (by simp) h1 h2
  set e : Expr V := .rvec (List.replicate n v) {} with he
  have hsz : e.size s0.env = n := by simp [he, Expr.size]
  obtain ⟨hb, e2, w2, sh2, st2⟩ := slotLoop (s0 := s0) (z := (0, true))
    (g := fun i s => e.el s.env i >>= Out.ok)
    (L := List.replicate n v) w1 (by simp [z1]) (fun i hi h' _ st' => by
      rw [he]
      simp only [Expr.el, getL, List.getElem?_eq_getElem hi]
      rfl)
  have hft : fillTemp zero Out.ok 0 e s0 = (.ok (), s0.put (0, true) (hb, t1)) := by
    unfold fillTemp
    rw [M.bind_ok (M.get_apply _), hsz, M.bind_ok (onSlot_ok e1)]
    simp only [M.reads_lift]
    simp only [List.length_replicate] at e2
    exact e2
  set s1 := s0.put (0, true) (hb, t1) with hs1
  set s2 : Mach V := { s1 with st := fun y =>
    if y = (0, false) then (moveit (s1.st (0, false)) (s1.st (0, true))).1
    else if y = (0, true) then (moveit (s1.st (0, false)) (s1.st (0, true))).2 else s1.st y } with hs2
  have hmv : moveTemp 0 s1 = (.ok (), s2) := rfl
  have hasg : exec zero (.assign .ok 0 e) s0 = (.ok (), s2) := by
    show Mach.assign zero Out.ok 0 e s0 = _
    unfold Mach.assign
    rw [M.bind_ok (M.get_apply _), if_neg (by simp [hs0, start])]
    unfold assignBuffer
    rw [M.bind_ok hft, M.bind_ok hmv]
    unfold setDims
    rw [M.bind_ok (M.get_apply _), if_neg (by simp [he, Expr.im])]
    rfl
  refine ⟨s2, ?_, ?_⟩
  · have h0 : exec zero .declDefault start = (.ok (), s0) := rfl
    rw [runAll, h0]
    simp only []
    rw [runAll, hasg]
    rfl
  · show (s2.st (0, false)).sz = _
    simp only [hs2, if_true, moveit]
    rw [show s1.st (0, true) = t1 from put_same _ _ _, z1]

/-- C16 is false: assigning `2^31` elements gives a vector that reports `2^64 - 2^31` elements. -/
theorem C16_false_length : ∃ s', runAll (0 : Int)
      [.declDefault, .assign .ok 0 (.rvec (List.replicate (2 ^ 31) 7) {})] start = (none, s') ∧
    s'.env.size 0 = 2 ^ 64 - 2 ^ 31 := by
  obtain ⟨s', e1, e2⟩ := assign_length_wraps (0 : Int) 7 (2 ^ 31) (by norm_num) (by norm_num)
  exact ⟨s', e1, by rw [e2]; decide⟩

/-! ## C20 assignment to borrowed vectors -/

/-- An assignment to a borrowed vector that throws leaves the borrowed memory (and all other memory
of the caller) as it was. -/
theorem C20_throw_untouched {zero : V} {s s' : Mach V} (r : Reach zero s) (conv : V → Out V)
    (x : Nat) (e : Expr V) (hlt : x < s.n) (hb : s.bor x = true) (hlim : e.size s.env ≤ 2 ^ 30)
    {m : String} (h : exec zero (.assign conv x e) s = (.thr m, s')) (b : Nat)
    (hbl : b < s.heap.next) (hnw : (s.heap.blk b).newed = false) :
    s'.heap.blk b = s.heap.blk b ∧ s'.st (x, false) = s.st (x, false) := by
  have I := r.inv
  replace h : Mach.assign zero conv x e s = (.thr m, s') := h
  obtain ⟨b0, hpb, _⟩ := (I.b x hb).ptr
  have hp := fillTemp_post (zero := zero) (conv := conv) (t := x) (e := e) I hlim
  have hfr : ∀ q : Heap V × Store, Step s.heap (s.st (x, true)) q.1 q.2 →
      (s.put (x, true) q).heap.blk b = s.heap.blk b ∧
      (s.put (x, true) q).st (x, false) = s.st (x, false) := by
    intro q st
    refine ⟨st.frame b hbl (fun hpt => ?_), put_ne _ _ (by simp)⟩
    have := ((I.t x).own.ptr b hpt).2.2.1
    rw [hnw] at this; simp at this
  have h' := h
  unfold Mach.assign at h'
  rw [M.bind_ok (M.get_apply _), if_pos hb] at h'
  unfold assignBorrow at h'
  rw [M.bind_ok (M.get_apply _)] at h'
  by_cases hc : e.size s.env ≤ (s.st (x, false)).capacity
  · rw [M.bind_ok (M.ass_pos hc _), M.bind_apply] at h'
    rcases hm : fillTemp zero conv x e s with ⟨o, s1⟩
    rw [hm] at h' hp
    cases o with
    | ub k => simp at h'
    | thr m' =>
      simp only [Prod.mk.injEq] at h'
      obtain ⟨q, hq, st, _⟩ := hp
      rw [← h'.2, hq]
      exact hfr q st
    | ok u =>
      obtain ⟨hg, L, hL, hsz, hel⟩ := hp
      obtain ⟨h1, t1, e1, st1, _⟩ := fillTemp_ok (zero := zero) I hg hsz hel hL (by omega)
      have henv := I.env_put (t := x) (r := (h1, t1)) st1
      rw [hm] at e1
      simp only [Prod.mk.injEq, true_and] at e1
      subst e1
      simp only [] at h'
      rw [M.bind_ok (M.get_apply _)] at h'
      by_cases hs : (s.st (x, false)).sz ≤ e.size s.env
      · obtain ⟨s2, e2, _⟩ := I.assignB (zero := zero) hlt hb hpb hg hsz hel hL
          (by omega) (by omega) (by omega)
        rw [h] at e2
        simp at e2
      · rw [M.bind_thr (M.ass_neg (by rw [put_ne _ _ (by simp), henv]; exact hs) _)] at h'
        simp only [Prod.mk.injEq] at h'
        rw [← h'.2]
        exact hfr _ st1
  · rw [M.bind_thr (M.ass_neg hc _)] at h'
    simp only [Prod.mk.injEq] at h'
    rw [← h'.2]
    exact ⟨rfl, rfl⟩

/-- A borrowed array of three elements, of which two are used. -/
def sampleBorrow : List (Cmd Int) := [.callerArray [1, 2, 3], .declBorrow (some 0) 3, .resize 0 2]

theorem sampleBorrowReach : Reach 0 (runAll 0 sampleBorrow start).2 :=
  ⟨sampleBorrow, .cons trivial (.cons ⟨by decide, ⟨0, by decide +kernel, by decide +kernel, by decide +kernel, by decide +kernel⟩,
    by rintro b hb; cases hb; decide +kernel⟩ (.cons ⟨by decide +kernel, by decide⟩ trivial)), Prod.ext (by decide +kernel) rfl⟩

example : ∃ m s', exec (0 : Int) (.assign .ok 0 (.rvec [7, 8, 9, 10] {})) (runAll 0 sampleBorrow start).2 = (.thr m, s') ∧
    s'.heap.blk 0 = (runAll (0 : Int) sampleBorrow start).2.heap.blk 0 :=
  have e : exec (0 : Int) (.assign .ok 0 (.rvec [7, 8, 9, 10] {})) (runAll 0 sampleBorrow start).2 = (.thr _, _) :=
    Prod.ext (by decide +kernel : _ = Out.thr "number of items to replace is not a multiple of replacement length") rfl
  ⟨_, _, e, (C20_throw_untouched sampleBorrowReach .ok 0 _ (by decide +kernel) (by decide +kernel) (by decide +kernel) e 0
    (by decide +kernel) (by decide +kernel)).1⟩

/-- C20 (partial: the values must be at least as many as the current length of the borrowed vector;
lengths up to `2^30`).  `n ≥ 1` values with `s ≤ n ≤ c` are accepted: the first `n` cells of the
borrowed memory hold them, all other cells of that block are unchanged.  More than `c` values are
rejected.  In all cases in which the assignment throws, the memory is unchanged
(`C20_throw_untouched`). -/
theorem C20_fits_partial {zero : V} {s : Mach V} (r : Reach zero s) (conv : V → Out V)
    (x b : Nat) (e : Expr V) (L : List V) (hlt : x < s.n) (hb : s.bor x = true)
    (hpb : (s.st (x, false)).p = some b) (hL : L ≠ []) (hlim : L.length ≤ 2 ^ 30)
    (hev : Evals s conv e L) :
    ((s.st (x, false)).sz ≤ L.length → L.length ≤ (s.st (x, false)).capacity →
      ∃ s', exec zero (.assign conv x e) s = (.ok (), s') ∧ ShowsVar s' x L ∧
        ∀ j, (s'.heap.blk b).cell j = if h : j < L.length then some L[j] else (s.heap.blk b).cell j) ∧
    ((s.st (x, false)).capacity < L.length →
      ∃ m, exec zero (.assign conv x e) s = (.thr m, s)) := by
  have I := r.inv
  constructor
  · intro h1 h2
    obtain ⟨s', e1, sh, hc, _⟩ := I.assignB (zero := zero) hlt hb hpb (r.good hb) hev.1.symm hev.2 hL
      hlim h1 h2
    exact ⟨s', e1, sh, hc⟩
  · intro hlt'
    refine ⟨"number of items to replace is not a multiple of replacement length", ?_⟩
    show Mach.assign zero conv x e s = _
    unfold Mach.assign
    rw [M.bind_ok (M.get_apply _), if_pos hb]
    unfold assignBorrow
    rw [M.bind_ok (M.get_apply _), M.bind_thr (M.ass_neg (by rw [← hev.1]; omega) _)]

example : ∃ s', exec (0 : Int) (.assign .ok 0 (.rvec [7, 8, 9] {})) (runAll 0 sampleBorrow start).2 = (.ok (), s') ∧ ShowsVar s' 0 [7, 8, 9] := by
  obtain ⟨s', e, sh, _⟩ := (C20_fits_partial sampleBorrowReach .ok 0 0 (.rvec [7, 8, 9] {}) [7, 8, 9] (by decide +kernel)
    (by decide +kernel) (by decide +kernel) (by decide) (by decide) ⟨by decide +kernel, by decide +kernel⟩).1 (by decide +kernel) (by decide +kernel)
  exact ⟨s', e, sh⟩

/-- What the code does with fewer values than the current length, for every reachable state: it always throws, although they fit (the memory
is unchanged, `C20_throw_untouched`). -/
theorem C20_shorter_rejected {zero : V} {s : Mach V} (r : Reach zero s) (conv : V → Out V) (x : Nat) (e : Expr V) (L : List V)
    (hb : s.bor x = true) (hL : L ≠ []) (hlim : L.length ≤ 2 ^ 30) (hev : Evals s conv e L)
    (hlt : L.length < (s.st (x, false)).sz) :
    ∃ m s', exec zero (.assign conv x e) s = (.thr m, s') := by
  have I := r.inv
  obtain ⟨ha, t1, e1, st1, _⟩ := fillTemp_ok (zero := zero) I (r.good hb) hev.1.symm hev.2 hL hlim
  have henv := I.env_put (t := x) (r := (ha, t1)) st1
  by_cases hc : e.size s.env ≤ (s.st (x, false)).capacity
  · refine ⟨"size cannot be increased above the size of the borrowed object", s.put (x, true) (ha, t1), ?_⟩
    show Mach.assign zero conv x e s = _
    unfold Mach.assign
    rw [M.bind_ok (M.get_apply _), if_pos hb]
    unfold assignBorrow
    rw [M.bind_ok (M.get_apply _), M.bind_ok (M.ass_pos hc _), M.bind_ok e1, M.bind_ok (M.get_apply _), M.bind_thr (M.ass_neg ?_ _)]
    rw [henv, ← hev.1, put_ne _ _ (by simp)]
    omega
  · refine ⟨"number of items to replace is not a multiple of replacement length", s, ?_⟩
    show Mach.assign zero conv x e s = _
    unfold Mach.assign
    rw [M.bind_ok (M.get_apply _), if_pos hb]
    unfold assignBorrow
    rw [M.bind_ok (M.get_apply _), M.bind_thr (M.ass_neg hc _)]

example : ∃ m s', exec (0 : Int) (.assign .ok 0 (.rvec [7] {})) (runAll 0 sampleBorrow start).2 = (.thr m, s') :=
  C20_shorter_rejected sampleBorrowReach .ok 0 (.rvec [7] {}) [7] (by decide +kernel) (by decide) (by decide)
    ⟨by decide +kernel, by decide +kernel⟩ (by decide +kernel)

/-- C20 is false: a borrowed vector of length 3 rejects 2 values although they fit. -/
theorem C20_false_shorter :
    ∃ s, Reach (0 : Int) s ∧ s.bor 0 = true ∧ s.env.size 0 = 3 ∧ (s.st (0, false)).capacity = 3 ∧
      (exec 0 (.assign .ok 0 (.rvec [8, 9] {})) s).1
        = .thr "size cannot be increased above the size of the borrowed object" :=
  ⟨(runAll 0 [.callerArray [1, 2, 3], .declBorrow (some 0) 3] start).2,
    ⟨[.callerArray [1, 2, 3], .declBorrow (some 0) 3], .cons trivial (.cons ⟨by decide, ⟨0, by decide +kernel, by decide +kernel,
      by decide +kernel, by decide +kernel⟩, by rintro b hb; cases hb; decide +kernel⟩ trivial),
      Prod.ext (by decide +kernel) rfl⟩, by decide +kernel, by decide +kernel, by decide +kernel,
    by decide +kernel⟩

/-- The hypotheses of `C20_fits_partial`: after shrinking a borrowed vector of 3 elements to 1, two
values fit. -/
example : ∃ s s', Reach (0 : Int) s ∧ s.bor 0 = true ∧ s.env.size 0 = 1 ∧
      (s.st (0, false)).capacity = 3 ∧ exec 0 (.assign .ok 0 (.rvec [8, 9] {})) s = (.ok (), s') ∧
      (List.range 3).map (s'.heap.load (some 0)) = [8, 9, 3].map Out.ok :=
  ⟨(runAll 0 [.callerArray [1, 2, 3], .declBorrow (some 0) 3, .resize 0 1] start).2, _,
    ⟨[.callerArray [1, 2, 3], .declBorrow (some 0) 3, .resize 0 1], .cons trivial (.cons ⟨by decide, ⟨0, by decide +kernel, by decide +kernel,
      by decide +kernel, by decide +kernel⟩, by rintro b hb; cases hb; decide +kernel⟩
      (.cons ⟨by decide +kernel, by decide⟩ trivial)),
      Prod.ext (by decide +kernel) rfl⟩, by decide +kernel, by decide +kernel, by decide +kernel,
    Prod.ext (by decide +kernel) rfl, by decide +kernel⟩

end Mach
end ETR
