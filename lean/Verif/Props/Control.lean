import Verif.Lemmas.Control
import Verif.Lemmas.Scope
import Verif.Lemmas.Rejects

/-! # C77: programs with branches and loops -/

namespace ETR
open Spec Mach
variable {V : Type}

/-- A value that exists, or a rejection. -/
theorem Sim.withVal {α : Type} {Y : Nat → Prop} {s : Mach V} {p : PState V} {o : Option α} {k : α → Res V}
    {r : Option (String × PState V)} {o' : Option (Out Unit × Prog.St V)} (hk : ∀ a, o = some a → Sim Y s p (k a) o')
    (hr : ∀ m p', o = none → r = some (m, p') → Sim Y s p (.threw m p') o') : Sim Y s p (Spec.withVal o k r) o' := by
  cases o with
  | some a => exact hk a rfl
  | none =>
    cases r with
    | none => trivial
    | some z => exact hr z.1 z.2 rfl rfl

theorem Sim.rounds {Y : Nat → Prop} {test : PState V → Option Bool} {test' : Prog.St V → Out Bool × Prog.St V}
    {rej : PState V → Option (String × PState V)} {body : PState V → Res V} {body' : Prog.St V → Option (Out Unit × Prog.St V)}
    (hr : ∀ s p ws m p', Rep s p → rej p = some (m, p') → p' = p ∧ ∃ ws', test' (ws, s) = (.thr m, (ws', s)))
    (ht : ∀ s p ws t, Rep s p → test p = some t → ∃ ws', test' (ws, s) = (.ok t, (ws', s)))
    (hb : ∀ s p ws, Rep s p → Sim Y s p (body p) (body' (ws, s))) :
    ∀ n s p ws, Rep s p → Sim Y s p (Spec.rounds test rej body n p) (Prog.rounds test' body' n (ws, s)) := by
  intro n
  induction n with
  | zero => intro s p ws R; rfl
  | succ n ih =>
    intro s p ws R
    simp only [Spec.rounds, Prog.rounds]
    refine Sim.withVal (fun t h => ?_) (fun m p' _ h => ?_)
    · obtain ⟨ws', e⟩ := ht s p ws t R h
      rw [e]
      simp only [Prog.withOut]
      cases t with
      | false => exact ⟨ws', s, rfl, R, KeepsVars.refl _ _ _⟩
      | true => exact (hb s p ws' R).andThen (fun p' ws'' s' R' K => ih s' p' ws'' R')
    · obtain ⟨rfl, ws', e⟩ := hr s p ws m p' R h
      rw [e]
      exact ⟨ws', s, rfl, R, KeepsVars.refl _ _ _⟩

theorem Sim.each {α : Type} {Y : Nat → Prop} {body : α → PState V → Res V} {body' : α → Prog.St V → Option (Out Unit × Prog.St V)}
    (hb : ∀ a s p ws, Rep s p → Sim Y s p (body a p) (body' a (ws, s))) :
    ∀ l s p ws, Rep s p → Sim Y s p (Spec.each body l p) (Prog.each body' l (ws, s)) := by
  intro l
  induction l with
  | nil => intro s p ws R; exact ⟨ws, s, rfl, R, KeepsVars.refl _ _ _⟩
  | cons a l ih => intro s p ws R; exact (hb a s p ws R).andThen (fun p' ws'' s' R' K => ih s' p' ws'' R')

theorem Sim.eachAt {Y : Nat → Prop} {body : V → PState V → Res V} {body' : V → Prog.St V → Option (Out Unit × Prog.St V)}
    (hb : ∀ a s p ws, Rep s p → Sim Y s p (body a p) (body' a (ws, s))) {x : Nat} (hx : Y x) {v : Var V} {q : Ptr} :
    ∀ n i s p ws, Rep s p → p.vars x = some v → (s.st (x, false)).p = q → i + n = v.val.length →
      Sim Y s p (Spec.each body (v.val.drop i) p) (Prog.eachAt q body' n i (ws, s)) := by
  intro n
  induction n with
  | zero =>
    intro i s p ws R hv hq hn
    rw [List.drop_eq_nil_of_le (by omega)]
    exact ⟨ws, s, rfl, R, KeepsVars.refl _ _ _⟩
  | succ n ih =>
    intro i s p ws R hv hq hn
    have hi : i < v.val.length := by omega
    rw [List.drop_eq_getElem_cons hi]
    simp only [Spec.each, Prog.eachAt]
    have hload := load_of_shows (R.vars x v hv).shows hi
    rw [hq] at hload
    rw [hload]
    simp only [Prog.withOut]
    refine (hb _ s p ws R).andThen (fun p' ws'' s' R' K => ?_)
    obtain ⟨k1, k2⟩ := (K x hx).1 v hv (by rintro h; simp [h] at hi)
    exact ih (i + 1) s' p' ws'' R' k1 (by rw [k2, hq]) (by omega)

/-- The same for a vector that borrows: the elements are read when their turn comes. -/
theorem Sim.eachBor {Y : Nat → Prop} {body : V → PState V → Res V} {body' : V → Prog.St V → Option (Out Unit × Prog.St V)}
    (hb : ∀ a s p ws, Rep s p → Sim Y s p (body a p) (body' a (ws, s))) {x : Nat} (hx : Y x) {β : Bor} :
    ∀ n i s p ws, Rep s p → p.bors x = some β → i + n = β.size →
      Sim Y s p (Spec.eachAt x body n i p) (Prog.eachAt (some β.arr) body' n i (ws, s)) := by
  intro n
  induction n with
  | zero => intro i s p ws R hβ hn; exact ⟨ws, s, rfl, R, KeepsVars.refl _ _ _⟩
  | succ n ih =>
    intro i s p ws R hβ hn
    obtain ⟨a, ha, K⟩ := R.b.bors x β hβ
    obtain ⟨_, k2⟩ := R.b.arrays _ _ ha
    have hi : i < β.size := by omega
    have h1 := K.le
    have h2 := K.len
    have hvars : p.vars x = none := by
      cases hv : p.vars x with
      | none => rfl
      | some v => have := (R.vars x v hv).bor; rw [K.bor] at this; simp at this
    have hl : p.lists x = some (a.take β.size) := by simp [PState.lists, PState.view, hvars, hβ, ha]
    have hg : (a.take β.size)[i]? = some a[i] := by
      rw [List.getElem?_take, if_pos hi, List.getElem?_eq_getElem]
    have hload : s.heap.load (some β.arr) i = .ok a[i] :=
      Heap.load_some (by rw [k2]; rfl) (by rw [k2]; simp only [callerBlk]; omega) (by rw [k2]; exact List.getElem?_eq_getElem _)
    simp only [Spec.eachAt, Prog.eachAt]
    rw [hl, hload]
    simp only [Option.bind_some, hg, Prog.withOut, Spec.withVal]
    refine (hb _ s p ws R).andThen (fun p' ws'' s' R' K' => ?_)
    exact ih (i + 1) s' p' ws'' R' ((K' x hx).2 β hβ) (by omega)

theorem plainIndex_pass {n : Nat} (hn : n < 2 ^ 31) {i : Index} {r : List Nat} (h : positions n i = some r)
    (hp : plainIndex i = true) : i.Pass := by
  cases i with
  | lgl b => trivial
  | int k =>
    simp only [positions, Option.map_eq_some_iff] at h
    obtain ⟨j, hj, _⟩ := h
    unfold pos1 at hj
    split at hj
    · simp only [Index.Pass, InI32]; omega
    · simp at hj
  | dbl x => trivial
  | vlgl l => trivial
  | vint l =>
    intro x hx
    simp only [plainIndex, List.all_eq_true] at hp
    have hpx := hp x hx
    simp only [positions] at h
    split at h
    · simp at h
    · have : ∃ j, posI n x = some j := by
        clear hp hpx
        induction l generalizing r with
        | nil => simp at hx
        | cons y l ih =>
          rw [List.mapM_cons] at h
          simp only [Option.bind_eq_bind, Option.bind_eq_some_iff, Option.pure_def, Option.some.injEq] at h
          obtain ⟨j, hj, t, ht, rfl⟩ := h
          rcases List.mem_cons.mp hx with rfl | hx
          · exact ⟨j, hj⟩
          · exact ih hx (by rintro rfl; simp at hx) ht
      obtain ⟨j, hj⟩ := this
      cases x with
      | i k =>
        simp only [posI, pos1] at hj
        split at hj
        · simp only [Scal.Pass, InI32]; omega
        · simp at hj
      | d _ => simp at hpx
      | b _ => simp at hpx
  | vdbl l => trivial

/-- The end of a block. -/
theorem Sim.inBlock {Y : Nat → Prop} {s : Mach V} {p : PState V} {ws : List String} {r : Res V}
    {body : Prog.St V → Option (Out Unit × Prog.St V)} (R : Rep s p) (h : Sim Y s p r (body (ws, s))) :
    Sim Y s p (r.leave p) (Prog.inBlock body (ws, s)) := by
  have key : ∀ {q : PState V} {s' : Mach V}, Rep s' q → KeepsVars Y s p s' q → ∃ s2, Mach.leave s.n (s'.n - s.n) s' = (.ok (), s2) ∧
      Rep s2 (q.leave p.next) ∧ KeepsVars Y s p s2 (q.leave p.next) := by
    intro q s' R' K
    obtain ⟨s2, e2, o2, R2⟩ := R'.leave (lo := s.n)
    refine ⟨s2, e2, by rw [← R.n]; exact R2, fun y hy => ⟨fun v hv hne => ?_, fun β hβ => ?_⟩⟩
    · obtain ⟨a, b⟩ := (K y hy).1 v hv hne
      have hlt : y < s.n := (R.vars y v hv).lt
      refine ⟨?_, by rw [o2 (y, false) hlt, b]⟩
      simp only [PState.leave]
      rw [if_pos (by rw [← R.n]; exact hlt)]
      exact a
    · obtain ⟨_, _, L⟩ := R.b.bors y β hβ
      have hlt : y < s.n := L.lt
      simp only [PState.leave]
      rw [if_pos (by rw [← R.n]; exact hlt)]
      exact (K y hy).2 β hβ
  cases r with
  | stuck => trivial
  | more =>
    have h : body (ws, s) = none := h
    simp only [Res.leave, Sim, Prog.inBlock, h]
  | done q =>
    obtain ⟨ws', s', e, R', K⟩ := h
    obtain ⟨s2, e2, R2, K2⟩ := key R' K
    exact ⟨ws', s2, by simp only [Prog.inBlock, e, e2], R2, K2⟩
  | threw m q =>
    obtain ⟨ws', s', e, R', K⟩ := h
    obtain ⟨s2, e2, R2, K2⟩ := key R' K
    exact ⟨ws', s2, by simp only [Prog.inBlock, e, e2], R2, K2⟩

/-- A handler. -/
theorem Sim.orElse {Y : Nat → Prop} {s : Mach V} {p : PState V} {r : Res V} {o : Option (Out Unit × Prog.St V)}
    {k : String → PState V → Res V} {k' : String → Prog.St V → Option (Out Unit × Prog.St V)} (h : Sim Y s p r o)
    (hk : ∀ m q ws' s', Rep s' q → Sim Y s' q (k m q) (k' m (ws', s'))) : Sim Y s p (r.orElse k) (Prog.orElse o k') := by
  cases r with
  | stuck => trivial
  | more => have h : o = none := h; rw [h]; rfl
  | done q =>
    obtain ⟨ws', s', e, h⟩ := h
    exact ⟨ws', s', by rw [e]; rfl, h⟩
  | threw m q =>
    obtain ⟨ws', s', rfl, R, K⟩ := h
    exact (hk m q ws' s' R).before K

/-- One operation. -/
theorem sim_cmd {zero : V} {c : Cmd V} {s : Mach V} {p : PState V} {ws : List String} (R : Rep s p) :
    Sim (fun y => c.target ≠ some y ∧ ValueOnly c) s p (Spec.withVal (step zero p c) .done (rejects p c))
      (some ((Mach.exec zero c s).1, (ws, (Mach.exec zero c s).2))) := by
  refine Sim.withVal (fun p' h => ?_) (fun m p' _ h => ?_)
  rotate_left
  · obtain ⟨s', e, R', h1, h2⟩ := R.rejects (zero := zero) h
    refine ⟨ws, s', by rw [e], R', fun y hy => ⟨fun v hv hne => ⟨by rw [(h2 y hy.1).1]; exact hv, h1 y (R.vars y v hv).lt⟩,
      fun β hβ => by rw [(h2 y hy.1).2]; exact hβ⟩⟩
  · obtain ⟨s', e, R'⟩ := R.step h
    refine ⟨ws, s', by rw [e], R', ?_⟩
    intro y hy
    refine ⟨fun v hv hne => ?_, fun β hβ => ?_⟩
    · exact ⟨by rw [(step_vars h (by rw [← R.n]; exact (R.vars y v hv).lt) hy.1).1]; exact hv,
        Mach.Rep.step_st R h hy.2 e hv hne hy.1⟩
    · obtain ⟨a, _, K⟩ := R.b.bors y β hβ
      rw [(step_vars h (by rw [← R.n]; exact K.lt) hy.1).2]; exact hβ

theorem withVal_done {zero : V} {c : Cmd V} {p q : PState V} (h : Spec.withVal (step zero p c) .done (rejects p c) = .done q) :
    step zero p c = some q := by
  cases h1 : step zero p c with
  | some q' =>
    rw [h1] at h
    simpa [Spec.withVal] using h
  | none =>
    rw [h1] at h
    cases h2 : rejects p c with
    | none => rw [h2] at h; simp [Spec.withVal, Res.raise] at h
    | some z => rw [h2] at h; simp [Spec.withVal, Res.raise] at h

/-- The library follows naive semantics, and the variables a program spares keep their memory. -/
theorem sim (zero : V) (fuel : Nat) (c : Prog V) : WellFormed c → ∀ s p ws, Rep s p →
    Sim (fun y => Spares y c) s p (Spec.exec zero fuel c p) (c.run zero fuel (ws, s)) := by
  induction c with
  | skip => intro _ s p ws R; exact ⟨ws, s, rfl, R, KeepsVars.refl _ _ _⟩
  | cmd c =>
    intro _ s p ws R
    simp only [Spec.exec, Prog.run]
    exact sim_cmd R
  | seq a b iha ihb =>
    intro w s p ws R
    simp only [Spec.exec, Prog.run]
    exact ((iha w.1 s p ws R).mono (fun y hy => hy.1)).andThen (fun p' ws' s' R' K => (ihb w.2 s' p' ws' R').mono (fun y hy => hy.2))
  | decl c k ih =>
    intro w s p ws R
    simp only [Spec.exec, Prog.run]
    refine Sim.extend (Y := fun y => Spares y (.decl c k) ∧ y < p.next) (fun y hy => ?_) ?_
    · by_cases hlt : y < p.next
      · exact Or.inl ⟨hy, hlt⟩
      · rw [← R.n] at hlt
        refine Or.inr ⟨?_, ?_⟩
        · cases hv : p.vars y with
          | none => rfl
          | some v => exact absurd (R.vars y v hv).lt hlt
        · cases hβ : p.bors y with
          | none => rfl
          | some β =>
            obtain ⟨_, _, K⟩ := R.b.bors y β hβ
            exact absurd K.lt hlt
    · have key := (sim_cmd (zero := zero) (c := c) (ws := ws) R).mono (Y' := fun y => Spares y (.decl c k) ∧ y < p.next)
        (fun y hy => ⟨hy.1.1, hy.1.2.1⟩)
      cases hr : Spec.withVal (step zero p c) .done (rejects p c) with
      | done q =>
        rw [hr] at key
        have hn := step_next (withVal_done hr) w.1
        obtain ⟨ws', s', e, R', K⟩ := key
        rw [e]
        refine Sim.before K ?_
        simp only [Prog.andThen, Res.andThen, R'.n]
        exact (ih _ (w.2 _) s' q ws' R').mono (fun y hy => hy.1.2.2 _ (by omega))
      | threw m q =>
        rw [hr] at key
        obtain ⟨ws', s', e, R', K⟩ := key
        rw [e]
        exact ⟨ws', s', rfl, R', K⟩
      | more => rw [hr] at key; cases key
      | stuck => trivial
  | read bool e k ih =>
    intro w s p ws R
    simp only [Spec.exec, Prog.run]
    refine Sim.withVal (fun v h => ?_) (fun m p' _ h => ?_)
    rotate_left
    · obtain ⟨rfl, ws', e'⟩ := toScalar_rejects R h bool ws
      exact ⟨ws', s, by simp only [Prog.say, e', Prog.withOut], R, KeepsVars.refl _ _ _⟩
    · obtain ⟨ws', e'⟩ := R.first h bool ws
      simp only [Prog.say, e', Prog.withOut]
      exact (ih v (w v) s p ws' R).mono (fun y hy => hy v)
  | index e i k ih =>
    intro w s p ws R
    simp only [Spec.exec, Prog.run]
    refine Sim.withVal (fun r h => ?_) (fun m p' _ h => ?_)
    rotate_left
    · obtain ⟨rfl, ws', e'⟩ := calcIndVector_rejects R h ws
      exact ⟨ws', s, by simp only [Prog.say, e', Prog.withOut], R, KeepsVars.refl _ _ _⟩
    · have ⟨ws', e'⟩ : ∃ ws', calcIndVector (e.size s.env) i ws = (.ok r, ws') := by
        simp only [Spec.indexPos, Option.bind_eq_bind, Option.bind_eq_some_iff] at h
        obtain ⟨C, hC, h⟩ := h
        split at h
        · rename_i hc
          rw [(cells_sound R.agreesX e hC).2.1]
          have big : ∀ {i}, plainIndex i = true → positions (2 ^ 31 - 1) i = some r →
              ∃ ws', calcIndVector (2 ^ 31 - 1) i ws = (.ok r, ws') := fun hp h =>
            calcIndVector_ok (by decide) (plainIndex_pass (by decide) h hp) h ws
          cases i with
          | lgl b => exact calcIndVector_ok hc.2 (plainIndex_pass hc.2 h hc.1) h ws
          | vlgl l => exact calcIndVector_ok hc.2 (plainIndex_pass hc.2 h hc.1) h ws
          | int k => exact big hc.1 h
          | dbl q => exact big hc.1 h
          | vint l => exact big hc.1 h
          | vdbl l => exact big hc.1 h
        · simp at h
      simp only [Prog.say, e', Prog.withOut]
      exact (ih r (w r) s p ws' R).mono (fun y hy => hy r)
  | len e k ih =>
    intro w s p ws R
    simp only [Spec.exec, Prog.run]
    cases h : Spec.len p e with
    | none => trivial
    | some n =>
      have e' : lengthOf s.env e = n := by
        simp only [Spec.len, Option.bind_eq_bind, Option.bind_eq_some_iff] at h
        obtain ⟨C, hC, h⟩ := h
        split at h
        · rename_i hc
          simp only [Option.some.injEq] at h
          subst h
          exact lengthOf_eq (cells_sound R.agreesX e hC).2.1 hc
        · simp at h
      rw [e']
      exact (ih n (w n) s p ws R).mono (fun y hy => hy n)
  | loop bool e c body ih =>
    intro w s p ws R
    simp only [Spec.exec, Prog.run]
    refine Sim.rounds (fun s p ws m p' R h => ?_) (fun s p ws t R h => ?_) (fun s p ws R => ih w s p ws R) fuel s p ws R
    · obtain ⟨rfl, ws', e'⟩ := toScalar_rejects R h bool ws
      refine ⟨rfl, ws', ?_⟩
      simp only [Prog.say]
      rw [M.bind_thr e']
    simp only [Option.map_eq_some_iff] at h
    obtain ⟨v, hv, rfl⟩ := h
    obtain ⟨ws', e'⟩ := R.first hv bool ws
    refine ⟨ws', ?_⟩
    simp only [Prog.say]
    rw [M.bind_ok e']
    rfl
  | forVec x body ih =>
    intro w s p ws R
    simp only [Spec.exec, Prog.run]
    refine Sim.mono (Y := fun y => ∀ v, Spares y (body v)) (fun y hy => hy) ?_
    cases hv : p.vars x with
    | some v =>
      have L := R.vars x v hv
      rw [L.shows.1]
      exact Sim.eachAt (fun a s p ws R => (ih a (w a).1 s p ws R).mono (fun y hy => hy a)) (fun v => (w v).2) (v := v)
        v.val.length 0 s p ws R hv rfl (by omega)
    | none =>
      cases hβ : p.bors x with
      | none => trivial
      | some β =>
        obtain ⟨a, _, K⟩ := R.b.bors x β hβ
        rw [K.sz, K.ptr]
        exact Sim.eachBor (fun a s p ws R => (ih a (w a).1 s p ws R).mono (fun y hy => hy a)) (fun v => (w v).2)
          β.size 0 s p ws R hβ (by omega)
  | forInt a b body ih =>
    intro w s p ws R
    simp only [Spec.exec, Prog.run]
    split
    · rename_i hc
      obtain ⟨ws', e⟩ := range_int hc (ws, s)
      rw [e]
      exact Sim.each (fun i s p ws R => (ih i (w i) s p ws R).mono (fun y hy => hy i)) _ s p ws' R
    · trivial
  | forDbl a b body ih =>
    intro w s p ws R
    simp only [Spec.exec, Prog.run]
    cases h : dblSeq a b with
    | none => trivial
    | some l =>
      obtain ⟨ws', e⟩ := range_dbl h (ws, s)
      rw [e]
      exact Sim.each (fun i s p ws R => (ih i (w i) s p ws R).mono (fun y hy => hy i)) _ s p ws' R
  | block body ih =>
    intro w s p ws R
    exact Sim.inBlock R (ih w s p ws R)
  | tryCatch a b iha ihb =>
    intro w s p ws R
    exact (Sim.inBlock R ((iha w.1 s p ws R).mono fun y hy => hy.1)).orElse
      (fun m q ws' s' R' => Sim.inBlock R' ((ihb m (w.2 m) s' q ws' R').mono fun y hy => hy.2 m))
  | throw m => intro _ s p ws R; exact ⟨ws, s, rfl, R, KeepsVars.refl _ _ _⟩

/-- C77: let the caller have the arrays `ls`.  A program with branches and loops in which naive semantics finds no fault ends with the
vectors, and the arrays, naive semantics says. -/
theorem C77_partial (zero : V) (fuel : Nat) (ls : List (List V)) (c : Prog V) (hw : WellFormed c) {p : PState V}
    (h : Spec.exec zero fuel c (PState.caller ls) = .done p) (ws : List String) :
    ∃ s0 ws' s, runOk zero (ls.map .callerArray) start = (.ok (), s0) ∧ c.run zero fuel (ws, s0) = some (.ok (), (ws', s)) ∧
      (∀ x l, p.lists x = some l → ShowsVar s x l) ∧
      (∀ a l, p.arrays a = some l → ∀ i (hi : i < l.length), s.heap.load (some a) i = .ok l[i]) := by
  obtain ⟨s0, e0, R0⟩ := Rep.caller (zero := zero) ls
  have := sim zero fuel c hw s0 (PState.caller ls) ws R0
  rw [h] at this
  obtain ⟨ws', s, e, R, _⟩ := this
  refine ⟨s0, ws', s, e0, e, fun x l hl => R.agrees x l hl, fun a l hl i hi => ?_⟩
  obtain ⟨_, k2⟩ := R.b.arrays a l hl
  exact Heap.load_some (by rw [k2]; rfl) (by rw [k2]; exact hi) (by rw [k2]; exact List.getElem?_eq_getElem _)

/-- The same without arrays of the caller. -/
theorem run_empty (zero : V) (fuel : Nat) (c : Prog V) (hw : WellFormed c) {p : PState V}
    (h : Spec.exec zero fuel c PState.empty = .done p) (ws : List String) :
    ∃ ws' s, c.run zero fuel (ws, start) = some (.ok (), (ws', s)) ∧ ∀ x l, p.lists x = some l → ShowsVar s x l := by
  have := sim zero fuel c hw start PState.empty ws Rep.start
  rw [h] at this
  obtain ⟨ws', s, e, R, _⟩ := this
  exact ⟨ws', s, e, fun x l hl => R.agrees x l hl⟩

/-- C77: a program that naive semantics does not finish within a number of rounds is not finished by the library either. -/
theorem C77_diverges_partial (zero : V) (fuel : Nat) (ls : List (List V)) (c : Prog V) (hw : WellFormed c)
    (h : Spec.exec zero fuel c (PState.caller ls) = .more) (ws : List String) :
    ∃ s0, runOk zero (ls.map .callerArray) start = (.ok (), s0) ∧ c.run zero fuel (ws, s0) = none := by
  obtain ⟨s0, e0, R0⟩ := Rep.caller (zero := zero) ls
  have := sim zero fuel c hw s0 (PState.caller ls) ws R0
  rw [h] at this
  exact ⟨s0, e0, this⟩

/-- C77: a program that ends with an exception in naive semantics, its own or that of a rejected operation, ends with the same exception
in the library, and the vectors and arrays are those of naive semantics (so that a handler finds them). -/
theorem C77_throws_partial (zero : V) (fuel : Nat) (ls : List (List V)) (c : Prog V) (hw : WellFormed c) {m : String} {p : PState V}
    (h : Spec.exec zero fuel c (PState.caller ls) = .threw m p) (ws : List String) :
    ∃ s0 ws' s, runOk zero (ls.map .callerArray) start = (.ok (), s0) ∧ c.run zero fuel (ws, s0) = some (.thr m, (ws', s)) ∧
      (∀ x l, p.lists x = some l → ShowsVar s x l) ∧
      (∀ a l, p.arrays a = some l → ∀ i (hi : i < l.length), s.heap.load (some a) i = .ok l[i]) := by
  obtain ⟨s0, e0, R0⟩ := Rep.caller (zero := zero) ls
  have := sim zero fuel c hw s0 (PState.caller ls) ws R0
  rw [h] at this
  obtain ⟨ws', s, e, R, _⟩ := this
  refine ⟨s0, ws', s, e0, e, fun x l hl => R.agrees x l hl, fun a l hl i hi => ?_⟩
  obtain ⟨_, k2⟩ := R.b.arrays a l hl
  exact Heap.load_some (by rw [k2]; rfl) (by rw [k2]; exact hi) (by rw [k2]; exact List.getElem?_eq_getElem _)

/-- A loop over a vector whose body changes another vector, a nested loop over a range, and a branch on a comparison:
`x = {5, 2, 7}; s = 0; for (v : x) { for (i : colon(1, 2)) { if (v > 4) s = s + v * i; } }`. -/
def sampleLoop : Prog Int :=
  .seq (.cmd (.declExpr .ok (.rvec [5, 2, 7] {}))) <| .seq (.cmd (.declScalar 0)) <|
  .forVec 0 fun v => .forInt 1 2 fun i =>
    .ite true (.bin (fun a b => .ok (if a > b then 1 else 0)) (.scal v) (.scal 4)) (fun b => decide (b ≠ 0))
      (.cmd (.assign .ok 1 (.bin (fun a b => .ok (a + b)) (.leaf 1) (.bin (fun a b => .ok (a * b)) (.scal v) (.scal i)))))
      .skip

theorem sampleLoop_wf : WellFormed sampleLoop := by
  refine ⟨trivial, trivial, fun v => ⟨fun i b => ?_, fun i b => ?_⟩⟩
  · dsimp only
    split <;> trivial
  · dsimp only
    split
    · exact ⟨by simp [Cmd.target], fun v k h => by simp at h, fun v w k h => by simp at h, trivial, fun v w k h => by simp at h, trivial,
        trivial⟩
    · trivial

/-- The value of variable `x` in a result of naive semantics. -/
def Res.val? (r : Res V) (x : Nat) : Option (List V) :=
  match r with
  | .done p => p.lists x
  | _ => none

theorem sampleLoop_value : Res.val? (Spec.exec 0 1 sampleLoop PState.empty) 1 = some [36] := by decide +kernel

/-- The theorem applied to the sample: afterwards `s` is 36. -/
example : ∃ ws' s, sampleLoop.run 0 1 ([], start) = some (.ok (), (ws', s)) ∧ ShowsVar s 1 [36] := by
  have hv := sampleLoop_value
  cases h : Spec.exec 0 1 sampleLoop PState.empty with
  | done p =>
    rw [h] at hv
    obtain ⟨ws', s, e, hs⟩ := run_empty 0 1 sampleLoop sampleLoop_wf h []
    exact ⟨ws', s, e, hs 1 _ hv⟩
  | threw m p => rw [h] at hv; simp [Res.val?] at hv
  | more => rw [h] at hv; simp [Res.val?] at hv
  | stuck => rw [h] at hv; simp [Res.val?] at hv

/-- `x = {5, 2, 7}; n = 0; while (x > 0) { x = x - 1; n = n + 1; }` counts to 5: the first element of the condition decides. -/
def sampleWhile : Prog Int :=
  .seq (.cmd (.declExpr .ok (.rvec [5, 2, 7] {}))) <| .seq (.cmd (.declScalar 0)) <|
  .loop true (.bin (fun a b => .ok (if a > b then 1 else 0)) (.leaf 0) (.scal 0)) (fun b => decide (b ≠ 0)) <|
    .seq (.cmd (.assign .ok 0 (.bin (fun a b => .ok (a - b)) (.leaf 0) (.scal 1))))
      (.cmd (.assign .ok 1 (.bin (fun a b => .ok (a + b)) (.leaf 1) (.scal 1))))

example : Res.val? (Spec.exec 0 6 sampleWhile PState.empty) 1 = some [5] := by decide +kernel

/-- Within five rounds the loop is not finished. -/
example : sampleWhile.run 0 5 ([], start) = none := by
  obtain ⟨s0, e, h⟩ := C77_diverges_partial 0 5 [] sampleWhile ⟨trivial, trivial, trivial, trivial⟩ rfl []
  cases e
  exact h

/-- Prefix sums in the memory of the caller, `borrow x(arr, 3); double s = 0; borrow y(arr, 3); vec k = 1;`
`for (v : x) { s = s + v; y(k) = s; k = k + 1; }`: the loop reads `x` while `y`, on the same array, is changed. -/
def sampleBorrow : Prog Int :=
  .seq (.cmd (.declBorrow (some 0) 3)) <| .seq (.cmd (.declScalar 0)) <| .seq (.cmd (.declBorrow (some 0) 3)) <|
  .seq (.cmd (.declScalar 1)) <|
  .forVec 0 fun v => .seq (.cmd (.assign .ok 1 (.bin (fun a b => .ok (a + b)) (.leaf 1) (.scal v)))) <|
    .read true (.leaf 3) fun k => .index (.leaf 2) (.int k) fun r =>
      .seq (.cmd (.subAssign .ok false 2 r (.leaf 1)))
        (.cmd (.assign .ok 3 (.bin (fun a b => .ok (a + b)) (.leaf 3) (.scal 1))))

theorem sampleBorrow_wf : WellFormed sampleBorrow := by
  refine ⟨trivial, trivial, trivial, trivial, fun v => ⟨⟨trivial, fun k r => ⟨trivial, trivial⟩⟩, ⟨?_, fun k r => ⟨?_, ?_⟩⟩⟩⟩
  · exact ⟨by simp [Cmd.target], fun v k h => by simp at h, fun v w k h => by simp at h, trivial, trivial⟩
  · exact ⟨by simp [Cmd.target], fun v k h => by simp at h, trivial⟩
  · exact ⟨by simp [Cmd.target], fun v k h => by simp at h, fun v w k h => by simp at h, trivial, trivial⟩

theorem sampleBorrow_value : Res.val? (Spec.exec 0 1 sampleBorrow (PState.caller [[5, 2, 7]])) 0 = some [5, 7, 14] := by decide +kernel

/-- The theorem applied: the caller finds the prefix sums in the array. -/
example : ∃ s0 ws' s, runOk 0 [.callerArray [5, 2, 7]] start = (.ok (), s0) ∧
    sampleBorrow.run 0 1 ([], s0) = some (.ok (), (ws', s)) ∧ ShowsVar s 0 [5, 7, 14] := by
  have hv := sampleBorrow_value
  cases h : Spec.exec 0 1 sampleBorrow (PState.caller [[5, 2, 7]]) with
  | done p =>
    rw [h] at hv
    obtain ⟨s0, ws', s, e0, e, hs, _⟩ := C77_partial 0 1 [[5, 2, 7]] sampleBorrow sampleBorrow_wf h []
    exact ⟨s0, ws', s, e0, e, hs 0 _ hv⟩
  | threw m p => rw [h] at hv; simp [Res.val?] at hv
  | more => rw [h] at hv; simp [Res.val?] at hv
  | stuck => rw [h] at hv; simp [Res.val?] at hv

/-- `a = {1, 2}; b = {3}; for (i : colon(1, 3)) { vec t = a; a = b; b = t; }` with a local vector, in a `try` block. -/
def sampleSwap : Prog Int :=
  .seq (.cmd (.declExpr .ok (.rvec [1, 2] {}))) <| .seq (.cmd (.declExpr .ok (.rvec [3] {}))) <|
  .tryCatch (.forInt 1 3 fun i => .block <| .seq (.cmd (.declCopy 0)) <| .seq (.cmd (.assign .ok 0 (.leaf 1))) <|
    .cmd (.assign .ok 1 (.leaf (1 + i.toNat)))) (fun _ => .skip)

example : Res.val? (Spec.exec 0 1 sampleSwap PState.empty) 0 = some [3] ∧
    Res.val? (Spec.exec 0 1 sampleSwap PState.empty) 1 = some [1, 2] ∧
    Res.val? (Spec.exec 0 1 sampleSwap PState.empty) 2 = none := by decide +kernel

/-- The theorem applied: after three exchanges. -/
example : ∃ ws' s, sampleSwap.run 0 1 ([], start) = some (.ok (), (ws', s)) ∧ ShowsVar s 0 [3] ∧ ShowsVar s 1 [1, 2] := by
  have hv : Res.val? (Spec.exec 0 1 sampleSwap PState.empty) 0 = some [3] := by decide +kernel
  have hv' : Res.val? (Spec.exec 0 1 sampleSwap PState.empty) 1 = some [1, 2] := by decide +kernel
  have hw : WellFormed sampleSwap := ⟨trivial, trivial, fun i => ⟨trivial, trivial, trivial⟩, fun _ => trivial⟩
  cases h : Spec.exec 0 1 sampleSwap PState.empty with
  | done p =>
    rw [h] at hv hv'
    obtain ⟨ws', s, e, hs⟩ := run_empty 0 1 sampleSwap hw h []
    exact ⟨ws', s, e, hs 0 _ hv, hs 1 _ hv'⟩
  | threw m p => rw [h] at hv; simp [Res.val?] at hv
  | more => rw [h] at hv; simp [Res.val?] at hv
  | stuck => rw [h] at hv; simp [Res.val?] at hv

/-- `a = {1, 2}; for (i : colon(1, 3)) { vec t = a + a; vec u = t; u = u + i; a = t + u; }`: two vectors that live for one round. -/
def sampleLocal : Prog Int :=
  .seq (.cmd (.declExpr .ok (.rvec [1, 2] {}))) <|
  .forInt 1 3 fun i => .block <| .decl (.declExpr .ok (.bin (fun a b => .ok (a + b)) (.leaf 0) (.leaf 0))) fun t => .decl (.declCopy t) fun u =>
    .seq (.cmd (.assign .ok u (.bin (fun a b => .ok (a + b)) (.leaf u) (.scal i)))) <|
    .cmd (.assign .ok 0 (.bin (fun a b => .ok (a + b)) (.leaf t) (.leaf u)))

theorem sampleLocal_value : Res.val? (Spec.exec 0 1 sampleLocal PState.empty) 0 = some [91, 155] := by decide +kernel

example : ∃ ws' s, sampleLocal.run 0 1 ([], start) = some (.ok (), (ws', s)) ∧ ShowsVar s 0 [91, 155] := by
  have hv := sampleLocal_value
  have hw : WellFormed sampleLocal := ⟨trivial, fun i => ⟨rfl, fun t => ⟨rfl, fun u => ⟨trivial, trivial⟩⟩⟩⟩
  cases h : Spec.exec 0 1 sampleLocal PState.empty with
  | done p =>
    rw [h] at hv
    obtain ⟨ws', s, e, hs⟩ := run_empty 0 1 sampleLocal hw h []
    exact ⟨ws', s, e, hs 0 _ hv⟩
  | threw m p => rw [h] at hv; simp [Res.val?] at hv
  | more => rw [h] at hv; simp [Res.val?] at hv
  | stuck => rw [h] at hv; simp [Res.val?] at hv

/-- `x = {1, 2, 3}; n = 0; for (i : colon(1, 4)) { try { vec t = x; x[i] = 0; t = vec(); } catch (e) { n = n + (e says "out of
boundaries" ? 100 : 1); } }; throw "end";`. -/
def sampleCatch : Prog Int :=
  .seq (.cmd (.declExpr .ok (.rvec [1, 2, 3] {}))) <| .seq (.cmd (.declScalar 0)) <|
  .seq (.forInt 1 4 fun i =>
    .tryCatch (.seq (.cmd (.declCopy 0)) <| .seq (.cmd (.setElem 0 i.toNat 0)) <| .cmd (.declSize 0))
      fun m => .cmd (.assign .ok 1 (.bin (fun a b => .ok (a + b)) (.leaf 1)
        (.scal (if m = "Error: out of boundaries --> value beyond size of vector" then 100 else 1))))) <|
  .throw "end"

/-- The vectors at an exception. -/
def Res.thrown? (r : Res V) (x : Nat) : Option (String × List V) :=
  match r with
  | .threw m p => (p.lists x).map (fun l => (m, l))
  | _ => none

example : Res.thrown? (Spec.exec 0 1 sampleCatch PState.empty) 0 = some ("end", [1, 0, 0]) ∧
    Res.thrown? (Spec.exec 0 1 sampleCatch PState.empty) 1 = some ("end", [202]) ∧
    Res.thrown? (Spec.exec 0 1 sampleCatch PState.empty) 2 = none := by decide +kernel

/-- The theorem applied: two rounds of the loop write an element and fail to make an empty vector, two others fail before; the
program ends with its own exception. -/
example : ∃ s0 ws' s, runOk (0 : Int) ([].map .callerArray) start = (.ok (), s0) ∧
    sampleCatch.run 0 1 ([], s0) = some (.thr "end", (ws', s)) ∧ ShowsVar s 0 [1, 0, 0] ∧ ShowsVar s 1 [202] := by
  have hv : Res.thrown? (Spec.exec 0 1 sampleCatch (PState.caller [])) 0 = some ("end", [1, 0, 0]) := by decide +kernel
  have hv' : Res.thrown? (Spec.exec 0 1 sampleCatch (PState.caller [])) 1 = some ("end", [202]) := by decide +kernel
  have hw : WellFormed sampleCatch := ⟨trivial, trivial, fun i => ⟨⟨trivial, trivial, trivial⟩, fun _ => trivial⟩, trivial⟩
  cases h : Spec.exec 0 1 sampleCatch (PState.caller []) with
  | threw m p =>
    rw [h] at hv hv'
    simp only [Res.thrown?, Option.map_eq_some_iff, Prod.mk.injEq] at hv hv'
    obtain ⟨l, hl, rfl, rfl⟩ := hv
    obtain ⟨l, hl', _, rfl⟩ := hv'
    obtain ⟨s0, ws', s, e0, e, hs, _⟩ := C77_throws_partial 0 1 [] sampleCatch hw h []
    exact ⟨s0, ws', s, e0, e, hs 0 _ hl, hs 1 _ hl'⟩
  | done p => rw [h] at hv; simp [Res.thrown?] at hv
  | more => rw [h] at hv; simp [Res.thrown?] at hv
  | stuck => rw [h] at hv; simp [Res.thrown?] at hv

/-- `x = {4, 0, 2}; y = {0, 0, 0}; try { x = 8 / x; } catch (e) { subset(y, 1) = 7; }; try { y[{3, 9, 2}] = 5; } catch (e) {
subset(y, 2) = subset(x, 1); }; if (8 / x > 1) throw "end";`, with a division that throws for a zero divisor.  The first element of the
condition can be computed. -/
def sampleFail : Prog Int :=
  let div : Expr Int := .bin (fun a b => if b = 0 then .thr "division by zero" else .ok (a / b)) (.scal 8) (.leaf 0)
  .seq (.cmd (.declExpr .ok (.rvec [4, 0, 2] {}))) <| .seq (.cmd (.declSize 3)) <|
  .seq (.tryCatch (.cmd (.assign .ok 0 div)) fun m => if m = "division by zero" then .index (.leaf 1) (.int 1) fun r => .cmd (.subAssignScalar 1 r 7)
    else .skip) <|
  .seq (.tryCatch (.index (.leaf 1) (.vint [.i 3, .i 9, .i 2]) fun r => .cmd (.subAssignScalar 1 r 5))
    fun _ => .index (.leaf 1) (.int 2) fun r => .cmd (.subAssign .ok true 1 r (.sub (.leaf 0) [0] {}))) <|
  .read true div fun v => if v > 1 then .throw "end" else .skip

/-- The failed assignment left `x` as it was; the failed subset assignment wrote one element. -/
example : Res.thrown? (Spec.exec 0 1 sampleFail PState.empty) 0 = some ("end", [4, 0, 2]) ∧
    Res.thrown? (Spec.exec 0 1 sampleFail PState.empty) 1 = some ("end", [7, 4, 5]) := by decide +kernel

example : (sampleFail.run 0 1 ([], start)).map (fun r => (r.1, (r.2.2.st (1, false)).iterate r.2.2.heap)) =
    some (.thr "end", .ok [7, 4, 5]) := by decide +kernel

/-- `for (v : x) x.push_back(v);`. -/
def appendSelf : Prog Int :=
  .seq (.cmd (.declSize 2)) (.forVec 0 fun v => .cmd (.pushBack 0 v))

/-- C77 is false for a loop whose body extends the vector it runs over: naive semantics doubles the vector, the library reads memory
that it has released. -/
theorem C77_false : Res.val? (Spec.exec 0 1 appendSelf PState.empty) 0 = some [0, 0, 0, 0] ∧
    (appendSelf.run 0 1 ([], start)).map Prod.fst = some (.ub .useAfterFree) := by
  decide +kernel

end ETR
