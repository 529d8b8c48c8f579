import Verif.Model.DistriLock
import Verif.Props.Distri

/-! The lock and the random number state in the distribution functions: C97. -/

namespace ETR
open Spec Store

namespace Spec

/-- The disciplined use of R, `n` times: take the lock, read the state of the random numbers, call, write it back, release
the lock. -/
inductive Rounds : Nat → List Ev → Prop
  | nil : Rounds 0 []
  | more {n : Nat} {l : List Ev} : Rounds n l → Rounds (n + 1) (l ++ [.lock, .get, .call, .put, .unlock])

end Spec

theorem Rounds.append {n m : Nat} {l l' : List Ev} (h : Rounds n l) (h' : Rounds m l') : Rounds (n + m) (l ++ l') := by
  induction h' with
  | nil => simpa using h
  | more _ ih => rw [← List.append_assoc, ← Nat.add_assoc]; exact ih.more

/-- The part of a round that is done when it fails. -/
def Cut (p : List Ev) : Prop := p = [] ∨ p = [.lock, .get] ∨ p = [.lock, .get, .call]

/-- `m` does the same as `m'` on the vector, and uses the lock and the state of the random numbers in rounds, of which the last one
may have failed. -/
def InRounds {α : Type} (m : GM α) (m' : AM F64 α) : Prop :=
  ∀ s, s.1.held = false → (m s).1 = (m' s.2).1 ∧ (m s).2.2 = (m' s.2).2 ∧
    ∃ n l p, Rounds n l ∧ Cut p ∧ (m s).2.1.log = s.1.log ++ (l ++ p) ∧ (m s).2.1.held = decide (p ≠ []) ∧
      ((m s).1.isOk = true → p = [])

theorem InRounds.bind {α β : Type} {m : GM α} {m' : AM F64 α} {f : α → GM β} {f' : α → AM F64 β} (h : InRounds m m')
    (hf : ∀ a, InRounds (f a) (f' a)) : InRounds (m >>= f) (m' >>= f') := by
  intro s hs
  obtain ⟨e1, e2, n, l, p, hr, hc, hl, hh, ho⟩ := h s hs
  rw [M.bind_apply, M.bind_apply]
  rcases hm : m s with ⟨o, s1⟩
  rcases hm' : m' s.2 with ⟨o', t1⟩
  rw [hm, hm'] at e1
  rw [hm, hm'] at e2
  simp only at e1 e2
  subst e1 e2
  rw [hm] at hl hh ho
  cases o with
  | ok a =>
    have hp := ho rfl
    subst hp
    obtain ⟨e1, e2, n', l', p', hr', hc', hl', hh', ho'⟩ := hf a s1 (by simpa using hh)
    refine ⟨e1, e2, n + n', l ++ l', p', Rounds.append hr hr', hc', ?_, hh', ho'⟩
    rw [hl', hl]
    simp [List.append_assoc]
  | thr e => exact ⟨rfl, rfl, n, l, p, hr, hc, hl, hh, by simp [Out.isOk]⟩
  | ub k => exact ⟨rfl, rfl, n, l, p, hr, hc, hl, hh, by simp [Out.isOk]⟩

theorem InRounds.of_same {α : Type} {m : GM α} {m' : AM F64 α} (h : ∀ s, m s = ((m' s.2).1, (s.1, (m' s.2).2))) : InRounds m m' := by
  intro s hs
  rw [h s]
  exact ⟨rfl, rfl, 0, [], [], Rounds.nil, .inl rfl, by simp, by simpa using hs, fun _ => rfl⟩

theorem InRounds.plain {α : Type} (m : AM F64 α) : InRounds (plainM m) m := .of_same fun _ => rfl

theorem InRounds.lift {α : Type} (o : Out α) : InRounds (M.lift o) (M.lift o) := .of_same fun _ => rfl

theorem InRounds.forN {f : Nat → GM Unit} {f' : Nat → AM F64 Unit} (h : ∀ i, InRounds (f i) (f' i)) (n : Nat) :
    InRounds (M.forN n f) (M.forN n f') := by
  induction n with
  | zero => exact .of_same fun _ => rfl
  | succ n ih => rw [M.forN_succ, M.forN_succ]; exact ih.bind fun _ => h n

theorem InRounds.guarded (f : List F64 → Out F64) (args : Out (List F64)) (i : Nat) :
    InRounds (guarded f args i) (do
      let v ← M.lift (args >>= f)
      retM (Store.set i v)) := by
  intro s hs
  have e0 : ETR.guarded f args i s = (do
      let vs ← M.lift args
      ev .call
      let v ← M.lift (f vs)
      plainM (retM (Store.set i v))
      ev .put
      unlockM : GM Unit) (⟨true, s.1.log ++ [.lock, .get]⟩, s.2) := by
    rw [show s = (⟨s.1.held, s.1.log⟩, s.2) from rfl, hs]
    simp [ETR.guarded, lockM, ev, M.bind_apply]
  rw [e0]
  rcases args with vs | e | k
  · rw [M.bind_ok (M.lift_apply _ _), M.bind_ok (m := ev .call) (M.modify_apply _ _)]
    simp only
    rcases hv : f vs with v | e | k
    · rw [Out.ok_bind, hv, M.bind_ok (M.lift_apply _ _), M.bind_ok (M.lift_apply _ _)]
      rcases hset : retM (Store.set i v) s.2 with ⟨o, t⟩
      have e1 : plainM (retM (Store.set i v)) (⟨true, s.1.log ++ [.lock, .get] ++ [.call]⟩, s.2)
          = (o, (⟨true, s.1.log ++ [.lock, .get] ++ [.call]⟩, t)) := by
        unfold plainM; rw [M.zoom_apply]; simp only [hset]
      cases o with
      | ok a =>
        rw [M.bind_ok e1]
        refine ⟨rfl, rfl, 1, _, [], Rounds.nil.more, .inl rfl, ?_, rfl, fun _ => rfl⟩
        simp [ev, unlockM, M.bind_apply]
      | thr e =>
        rw [M.bind_thr e1]
        exact ⟨rfl, rfl, 0, [], [.lock, .get, .call], Rounds.nil, .inr (.inr rfl), by simp, rfl, by simp [Out.isOk]⟩
      | ub k =>
        rw [M.bind_ub e1]
        exact ⟨rfl, rfl, 0, [], [.lock, .get, .call], Rounds.nil, .inr (.inr rfl), by simp, rfl, by simp [Out.isOk]⟩
    · rw [Out.ok_bind, hv, M.bind_thr (M.lift_apply _ _), M.bind_thr (M.lift_apply _ _)]
      exact ⟨rfl, rfl, 0, [], [.lock, .get, .call], Rounds.nil, .inr (.inr rfl), by simp, rfl, by simp [Out.isOk]⟩
    · rw [Out.ok_bind, hv, M.bind_ub (M.lift_apply _ _), M.bind_ub (M.lift_apply _ _)]
      exact ⟨rfl, rfl, 0, [], [.lock, .get, .call], Rounds.nil, .inr (.inr rfl), by simp, rfl, by simp [Out.isOk]⟩
  · exact ⟨rfl, rfl, 0, [], [.lock, .get], Rounds.nil, .inr (.inl rfl), by simp [M.bind_apply], rfl, by simp [Out.isOk, M.bind_apply]⟩
  · exact ⟨rfl, rfl, 0, [], [.lock, .get], Rounds.nil, .inr (.inl rfl), by simp [M.bind_apply], rfl, by simp [Out.isOk, M.bind_apply]⟩

theorem retM_bind {α β : Type} (m : SM F64 α) (f : α → SM F64 β) : retM (m >>= f) = (retM m >>= fun a => retM (f a)) := by
  funext s
  unfold retM
  rw [M.zoom_apply, M.bind_apply, M.bind_apply, M.zoom_apply]
  rcases m s.2 with ⟨o, t⟩
  cases o <;> rfl

theorem retM_lift {α : Type} (o : Out α) : retM (V := F64) (M.lift o) = M.lift o := rfl

theorem retM_forN (f : Nat → SM F64 Unit) (n : Nat) : retM (M.forN n f) = M.forN n (fun i => retM (f i)) := by
  induction n with
  | zero => rfl
  | succ n ih => rw [M.forN_succ, M.forN_succ, retM_bind, ih]

theorem InRounds.step (f : List F64 → Out F64) (args : List (View F64)) (i : Nat) :
    InRounds (ETR.guarded f (cycArgs args i) i) (retM (do
      let v ← M.lift (distEl f args i)
      Store.set i v)) := by
  rw [retM_bind, retM_lift]
  exact InRounds.guarded f (cycArgs args i) i

theorem InRounds.loop (f : Nat → List F64 → Out F64) (args : List (View F64)) :
    InRounds (guardedLoop f args) (retM (do
      let s ← Store.self
      M.forN s.sz (fun i => do
        let v ← M.lift (distEl (f i) args i)
        Store.set i v))) := by
  rw [retM_bind]
  unfold guardedLoop
  have e : (retM (V := F64) Store.self >>= fun s => retM (M.forN s.sz (fun i => do
        let v ← M.lift (distEl (f i) args i)
        Store.set i v))) = ((M.reads (fun s => .ok s.2.2.sz) : AM F64 Nat) >>= fun n => retM (M.forN n (fun i => do
        let v ← M.lift (distEl (f i) args i)
        Store.set i v))) := by
    funext s; rfl
  rw [e]
  refine InRounds.bind (.of_same fun _ => rfl) fun n => ?_
  rw [retM_forN]
  exact InRounds.forN (fun i => InRounds.step (f i) args i) n

theorem InRounds.draws (draw : Nat → List F64 → Out F64) (n : Nat) (a b : View F64) :
    InRounds (M.forN n (fun i => ETR.guarded (draw i) (cycArgs [a, b] i) i)) (drawLoop draw n a b) := by
  unfold drawLoop
  rw [retM_forN]
  exact InRounds.forN (fun i => InRounds.step (draw i) [a, b] i) n

theorem InRounds.dens (f : List F64 → Out F64) (x a b lg : View F64) : InRounds (densBody f x a b lg) (ETR.dens f x a b lg) := by
  unfold densBody ETR.dens
  split
  · refine (InRounds.plain _).bind fun _ => ?_
    exact InRounds.guarded f _ 0
  · exact (InRounds.plain _).bind fun _ => InRounds.loop (fun _ => f) _

theorem InRounds.prob (f : List F64 → Out F64) (x a b lo lg : View F64) : InRounds (probBody f x a b lo lg) (ETR.prob f x a b lo lg) := by
  unfold probBody ETR.prob
  split
  · refine (InRounds.plain _).bind fun _ => ?_
    exact InRounds.guarded f _ 0
  · exact (InRounds.plain _).bind fun _ => InRounds.loop (fun _ => f) _

theorem InRounds.drawLong (draw : Nat → List F64 → Out F64) (x a b : View F64) :
    InRounds (drawLongBody draw x a b) (ETR.drawLong draw x a b) := by
  unfold drawLongBody ETR.drawLong guardedLoop
  refine (InRounds.plain _).bind fun _ => ?_
  have e : (do let r ← M.get; drawLoop draw r.2.2.sz a b : AM F64 Unit)
      = ((M.reads (fun s => .ok s.2.2.sz) : AM F64 Nat) >>= fun n => drawLoop draw n a b) := by
    funext s; rfl
  rw [e]
  exact InRounds.bind (.of_same fun _ => rfl) fun n => InRounds.draws draw n a b

theorem InRounds.runif (draw : Nat → List F64 → Out F64) (x a b : View F64) : InRounds (runifBody draw x a b) (ETR.runif draw x a b) := by
  unfold runifBody ETR.runif
  split
  · exact (InRounds.lift _).bind fun _ => (InRounds.plain _).bind fun _ => (InRounds.lift _).bind fun n => InRounds.draws draw n a b
  · exact InRounds.drawLong draw x a b

theorem InRounds.rdist (draw : Nat → List F64 → Out F64) (x a b : View F64) : InRounds (rdistBody draw x a b) (ETR.rdist draw x a b) := by
  unfold rdistBody ETR.rdist
  split
  · exact (InRounds.lift _).bind fun n => (InRounds.plain _).bind fun _ => InRounds.draws draw n a b
  · exact InRounds.drawLong draw x a b

theorem DCall.keeps (c : DCall) : InRounds c.body c.unlocked := by
  cases c with
  | dens f x a b lg => exact InRounds.dens f x a b lg
  | prob f x a b lo lg => exact InRounds.prob f x a b lo lg
  | runif draw x a b => exact InRounds.runif draw x a b
  | rdist draw x a b => exact InRounds.rdist draw x a b
  | dgamma f x s r lg => exact (InRounds.lift _).bind fun _ => InRounds.dens f x s _ lg
  | pgamma f x s r lo lg => exact (InRounds.lift _).bind fun _ => InRounds.prob f x s _ lo lg
  | rgamma draw x s r => exact (InRounds.lift _).bind fun _ => InRounds.rdist draw x s _

/-- C97 for calls that return: R is called in rounds only, and in the end the lock is free and the state of the random numbers is
written back; the result is the one of C68.  What is missing: calls that throw (`C97_false`). -/
theorem C97_partial (c : DCall) {r r' : List String × (Heap F64 × Store)} {g : Guard}
    (h : c.run ({}, r) = (.ok (), (g, r'))) :
    g.held = false ∧ (∃ n, Rounds n g.log) ∧ c.unlocked r = (.ok (), r') := by
  obtain ⟨e1, e2, n, l, p, hr, hc, hl, hh, ho⟩ := c.keeps ({}, r) rfl
  unfold DCall.run withMutex at h
  simp only at h
  split at h
  · simp at h
  · rw [h] at e1 e2 hl hh ho
    have hp := ho rfl
    subst hp
    refine ⟨by simpa using hh, ⟨n, by simpa using (show g.log = l by simpa using hl) ▸ hr⟩, ?_⟩
    exact Prod.ext e1.symm e2.symm

/-- What happens in a call that throws in the model without the lock (C68): if R was not in use, the exception arrives and the lock
is free; otherwise the mutex is destroyed while it is locked, and the state of the random numbers has not been written back. -/
theorem C97_exception_characterised (c : DCall) {r r' : List String × (Heap F64 × Store)} {e : String}
    (h : c.unlocked r = (.thr e, r')) :
    ∃ n l g, Rounds n l ∧
      ((c.run ({}, r) = (.thr e, (g, r')) ∧ g.held = false ∧ g.log = l) ∨
       (c.run ({}, r) = (.ub .lockedMutex, (g, r')) ∧ (g.log = l ++ [.lock, .get] ∨ g.log = l ++ [.lock, .get, .call]))) := by
  obtain ⟨e1, e2, n, l, p, hr, hc, hl, hh, ho⟩ := c.keeps ({}, r) rfl
  rcases hb : c.body ({}, r) with ⟨o, g, t⟩
  rw [hb] at e1 e2 hl hh ho
  rw [h] at e1 e2
  simp only [List.nil_append] at e1 e2 hl hh
  subst e1 e2
  refine ⟨n, l, g, hr, ?_⟩
  unfold DCall.run withMutex
  rw [hb]
  rcases hc with rfl | rfl | rfl
  · left
    have : g.held = false := by simpa using hh
    refine ⟨?_, this, by simpa using hl⟩
    simp [this]
  · right
    have : g.held = true := by simpa using hh
    simp only [this]
    exact ⟨rfl, .inl hl⟩
  · right
    have : g.held = true := by simpa using hh
    simp only [this]
    exact ⟨rfl, .inr hl⟩

/-- C97 for calls that throw: an exception that arrives at the caller leaves the lock free and the random numbers written back. -/
theorem C97_exception_partial (c : DCall) {r r' : List String × (Heap F64 × Store)} {g : Guard} {e : String}
    (h : c.run ({}, r) = (.thr e, (g, r'))) : g.held = false ∧ ∃ n, Rounds n g.log := by
  obtain ⟨e1, e2, n, l, p, hr, hc, hl, hh, ho⟩ := c.keeps ({}, r) rfl
  unfold DCall.run withMutex at h
  simp only at h
  split at h
  · simp at h
  · rename_i hheld
    rw [h] at hl hh hheld
    have hg : g.held = false := by simpa using hheld
    rw [hg] at hh
    have hp : p = [] := by by_contra hp; simp [hp] at hh
    subst hp
    exact ⟨hg, n, by simpa using (show g.log = l by simpa using hl) ▸ hr⟩

/-- C97 is false: `rnorm`, `rlnorm` and `rgamma` that are asked for two or more values destroy the locked mutex, and the state of the
random numbers is not written back. -/
theorem C97_false {draw : Nat → List F64 → Out F64} {x a b : View F64} {q : ℚ} {a0 b0 : F64} (hx : x.Has [.fin q]) (ha : a.Has [a0])
    (hb : b.Has [b0]) (h1 : 2 ≤ q) (h2 : q < 2 ^ 64) (hd : ∀ i, ∃ v, draw i [a0, b0] = .ok v) {h : Heap F64} (hs : h.sched = [])
    (ws : List String) :
    ∃ t, (DCall.rdist draw x a b).run ({}, (ws, (h, {}))) = (.ub .lockedMutex, t) ∧ t.1.held = true ∧
      t.1.log = [.lock, .get, .call, .put, .unlock, .lock, .get, .call] := by
  have ht : F64.truncQ q = ⌊q⌋ := truncQ_of_nonneg (by linarith)
  have f1 : 2 ≤ ⌊q⌋ := Int.le_floor.mpr (by exact_mod_cast h1)
  have f2 : ⌊q⌋ < 2 ^ 64 := by rw [Int.floor_lt]; exact_mod_cast h2
  obtain ⟨m, hm⟩ : ∃ m, ⌊q⌋.toNat = m + 2 := ⟨⌊q⌋.toNat - 2, by omega⟩
  have e2 : F64.toSizeT (.fin q) = .ok (m + 2) := by
    simp only [F64.toSizeT, ht]; rw [if_pos (by unfold two64; push_cast; omega), hm]
  obtain ⟨r, e, R⟩ := ctorNum_spec hs (m + 2) ws
  have c : ∀ i, cycArgs [a, b] i = .ok [a0, b0] := by
    intro i
    have c' : ∀ {a : View F64} {v : F64}, a.Has [v] → a.cyc i = .ok v := by
      intro a v h; rw [h.cyc (by simp)]; simp [Nat.mod_one]
    simp [cycArgs, c' ha, c' hb, Out.all]
  obtain ⟨v0, d0⟩ := hd 0
  obtain ⟨v1, d1⟩ := hd 1
  obtain ⟨r1, s1, R1⟩ := R.set (i := 0) v0 (by simp)
  obtain ⟨msg, s2⟩ := R1.set_thr (i := 1) v1 (by simp)
  have g0 : guarded (draw 0) (cycArgs [a, b] 0) 0 (⟨false, []⟩, (ws, r))
      = (.ok (), (⟨false, [.lock, .get, .call, .put, .unlock]⟩, (ws, r1))) := by
    rw [c]
    simp [guarded, lockM, unlockM, ev, M.bind_apply, d0, plainM, retM, s1]
  have g1 : guarded (draw 1) (cycArgs [a, b] 1) 1 (⟨false, [.lock, .get, .call, .put, .unlock]⟩, (ws, r1))
      = (.thr msg, (⟨true, [.lock, .get, .call, .put, .unlock, .lock, .get, .call]⟩, (ws, r1))) := by
    rw [c]
    simp [guarded, lockM, ev, M.bind_apply, d1, plainM, retM, s2]
  have loop : ∀ k, M.forN (k + 2) (fun i => guarded (draw i) (cycArgs [a, b] i) i) (⟨false, []⟩, (ws, r))
      = (.thr msg, (⟨true, [.lock, .get, .call, .put, .unlock, .lock, .get, .call]⟩, (ws, r1))) := by
    intro k
    induction k with
    | zero =>
      rw [M.forN_succ, M.forN_succ, M.forN_zero]
      rw [M.bind_ok (a := ()) (s' := (⟨false, [.lock, .get, .call, .put, .unlock]⟩, (ws, r1))) g0]
      exact g1
    | succ k ih => rw [M.forN_succ, M.bind_thr ih]
  have body : (DCall.rdist draw x a b).body ({}, (ws, (h, {})))
      = (.thr msg, (⟨true, [.lock, .get, .call, .put, .unlock, .lock, .get, .call]⟩, (ws, r1))) := by
    show rdistBody draw x a b _ = _
    unfold rdistBody
    rw [if_pos ⟨hx.1, ha.1, hb.1⟩, lift_bind_ok (a := m + 2) (by rw [hx.zero]; exact e2),
      M.bind_ok (a := ()) (s' := (⟨false, []⟩, (ws, r))) (by unfold plainM; rw [M.zoom_apply]; simp only [e])]
    exact loop m
  refine ⟨(⟨true, [.lock, .get, .call, .put, .unlock, .lock, .get, .call]⟩, (ws, r1)), ?_, rfl, rfl⟩
  unfold DCall.run withMutex
  rw [body]
  rfl

/-- C97 is false: a distribution function without a value for `lower` destroys the locked mutex. -/
theorem C97_false_lower {f : List F64 → Out F64} {x a b lo lg : View F64} {x0 a0 b0 g0 : F64} {msg : String} (hx : x.Has [x0]) (ha : a.Has [a0])
    (hb : b.Has [b0]) (hl : lo.el 0 = .thr msg) (hg : lg.Has [g0]) {h : Heap F64} (hs : h.sched = []) (ws : List String) :
    ∃ t, (DCall.prob f x a b lo lg).run ({}, (ws, (h, {}))) = (.ub .lockedMutex, t) ∧ t.1.log = [.lock, .get] := by
  obtain ⟨r, e, R⟩ := ctorNum_spec hs 1 ws
  have body : (DCall.prob f x a b lo lg).body ({}, (ws, (h, {}))) = (.thr msg, (⟨true, [.lock, .get]⟩, (ws, r))) := by
    show probBody f x a b lo lg _ = _
    unfold probBody
    rw [if_pos ⟨hx.1, ha.1, hb.1, hg.1⟩, M.bind_ok (a := ()) (s' := (⟨false, []⟩, (ws, r))) (by
      unfold plainM; rw [M.zoom_apply]; simp only [e])]
    simp [guarded, lockM, ev, M.bind_apply, Out.all, hx.zero, ha.zero, hb.zero, hl]
  refine ⟨(⟨true, [.lock, .get]⟩, (ws, r)), ?_, rfl⟩
  unfold DCall.run withMutex
  rw [body]
  rfl

/-- A vector given by its elements. -/
def View.ofList (l : List F64) : View F64 := ⟨l.length, fun i => match l[i]? with
  | some v => .ok v
  | none => .thr "out of boundaries", .ub .oob⟩

/-- One random value is drawn in one round; two values lock the mutex again and fail; a density of two points is one round. -/
example :
    let one := View.ofList [.fin 1]
    let two := View.ofList [.fin 2]
    let pts := View.ofList [.fin 3, .fin 5]
    let draw : Nat → List F64 → Out F64 := fun i _ => .ok (F64.ofNat (i + 7))
    let s0 : Guard × (List String × (Heap F64 × Store)) := ({}, ([], (Heap.empty, {})))
    ((DCall.rdist draw one one one).run s0).1 = .ok () ∧
    ((DCall.rdist draw one one one).run s0).2.1.log = [.lock, .get, .call, .put, .unlock] ∧
    ((DCall.rdist draw two one one).run s0).1 = .ub .lockedMutex ∧
    ((DCall.runif draw two one one).run s0).2.1.log =
      [.lock, .get, .call, .put, .unlock, .lock, .get, .call, .put, .unlock] ∧
    ((DCall.dens (fun _ => .ok (.fin 4)) pts one one one).run s0).2.1 = ⟨false, [.lock, .get, .call, .put, .unlock]⟩ ∧
    ((DCall.runif draw (View.ofList [.fin 0]) one one).run s0).1 = .thr "Size has to be larger than 0" := by
  decide +kernel

/-- `C97_partial`, `C97_exception_characterised` and `C97_exception_partial` applied. -/
example : ∃ g r', (DCall.runif (fun i _ => .ok (F64.ofNat i)) (View.ofList [.fin 2]) (View.ofList [.fin 1]) (View.ofList [.fin 1])).run
    ({}, ([], (Heap.empty, {}))) = (.ok (), (g, r')) ∧ g.held = false ∧ ∃ n, Rounds n g.log := by
  have e : (DCall.runif (fun i _ => .ok (F64.ofNat i)) (View.ofList [.fin 2]) (View.ofList [.fin 1]) (View.ofList [.fin 1])).run
    ({}, ([], (Heap.empty, {}))) = (.ok (), (_, _)) := Prod.ext (by decide +kernel) rfl
  obtain ⟨h1, h2, _⟩ := C97_partial _ e
  exact ⟨_, _, e, h1, h2⟩

example : ∃ n l g, Rounds n l ∧ ∃ r', (DCall.rdist (fun i _ => .ok (F64.ofNat i)) (View.ofList [.fin 2]) (View.ofList [.fin 1])
    (View.ofList [.fin 1])).run ({}, ([], (Heap.empty, {}))) = (.ub .lockedMutex, (g, r')) ∧
      (g.log = l ++ [.lock, .get] ∨ g.log = l ++ [.lock, .get, .call]) := by
  have e : (DCall.rdist (fun i _ => .ok (F64.ofNat i)) (View.ofList [.fin 2]) (View.ofList [.fin 1]) (View.ofList [.fin 1])).unlocked
    ([], (Heap.empty, {})) = (.thr "Error: out of boundaries --> value beyond size of vector", _) := Prod.ext (by decide +kernel) rfl
  obtain ⟨n, l, g, hr, h | h⟩ := C97_exception_characterised _ e
  · have : ((DCall.rdist (fun i _ => .ok (F64.ofNat i)) (View.ofList [.fin 2]) (View.ofList [.fin 1])
      (View.ofList [.fin 1])).run ({}, ([], (Heap.empty, {})))).1 = .ub .lockedMutex := by decide +kernel
    rw [h.1] at this
    cases this
  · exact ⟨n, l, g, hr, _, h⟩

example : ∃ e g r', (DCall.runif (fun i _ => .ok (F64.ofNat i)) (View.ofList [.fin 0]) (View.ofList [.fin 1]) (View.ofList [.fin 1])).run
    ({}, ([], (Heap.empty, {}))) = (.thr e, (g, r')) ∧ g.held = false := by
  have h : ((DCall.runif (fun i _ => .ok (F64.ofNat i)) (View.ofList [.fin 0]) (View.ofList [.fin 1]) (View.ofList [.fin 1])).run
    ({}, ([], (Heap.empty, {})))).1 = .thr "Size has to be larger than 0" := by decide +kernel
  match e : (DCall.runif (fun i _ => .ok (F64.ofNat i)) (View.ofList [.fin 0]) (View.ofList [.fin 1]) (View.ofList [.fin 1])).run
    ({}, ([], (Heap.empty, {}))) with
  | (o, (g, r')) =>
    rw [e] at h
    have h : o = _ := h
    subst h
    exact ⟨_, g, r', rfl, (C97_exception_partial _ e).1⟩

end ETR
