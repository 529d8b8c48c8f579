import Verif.Model.Threads
import Verif.Props.DistriLock

/-! C100: distribution functions in several threads. -/

namespace ETR
open Spec

namespace Spec

/-- The thread has read the seed and has not yet written it back: its next step is the call or `PutRNGstate()`. -/
def Using (s : Threads) (t : Nat) : Prop := ∃ m r, s.rest t = (m, .call) :: r ∨ s.rest t = (m, .put) :: r

/-- The thread is computing a value: its next step is not `m.lock()`. -/
def Busy (s : Threads) (t : Nat) : Prop := ∃ m e r, s.rest t = (m, e) :: r ∧ e ≠ Ev.lock

/-- The numbers that were taken are the first numbers of the stream, each of them once and in order. -/
def InOrder (s : Threads) : Prop := s.drawn.map Prod.snd = List.range s.drawn.length

/-- In all states of a run at most one thread is computing a value. -/
def Serial (s : Threads) (ts : List Nat) : Prop :=
  ∀ k s', s.run (ts.take k) = some s' → ∀ t u, Busy s' t → Busy s' u → t = u

/-- The steps of calls that return. -/
def Returning (calls : Nat → List (List Ev)) : Prop :=
  ∀ t, ∀ l ∈ calls t, ∃ c r g r', DCall.run c ({}, r) = (.ok (), (g, r')) ∧ g.log = l

end Spec

/-- The rest of a thread between two values. -/
inductive Free : List (MutexId × Ev) → Prop
  | nil : Free []
  | more {m : MutexId} {r : List (MutexId × Ev)} : Free r →
      Free ((m, .lock) :: (m, .get) :: (m, .call) :: (m, .put) :: (m, .unlock) :: r)

/-- Where a thread is. -/
inductive At : List (MutexId × Ev) → Prop
  | free {r : List (MutexId × Ev)} : Free r → At r
  | get {m : MutexId} {r : List (MutexId × Ev)} : Free r → At ((m, .get) :: (m, .call) :: (m, .put) :: (m, .unlock) :: r)
  | call {m : MutexId} {r : List (MutexId × Ev)} : Free r → At ((m, .call) :: (m, .put) :: (m, .unlock) :: r)
  | put {m : MutexId} {r : List (MutexId × Ev)} : Free r → At ((m, .put) :: (m, .unlock) :: r)
  | unlock {m : MutexId} {r : List (MutexId × Ev)} : Free r → At ((m, .unlock) :: r)

theorem Free.append {l r : List (MutexId × Ev)} (h : Free l) (h' : Free r) : Free (l ++ r) := by
  induction h with
  | nil => exact h'
  | more _ ih => exact ih.more

theorem rounds_free {n : Nat} {l : List Ev} (h : Rounds n l) (m : MutexId) : Free (l.map fun e => (m, e)) := by
  induction h with
  | nil => exact .nil
  | more _ ih => rw [List.map_append]; exact ih.append Free.nil.more

theorem Spec.Returning.rounds {calls : Nat → List (List Ev)} (h : Returning calls) (t : Nat) : ∀ l ∈ calls t, ∃ n, Rounds n l := by
  intro l hl
  obtain ⟨c, r, g, r', e, rfl⟩ := h t l hl
  exact (C97_partial c e).2.1

theorem threadSteps_free (t : Nat) : ∀ (k : Nat) (ls : List (List Ev)), (∀ l ∈ ls, ∃ n, Rounds n l) → Free (threadSteps t k ls)
  | _, [], _ => .nil
  | k, l :: ls, h => by
    obtain ⟨n, hn⟩ := h l (by simp)
    exact (rounds_free hn _).append (threadSteps_free t (k + 1) ls fun l' hl => h l' (by simp [hl]))

theorem threadSteps_owner (t : Nat) : ∀ (k : Nat) (ls : List (List Ev)), ∀ x ∈ threadSteps t k ls, x.1.1 = t
  | _, [], _, h => by simp [threadSteps] at h
  | k, l :: ls, x, h => by
    rw [threadSteps, List.mem_append, List.mem_map] at h
    rcases h with ⟨e, _, rfl⟩ | h
    · rfl
    · exact threadSteps_owner t (k + 1) ls x h

/-- What holds in all states of a serial run. -/
structure SeqInv (s : Threads) : Prop where
  pos : ∀ t, At (s.rest t)
  cur : ∀ t, Using s t → s.cur = s.drawn.length
  seed : (∀ t m r, s.rest t ≠ (m, .put) :: r) → s.seed = s.drawn.length
  order : InOrder s

theorem advance_same (s : Threads) (t : Nat) (r : List (MutexId × Ev)) : (s.advance t r).rest t = r := by simp [Threads.advance]
theorem advance_ne (s : Threads) {t u : Nat} (r : List (MutexId × Ev)) (h : u ≠ t) : (s.advance t r).rest u = s.rest u := by
  simp [Threads.advance, h]

theorem Spec.Using.busy {s : Threads} {t : Nat} (h : Using s t) : Busy s t := by
  obtain ⟨m, r, h | h⟩ := h
  · exact ⟨m, _, r, h, by simp⟩
  · exact ⟨m, _, r, h, by simp⟩

theorem SeqInv.pos_advance {s : Threads} (I : SeqInv s) {t : Nat} {r : List (MutexId × Ev)} (h : At r) (u : Nat) :
    At ((s.advance t r).rest u) := by
  by_cases hu : u = t
  · subst hu; rw [advance_same]; exact h
  · rw [advance_ne _ _ hu]; exact I.pos u

theorem SeqInv.step {s s' : Threads} (I : SeqInv s) (hs : ∀ t u, Busy s t → Busy s u → t = u) {t : Nat} (h : s.step t = some s') :
    SeqInv s' := by
  have hp := I.pos t
  have using_ne : ∀ {s1 : Threads} {r u}, s1.rest = (s.advance t r).rest → u ≠ t → Using s1 u → Using s u := by
    intro s1 r u e hu h
    unfold Using at h ⊢
    rwa [e, advance_ne _ _ hu] at h
  generalize hr : s.rest t = l at hp
  unfold Threads.step at h
  rw [hr] at h
  cases hp with
  | free hf =>
    cases hf with
    | nil => simp at h
    | @more m r hf =>
      simp only at h
      split at h
      · simp at h
      · simp only [Option.some.injEq] at h
        subst h
        refine ⟨I.pos_advance (.get hf), fun u hu => ?_, fun hn => I.seed fun u m' r' e => ?_, I.order⟩
        · by_cases hut : u = t
          · subst hut
            obtain ⟨m', r', hu⟩ := hu
            simp [Threads.advance] at hu
          · exact I.cur u (using_ne rfl hut hu)
        · by_cases hut : u = t
          · subst hut; rw [hr] at e; simp at e
          · exact hn u m' r' (by show (s.advance t _).rest u = _; rw [advance_ne _ _ hut]; exact e)
  | @get m r hf =>
    simp only [Option.some.injEq] at h
    subst h
    have hb : Busy s t := ⟨_, _, _, hr, by simp⟩
    have hseed : s.seed = s.drawn.length := I.seed fun u m' r' e => by
      have := hs u t ⟨_, _, _, e, by simp⟩ hb
      subst this
      rw [hr] at e; simp at e
    exact ⟨I.pos_advance (.call hf), fun _ _ => hseed, fun _ => hseed, I.order⟩
  | @call m r hf =>
    simp only [Option.some.injEq] at h
    subst h
    have hc := I.cur t ⟨_, _, .inl hr⟩
    refine ⟨I.pos_advance (.put hf), fun _ _ => by simp [hc], fun hn => ?_, ?_⟩
    · exact absurd (advance_same s t _) (hn t m _)
    · have := I.order
      unfold InOrder at this ⊢
      simp only [List.map_append, List.length_append, List.length_map, List.length_range, this, hc, List.range_add, List.map_map]
      rfl
  | @put m r hf =>
    simp only [Option.some.injEq] at h
    subst h
    have hc := I.cur t ⟨_, _, .inr hr⟩
    exact ⟨I.pos_advance (.unlock hf), fun _ _ => hc, fun _ => hc, I.order⟩
  | @unlock m r hf =>
    simp only [Option.some.injEq] at h
    subst h
    refine ⟨I.pos_advance (.free hf), fun u hu => ?_, fun hn => I.seed fun u m' r' e => ?_, I.order⟩
    · by_cases hut : u = t
      · subst hut
        obtain ⟨m', r', hu⟩ := hu
        simp only [advance_same] at hu
        cases hf <;> simp at hu
      · exact I.cur u (using_ne rfl hut hu)
    · by_cases hut : u = t
      · subst hut; rw [hr] at e; simp at e
      · exact hn u m' r' (by show (s.advance t _).rest u = _; rw [advance_ne _ _ hut]; exact e)

theorem SeqInv.run {ts : List Nat} : ∀ {s s' : Threads}, SeqInv s → Serial s ts → s.run ts = some s' → SeqInv s' := by
  induction ts with
  | nil => intro s s' I _ h; simp only [Threads.run, Option.some.injEq] at h; subst h; exact I
  | cons t ts ih =>
    intro s s' I hs h
    unfold Threads.run at h
    split at h
    · simp at h
    · rename_i s1 e
      refine ih (I.step (hs 0 s (by simp [Threads.run])) e) (fun k s2 h2 => ?_) h
      refine hs (k + 1) s2 ?_
      rw [List.take_succ_cons]
      unfold Threads.run
      rw [e]
      exact h2

theorem SeqInv.init {takes : MutexId → Nat → Nat} {calls : Nat → List (List Ev)} (h : Returning calls) : SeqInv (Threads.init takes calls) where
  pos t := .free (threadSteps_free t 0 _ (h.rounds t))
  cur t hu := by
    have hf : Free ((Threads.init takes calls).rest t) := threadSteps_free t 0 _ (h.rounds t)
    obtain ⟨m, r, hu⟩ := hu
    generalize (Threads.init takes calls).rest t = l at hf hu
    cases hf <;> simp at hu
  seed _ := rfl
  order := rfl

/-- C100, what holds: if the caller sees to it that at most one thread computes a value at any time (for example because there is only
one thread, or a lock of the caller around the calls), then in every run of any number of threads with any calls that return the
random numbers that were taken are the first ones of the stream, each of them once and in order, as in a program without threads.

Missing: the functions do not see to it themselves (`C100_false`, `C100_twice_false`); exceptions (C97). -/
theorem C100_partial {takes : MutexId → Nat → Nat} {calls : Nat → List (List Ev)} (h : Returning calls) {ts : List Nat} {s : Threads}
    (hs : Serial (Threads.init takes calls) ts) (hr : (Threads.init takes calls).run ts = some s) : InOrder s :=
  (SeqInv.run (SeqInv.init h) hs hr).order

/-- In all runs of a single thread at most one thread computes a value. -/
theorem serial_one {t : Nat} : ∀ (ts : List Nat) (s : Threads), (∀ u, u ≠ t → s.rest u = []) → Serial s ts := by
  have key : ∀ (ts : List Nat) (s s' : Threads), (∀ u, u ≠ t → s.rest u = []) → s.run ts = some s' → ∀ u, u ≠ t → s'.rest u = [] := by
    intro ts
    induction ts with
    | nil => intro s s' h e; simp only [Threads.run, Option.some.injEq] at e; subst e; exact h
    | cons v ts ih =>
      intro s s' h e
      unfold Threads.run at e
      split at e
      · simp at e
      · rename_i s1 e1
        refine ih s1 s' (fun u hu => ?_) e
        have hv : v = t := by
          by_contra hv
          unfold Threads.step at e1
          rw [h v hv] at e1
          simp at e1
        subst hv
        have : s1.rest u = s.rest u := by
          unfold Threads.step at e1
          split at e1
          · simp at e1
          · split at e1
            · simp at e1
            · simp only [Option.some.injEq] at e1; subst e1; exact advance_ne _ _ hu
          all_goals (simp only [Option.some.injEq] at e1; subst e1; exact advance_ne _ _ hu)
        rw [this]; exact h u hu
  intro ts s h k s' e u v hu hv
  have := key (ts.take k) s s' h e
  obtain ⟨m, e1, r, h1, _⟩ := hu
  obtain ⟨m', e2, r', h2, _⟩ := hv
  by_cases h3 : u = t
  · by_cases h4 : v = t
    · rw [h3, h4]
    · rw [this v h4] at h2; simp at h2
  · rw [this u h3] at h1; simp at h1

/-- C100 for one thread: the numbers are taken in order. -/
theorem C100_one_partial {takes : MutexId → Nat → Nat} {calls : Nat → List (List Ev)} (h : Returning calls) {t : Nat} (ho : ∀ u, u ≠ t → calls u = []) {ts : List Nat}
    {s : Threads} (hr : (Threads.init takes calls).run ts = some s) : InOrder s :=
  C100_partial h (serial_one (t := t) ts _ fun u hu => by simp [Threads.init, ho u hu, threadSteps]) hr

/-- The beginning of a thread that has a value to compute. -/
theorem start_of_value {takes : MutexId → Nat → Nat} {calls : Nat → List (List Ev)} (h : Returning calls) {t : Nat} (hne : ∃ l ∈ calls t, l ≠ []) :
    ∃ k r, (Threads.init takes calls).rest t
      = ((t, k), .lock) :: ((t, k), .get) :: ((t, k), .call) :: ((t, k), .put) :: ((t, k), .unlock) :: r := by
  have hf : Free (threadSteps t 0 (calls t)) := threadSteps_free t 0 _ (h.rounds t)
  have hm := threadSteps_owner t 0 (calls t)
  have hn : threadSteps t 0 (calls t) ≠ [] := by
    obtain ⟨l, hl, hl0⟩ := hne
    have : ∀ (k : Nat) (ls : List (List Ev)), l ∈ ls → threadSteps t k ls ≠ [] := by
      intro k ls
      induction ls generalizing k with
      | nil => simp
      | cons a as ih =>
        intro hmem
        rw [threadSteps]
        rcases List.mem_cons.mp hmem with rfl | hmem
        · simp [hl0]
        · simp [ih (k + 1) hmem]
    exact this 0 _ hl
  show ∃ k r, threadSteps t 0 (calls t) = _
  generalize threadSteps t 0 (calls t) = l at hf hm hn
  cases hf with
  | nil => simp at hn
  | @more m r _ =>
    obtain ⟨a, k⟩ := m
    have : a = t := hm ((a, k), .lock) (by simp)
    subst this
    exact ⟨k, r, rfl⟩

theorem run_cons {s s' : Threads} {t : Nat} {ts : List Nat} (h : s.step t = some s') : s.run (t :: ts) = s'.run ts := by
  rw [Threads.run, h]

theorem step_lock {s : Threads} {t : Nat} {m : MutexId} {r : List (MutexId × Ev)} (h : s.rest t = (m, .lock) :: r) (ho : s.owner m = none) :
    s.step t = some { s.advance t r with owner := fun n => if n = m then some t else s.owner n } := by
  rw [Threads.step, h]; simp only [ho]

theorem step_get {s : Threads} {t : Nat} {m : MutexId} {r : List (MutexId × Ev)} (h : s.rest t = (m, .get) :: r) :
    s.step t = some { s.advance t r with cur := s.seed } := by
  rw [Threads.step, h]

theorem step_call {s : Threads} {t : Nat} {m : MutexId} {r : List (MutexId × Ev)} (h : s.rest t = (m, .call) :: r) :
    s.step t = some { s.advance t r with
      drawn := s.drawn ++ (List.range (s.takes m s.cur)).map (fun i => (t, s.cur + i)), cur := s.cur + s.takes m s.cur } := by
  rw [Threads.step, h]

/-- Lock, `GetRNGstate()` and the call of a thread. -/
theorem run_begin {s : Threads} {t : Nat} {m : MutexId} {r : List (MutexId × Ev)}
    (h : s.rest t = (m, .lock) :: (m, .get) :: (m, .call) :: r) (ho : s.owner m = none) :
    ∃ s', s.run [t, t, t] = some s' ∧ s'.rest t = r ∧ (∀ u, u ≠ t → s'.rest u = s.rest u) ∧ (∀ n, n ≠ m → s'.owner n = s.owner n) ∧
      s'.seed = s.seed ∧ s'.takes = s.takes ∧ s'.drawn = s.drawn ++ (List.range (s.takes m s.seed)).map (fun i => (t, s.seed + i)) := by
  have e1 := step_lock h ho
  generalize hs1 : ({ s.advance t _ with owner := fun n => if n = m then some t else s.owner n } : Threads) = s1 at e1
  have e2 := step_get (s := s1) (t := t) (m := m) (by rw [← hs1]; exact advance_same _ _ _)
  generalize hs2 : ({ s1.advance t _ with cur := s1.seed } : Threads) = s2 at e2
  have e3 := step_call (s := s2) (t := t) (m := m) (by rw [← hs2]; exact advance_same _ _ _)
  generalize hs3 : ({ s2.advance t r with
      drawn := s2.drawn ++ (List.range (s2.takes m s2.cur)).map (fun i => (t, s2.cur + i)), cur := s2.cur + s2.takes m s2.cur } : Threads)
    = s3 at e3
  refine ⟨s3, by rw [run_cons e1, run_cons e2, run_cons e3, Threads.run], by rw [← hs3]; exact advance_same _ _ _, fun u hu => ?_,
    fun n hn => ?_, ?_, ?_, ?_⟩
  all_goals (subst hs1 hs2 hs3; simp [Threads.advance, *])

theorem run_append {s s' : Threads} {ts us : List Nat} (h : s.run ts = some s') : s.run (ts ++ us) = s'.run us := by
  induction ts generalizing s with
  | nil => simp only [Threads.run, Option.some.injEq] at h; subst h; rfl
  | cons t ts ih =>
    unfold Threads.run at h
    split at h
    · simp at h
    · rename_i s1 e; rw [List.cons_append, run_cons e]; exact ih h

/-- The schedule that lets two threads be in their first values at the same time. -/
theorem both_inside {takes : MutexId → Nat → Nat} {calls : Nat → List (List Ev)} (h : Returning calls) {t u : Nat} (htu : t ≠ u)
    (ht : ∃ l ∈ calls t, l ≠ []) (hu : ∃ l ∈ calls u, l ≠ []) :
    ∃ ts s k k', (Threads.init takes calls).run ts = some s ∧ Using s t ∧ Using s u ∧
      s.drawn = (List.range (takes (t, k) 0)).map (fun i => (t, i)) ++ (List.range (takes (u, k') 0)).map (fun i => (u, i)) := by
  obtain ⟨k, r, e⟩ := start_of_value (takes := takes) h ht
  obtain ⟨k', r', e'⟩ := start_of_value (takes := takes) h hu
  have hut : u ≠ t := Ne.symm htu
  obtain ⟨s1, h1, h2, h3, h4, h5, h6, h7⟩ := run_begin e rfl
  obtain ⟨s2, g1, g2, g3, g4, g5, g6, g7⟩ := run_begin (s := s1) ((h3 u hut).trans e') (h4 (u, k') (by simp [hut]))
  refine ⟨_, s2, k, k', (run_append h1).trans g1, ⟨_, _, .inr ((g3 t htu).trans h2)⟩, ⟨_, _, .inr g2⟩, ?_⟩
  rw [g7, h7, h5, h6]
  simp [Threads.init]

/-- C100 is false: whenever two threads each have a value to compute, they can both be between `GetRNGstate()` and `PutRNGstate()`,
since each call locks a mutex of its own. -/
theorem C100_false {takes : MutexId → Nat → Nat} {calls : Nat → List (List Ev)} (h : Returning calls) {t u : Nat} (htu : t ≠ u)
    (ht : ∃ l ∈ calls t, l ≠ []) (hu : ∃ l ∈ calls u, l ≠ []) :
    ∃ ts s, (Threads.init takes calls).run ts = some s ∧ Using s t ∧ Using s u := by
  obtain ⟨ts, s, _, _, h1, h2, h3, _⟩ := both_inside (takes := takes) h htu ht hu
  exact ⟨ts, s, h1, h2, h3⟩

/-- C100 is false: two threads can take the same random number, the first one of the stream. -/
theorem C100_twice_false {takes : MutexId → Nat → Nat} {calls : Nat → List (List Ev)} (h : Returning calls) {t u : Nat} (htu : t ≠ u)
    (ht : ∃ l ∈ calls t, l ≠ []) (hu : ∃ l ∈ calls u, l ≠ []) (hn : ∀ m, 0 < takes m 0) :
    ∃ ts s, (Threads.init takes calls).run ts = some s ∧ (t, 0) ∈ s.drawn ∧ (u, 0) ∈ s.drawn ∧ ¬ InOrder s := by
  obtain ⟨ts, s, k, k', h1, _, _, h4⟩ := both_inside (takes := takes) h htu ht hu
  refine ⟨ts, s, h1, ?_, ?_, fun ho => ?_⟩
  · rw [h4]; simp [hn (t, k)]
  · rw [h4]; simp [hn (u, k')]
  · have hd : (s.drawn.map Prod.snd).Nodup := by rw [ho]; exact List.nodup_range
    rw [h4, List.map_append, List.nodup_append] at hd
    exact hd.2.2 0 (by simp [hn (t, k)]) 0 (by simp [hn (u, k')]) rfl

/-- Two threads of which each draws two values with `runif`: one after the other the threads take the numbers 0 to 3, but they can also
both take the numbers 0 and 1.  A thread that has locked its mutex cannot lock it again. -/
example :
    let one := View.ofList [.fin 1]
    let draw : Nat → List F64 → Out F64 := fun i _ => .ok (F64.ofNat (i + 7))
    let log := ((DCall.runif draw (View.ofList [.fin 2]) one one).run ({}, ([], (Heap.empty, {})))).2.1.log
    let s := Threads.init (fun _ _ => 1) (fun t => if t < 2 then [log] else [])
    ((s.run (List.replicate 10 0 ++ List.replicate 10 1)).map fun s => s.drawn) = some [(0, 0), (0, 1), (1, 2), (1, 3)] ∧
    ((s.run [0, 0, 0, 1, 1, 1, 0, 0, 1, 1, 0, 0, 0, 1, 1, 1]).map fun s => s.drawn) = some [(0, 0), (1, 0), (0, 1), (1, 1)] ∧
    (s.run (List.replicate 10 0 ++ List.replicate 11 1)).isNone = true := by
  decide +kernel

/-- The hypotheses of the theorems: such calls return, and such a run is serial. -/
example :
    let one := View.ofList [.fin 1]
    let draw : Nat → List F64 → Out F64 := fun i _ => .ok (F64.ofNat (i + 7))
    let c := DCall.runif draw (View.ofList [.fin 2]) one one
    let log := (c.run ({}, ([], (Heap.empty, {})))).2.1.log
    Returning (fun t => if t < 2 then [log] else []) ∧ log ≠ [] := by
  refine ⟨fun t l hl => ?_, by decide +kernel⟩
  simp only at hl
  split at hl
  · simp only [List.mem_singleton] at hl
    subst hl
    exact ⟨_, _, _, _, Prod.ext (by decide +kernel) rfl, rfl⟩
  · simp at hl

/-- The steps of `runif(2, 1, 1)`. -/
def sampleLog : List Ev :=
  ((DCall.runif (fun i _ => .ok (F64.ofNat (i + 7))) (View.ofList [.fin 2]) (View.ofList [.fin 1]) (View.ofList [.fin 1])).run ({}, ([], (Heap.empty, {})))).2.1.log

theorem sampleLog_returning (n : Nat) : Returning (fun t => if t < n then [sampleLog] else []) := by
  intro t l hl
  simp only at hl
  split at hl
  · simp only [List.mem_singleton] at hl
    subst hl
    exact ⟨_, _, _, _, Prod.ext (by decide +kernel) rfl, rfl⟩
  · simp at hl

/-- One thread. -/
example : ∃ s, (Threads.init (fun _ _ => 1) (fun t => if t < 1 then [sampleLog] else [])).run (List.replicate 10 0) = some s ∧ InOrder s := by
  rcases e : (Threads.init (fun _ _ => 1) (fun t => if t < 1 then [sampleLog] else [])).run (List.replicate 10 0) with _ | s
  · have : ((Threads.init (fun _ _ => 1) (fun t => if t < 1 then [sampleLog] else [])).run (List.replicate 10 0)).isSome = true := by decide +kernel
    rw [e] at this; cases this
  · exact ⟨s, rfl, C100_one_partial (sampleLog_returning 1) (t := 0) (fun u hu => if_neg (by omega)) e⟩

theorem run_others : ∀ (ts : List Nat) {s s' : Threads}, s.run ts = some s' → ∀ u, u ∉ ts → s'.rest u = s.rest u
  | [], s, s', e, u, _ => by simp only [Threads.run, Option.some.injEq] at e; subst e; rfl
  | t :: ts, s, s', e, u, hu => by
    simp only [Threads.run] at e
    split at e
    · cases e
    · rename_i s1 h1
      rw [run_others ts e u (fun h => hu (List.mem_cons_of_mem _ h))]
      have hne : u ≠ t := fun h => hu (h ▸ List.mem_cons_self)
      unfold Threads.step at h1
      split at h1
      · cases h1
      · split at h1
        · cases h1
        · cases h1; exact advance_ne _ _ hne
      all_goals (cases h1; exact advance_ne _ _ hne)

/-- Two threads, one after the other; a run of the same threads that is not serial is in the first example. -/
example : ∃ s, (Threads.init (fun _ _ => 1) (fun t => if t < 2 then [sampleLog] else [])).run (List.replicate 10 0 ++ List.replicate 10 1) = some s ∧
    InOrder s := by
  have key : ∀ k, k ≤ 20 → ((Threads.init (fun _ _ => 1) (fun t => if t < 2 then [sampleLog] else [])).run
      ((List.replicate 10 0 ++ List.replicate 10 1).take k)).map (fun s => [0, 1].map fun t => match s.rest t with
        | (_, e) :: _ => decide (e ≠ .lock)
        | [] => false) ≠ some [true, true] := by decide +kernel
  have hs : Serial (Threads.init (fun _ _ => 1) (fun t => if t < 2 then [sampleLog] else [])) (List.replicate 10 0 ++ List.replicate 10 1) := by
    intro k s' e t u ht hu
    have low : ∀ t, Busy s' t → t < 2 := by
      rintro t ⟨m, ev, r, h, _⟩
      by_contra hn
      rw [run_others _ e t (fun hm => by
        have := List.mem_of_mem_take hm
        rw [List.mem_append, List.mem_replicate, List.mem_replicate] at this
        omega)] at h
      simp [Threads.init, if_neg hn, threadSteps] at h
    have busy : ∀ t, Busy s' t → (match s'.rest t with
        | (_, e) :: _ => decide (e ≠ .lock)
        | [] => false) = true := by
      rintro t ⟨m, ev, r, h, hne⟩
      rw [h]
      exact decide_eq_true hne
    by_contra hne
    have h1 := low t ht
    have h2 := low u hu
    have h01 : Busy s' 0 ∧ Busy s' 1 := by
      obtain rfl | rfl : t = 0 ∨ t = 1 := by omega
      · obtain rfl : u = 1 := by omega
        exact ⟨ht, hu⟩
      · obtain rfl : u = 0 := by omega
        exact ⟨hu, ht⟩
    have hk : (List.replicate 10 0 ++ List.replicate 10 1).take k = (List.replicate 10 0 ++ List.replicate 10 1).take (min k 20) := by
      rcases Nat.le_total k 20 with h | h
      · rw [Nat.min_eq_left h]
      · rw [Nat.min_eq_right h, List.take_of_length_le (by simpa using h), List.take_of_length_le (by simp)]
    rw [hk] at e
    refine key (min k 20) (Nat.min_le_right _ _) ?_
    rw [e]
    simp only [Option.map_some, List.map_cons, List.map_nil, busy 0 h01.1, busy 1 h01.2]
  rcases e : (Threads.init (fun _ _ => 1) (fun t => if t < 2 then [sampleLog] else [])).run (List.replicate 10 0 ++ List.replicate 10 1) with _ | s
  · have : ((Threads.init (fun _ _ => 1) (fun t => if t < 2 then [sampleLog] else [])).run (List.replicate 10 0 ++ List.replicate 10 1)).isSome = true := by
      decide +kernel
    rw [e] at this; cases this
  · exact ⟨s, rfl, C100_partial (sampleLog_returning 2) hs e⟩

/-- What holds in all states of every run, whatever the schedule. -/
structure LockInv (s : Threads) : Prop where
  pos : ∀ t, At (s.rest t)
  mine : ∀ t, ∀ x ∈ s.rest t, x.1.1 = t
  held : ∀ m u, s.owner m = some u → u = m.1 ∧ ∃ e r, s.rest u = (m, e) :: r ∧ e ≠ Ev.lock
  holds : ∀ t m e r, s.rest t = (m, e) :: r → e ≠ Ev.lock → s.owner m = some t

theorem LockInv.init {takes : MutexId → Nat → Nat} {calls : Nat → List (List Ev)} (h : Returning calls) : LockInv (Threads.init takes calls) where
  pos t := .free (threadSteps_free t 0 _ (h.rounds t))
  mine t := threadSteps_owner t 0 (calls t)
  held m u e := by simp [Threads.init] at e
  holds t m e r hr hne := by
    have hf : Free ((Threads.init takes calls).rest t) := threadSteps_free t 0 _ (h.rounds t)
    rw [hr] at hf
    cases hf
    exact absurd rfl hne

/-- A step that keeps the mutexes, inside of a value. -/
theorem LockInv.inside {s s' : Threads} (I : LockInv s) {t : Nat} {m : MutexId} {e e' : Ev} {r : List (MutexId × Ev)}
    (hr : s.rest t = (m, e) :: (m, e') :: r) (he : e ≠ .lock) (he' : e' ≠ .lock) (hat : At ((m, e') :: r))
    (hrest : s'.rest = (s.advance t ((m, e') :: r)).rest) (ho : s'.owner = s.owner) : LockInv s' where
  pos u := by
    rw [hrest]
    by_cases hu : u = t
    · subst hu; rw [advance_same]; exact hat
    · rw [advance_ne _ _ hu]; exact I.pos u
  mine u x hx := by
    rw [hrest] at hx
    by_cases hu : u = t
    · subst hu; rw [advance_same] at hx; exact I.mine u x (by rw [hr]; exact List.mem_cons_of_mem _ hx)
    · rw [advance_ne _ _ hu] at hx; exact I.mine u x hx
  held n u h := by
    rw [ho] at h
    obtain ⟨h1, e1, r1, h2, h3⟩ := I.held n u h
    refine ⟨h1, ?_⟩
    rw [hrest]
    by_cases hu : u = t
    · subst hu
      rw [hr] at h2
      cases h2
      exact ⟨e', r, advance_same _ _ _, he'⟩
    · exact ⟨e1, r1, by rw [advance_ne _ _ hu]; exact h2, h3⟩
  holds u n e1 r1 h hne := by
    rw [hrest] at h
    rw [ho]
    by_cases hu : u = t
    · subst hu
      rw [advance_same] at h
      cases h
      exact I.holds u m e _ hr he
    · rw [advance_ne _ _ hu] at h; exact I.holds u n e1 r1 h hne

theorem LockInv.step {s s' : Threads} (I : LockInv s) {t : Nat} (h : s.step t = some s') : LockInv s' := by
  have hp := I.pos t
  generalize hr : s.rest t = l at hp
  have h0 := h
  unfold Threads.step at h
  rw [hr] at h
  cases hp with
  | free hf =>
    cases hf with
    | nil => simp at h
    | @more m r hf =>
      simp only at h
      split at h
      · simp at h
      · rename_i hown
        simp only [Option.some.injEq] at h
        subst h
        refine ⟨fun u => ?_, fun u x hx => ?_, fun n u hn => ?_, fun u n e1 r1 hn hne => ?_⟩
        · by_cases hu : u = t
          · subst hu; show At ((s.advance u _).rest u); rw [advance_same]; exact .get hf
          · show At ((s.advance t _).rest u); rw [advance_ne _ _ hu]; exact I.pos u
        · change x ∈ (s.advance t _).rest u at hx
          by_cases hu : u = t
          · subst hu; rw [advance_same] at hx; exact I.mine u x (by rw [hr]; exact List.mem_cons_of_mem _ hx)
          · rw [advance_ne _ _ hu] at hx; exact I.mine u x hx
        · change (if n = m then some t else s.owner n) = some u at hn
          split at hn
          · rename_i hnm
            cases hn
            subst hnm
            exact ⟨(I.mine t (n, .lock) (by rw [hr]; exact List.mem_cons_self)).symm, .get, _, advance_same _ _ _, by simp⟩
          · obtain ⟨h1, e1, r1, h2, h3⟩ := I.held n u hn
            refine ⟨h1, e1, r1, ?_, h3⟩
            have hu : u ≠ t := by
              rintro rfl
              rw [hr] at h2
              cases h2
              exact h3 rfl
            show (s.advance t _).rest u = _
            rw [advance_ne _ _ hu]; exact h2
        · change (s.advance t _).rest u = _ at hn
          show (if n = m then some t else s.owner n) = some u
          by_cases hu : u = t
          · subst hu
            rw [advance_same] at hn
            cases hn
            rw [if_pos rfl]
          · rw [advance_ne _ _ hu] at hn
            have ho := I.holds u n e1 r1 hn hne
            rw [if_neg ?_, ho]
            rintro rfl
            rw [hown] at ho; cases ho
  | @get m r hf =>
    simp only [Option.some.injEq] at h
    subst h
    exact I.inside hr (by simp) (by simp) (.call hf) rfl rfl
  | @call m r hf =>
    simp only [Option.some.injEq] at h
    subst h
    exact I.inside hr (by simp) (by simp) (.put hf) rfl rfl
  | @put m r hf =>
    simp only [Option.some.injEq] at h
    subst h
    exact I.inside hr (by simp) (by simp) (.unlock hf) rfl rfl
  | @unlock m r hf =>
    simp only [Option.some.injEq] at h
    subst h
    have hm := I.holds t m .unlock r hr (by simp)
    refine ⟨fun u => ?_, fun u x hx => ?_, fun n u hn => ?_, fun u n e1 r1 hn hne => ?_⟩
    · by_cases hu : u = t
      · subst hu; show At ((s.advance u _).rest u); rw [advance_same]; exact .free hf
      · show At ((s.advance t _).rest u); rw [advance_ne _ _ hu]; exact I.pos u
    · change x ∈ (s.advance t _).rest u at hx
      by_cases hu : u = t
      · subst hu; rw [advance_same] at hx; exact I.mine u x (by rw [hr]; exact List.mem_cons_of_mem _ hx)
      · rw [advance_ne _ _ hu] at hx; exact I.mine u x hx
    · change (if n = m then none else s.owner n) = some u at hn
      split at hn
      · cases hn
      · rename_i hnm
        obtain ⟨h1, e1, r1, h2, h3⟩ := I.held n u hn
        refine ⟨h1, e1, r1, ?_, h3⟩
        have hu : u ≠ t := by
          rintro rfl
          rw [hr] at h2
          cases h2
          exact hnm rfl
        show (s.advance t _).rest u = _
        rw [advance_ne _ _ hu]; exact h2
    · change (s.advance t _).rest u = _ at hn
      show (if n = m then none else s.owner n) = some u
      by_cases hu : u = t
      · subst hu
        rw [advance_same] at hn
        subst hn
        cases hf
        exact absurd rfl hne
      · rw [advance_ne _ _ hu] at hn
        have ho := I.holds u n e1 r1 hn hne
        rw [if_neg ?_, ho]
        rintro rfl
        rw [hm] at ho; cases ho; exact hu rfl

theorem LockInv.run : ∀ (ts : List Nat) {s s' : Threads}, LockInv s → s.run ts = some s' → LockInv s'
  | [], s, s', I, h => by simp only [Threads.run, Option.some.injEq] at h; subst h; exact I
  | t :: ts, s, s', I, h => by
    unfold Threads.run at h
    split at h
    · simp at h
    · rename_i s1 e
      exact LockInv.run ts (I.step e) h

theorem LockInv.progress {s : Threads} (I : LockInv s) {t : Nat} (h : s.rest t ≠ []) : ∃ s', s.step t = some s' := by
  unfold Threads.step
  rcases hr : s.rest t with _ | ⟨⟨m, e⟩, r⟩
  · exact absurd hr h
  · cases e
    case lock =>
      rcases ho : s.owner m with _ | u
      · simp only [ho]; exact ⟨_, rfl⟩
      · obtain ⟨h1, e1, r1, h2, h3⟩ := I.held m u ho
        have hm := I.mine t (m, .lock) (by rw [hr]; exact List.mem_cons_self)
        have : u = t := h1.trans hm
        subst this
        rw [hr] at h2
        cases h2
        exact absurd rfl h3
    all_goals exact ⟨_, rfl⟩

/-- A step of a thread is the first of its remaining steps, and the others keep theirs. -/
theorem step_rest {s s' : Threads} {t : Nat} (h : s.step t = some s') (u : Nat) :
    s'.rest u = (s.rest u).drop (if u = t then 1 else 0) := by
  have key : ∀ x r, s.rest t = x :: r → (s.advance t r).rest u = (s.rest u).drop (if u = t then 1 else 0) := by
    intro x r hr
    by_cases hu : u = t
    · subst hu; rw [advance_same, if_pos rfl, hr]; rfl
    · rw [advance_ne _ _ hu, if_neg hu]; rfl
  unfold Threads.step at h
  split at h
  · cases h
  · rename_i hr
    split at h
    · cases h
    · cases h; exact key _ _ hr
  all_goals (rename_i hr; cases h; exact key _ _ hr)

theorem run_rest : ∀ (ts : List Nat) {s s' : Threads}, s.run ts = some s' → ∀ u, s'.rest u = (s.rest u).drop (ts.count u)
  | [], s, s', h, u => by simp only [Threads.run, Option.some.injEq] at h; subst h; simp
  | t :: ts, s, s', h, u => by
    unfold Threads.run at h
    split at h
    · simp at h
    · rename_i s1 e
      rw [run_rest ts h u, step_rest e u, List.drop_drop, List.count_cons]
      congr 1
      by_cases hu : u = t
      · subst hu; simp [Nat.add_comm]
      · simp [hu, Ne.symm hu]

/-- C104: whatever the order in which the steps of the threads are done, a call never waits for a mutex: each thread that has not
finished can do its next step.  A thread is finished after as many steps as its calls have, and a mutex is locked exactly while
the thread that owns it computes a value: when a thread has finished, none of its mutexes is locked, and their destruction is defined.
(For calls that throw inside of a value see C97: there the mutex stays locked.) -/
theorem C104_progress {takes : MutexId → Nat → Nat} {calls : Nat → List (List Ev)} (h : Returning calls) {ts : List Nat} {s : Threads}
    (hr : (Threads.init takes calls).run ts = some s) :
    (∀ t, ts.count t < (threadSteps t 0 (calls t)).length → ∃ s', s.step t = some s') ∧
    (∀ t, ts.count t = (threadSteps t 0 (calls t)).length → ∀ k, s.owner (t, k) = none) ∧
    ∀ m u, s.owner m = some u → u = m.1 ∧ Busy s u := by
  have I := LockInv.run ts (LockInv.init h) hr
  refine ⟨fun t ht => I.progress fun hn => ?_, fun t ht k => ?_, fun m u hm => ?_⟩
  · rw [run_rest ts hr t] at hn
    have := List.drop_eq_nil_iff.1 hn
    exact absurd this (not_le.2 ht)
  · rcases ho : s.owner (t, k) with _ | u
    · rfl
    · obtain ⟨h1, e, r, h2, _⟩ := I.held _ _ ho
      simp only at h1
      subst h1
      rw [run_rest ts hr u] at h2
      change (threadSteps u 0 (calls u)).drop _ = _ at h2
      rw [List.drop_eq_nil_of_le (le_of_eq ht.symm)] at h2
      cases h2
  · obtain ⟨h1, e, r, h2, h3⟩ := I.held m u hm
    exact ⟨h1, m, e, r, h2, h3⟩

/-- C104, the other half: while a thread computes a value its mutex is locked by it. -/
theorem C104_locked {takes : MutexId → Nat → Nat} {calls : Nat → List (List Ev)} (h : Returning calls) {ts : List Nat} {s : Threads}
    (hr : (Threads.init takes calls).run ts = some s) {t : Nat} (hb : Busy s t) : ∃ k, s.owner (t, k) = some t := by
  have I := LockInv.run ts (LockInv.init h) hr
  obtain ⟨m, e, r, h1, h2⟩ := hb
  refine ⟨m.2, ?_⟩
  have hm : m.1 = t := I.mine t (m, e) (by rw [h1]; exact List.mem_cons_self)
  rw [← hm]
  have := I.holds t m e r h1 h2
  rwa [← hm] at this

/-- Two threads inside of their values together; the first one has computed one of two values. -/
example : ∃ s, (Threads.init (fun _ _ => 1) (fun t => if t < 2 then [sampleLog] else [])).run [0, 0, 1, 0, 1, 0, 0, 0] = some s ∧
    (∃ s', s.step 0 = some s') ∧ (∃ s', s.step 1 = some s') ∧ (∀ k, s.owner (2, k) = none) ∧ ∃ k, s.owner (1, k) = some 1 := by
  rcases e : (Threads.init (fun _ _ => 1) (fun t => if t < 2 then [sampleLog] else [])).run [0, 0, 1, 0, 1, 0, 0, 0] with _ | s
  · have : ((Threads.init (fun _ _ => 1) (fun t => if t < 2 then [sampleLog] else [])).run [0, 0, 1, 0, 1, 0, 0, 0]).isSome = true := by
      decide +kernel
    rw [e] at this; cases this
  · have H := C104_progress (sampleLog_returning 2) e
    have hb : Busy s 1 := ⟨(1, 0), .call, [((1, 0), .put), ((1, 0), .unlock)] ++ (threadSteps 1 0 [sampleLog]).drop 5,
      (run_rest _ e 1).trans (by decide +kernel), by decide⟩
    exact ⟨s, rfl, H.1 0 (by decide +kernel), H.1 1 (by decide +kernel), H.2.1 2 (by decide +kernel), C104_locked (sampleLog_returning 2) e hb⟩

end ETR
