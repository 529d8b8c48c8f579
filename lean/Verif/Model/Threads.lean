import Verif.Model.DistriLock

/-!
# Distribution functions in several threads

`/repo/include/etr_bits/Distri.hpp`: every function declares its own `std::mutex m` (lines 15, 52, 94, 137, 182, 221, 263, 306, 351, 390,
432, 476, 521, 565, 613, 660), so that a call in another thread uses another mutex.  The state of the random numbers belongs to R:
`GetRNGstate()` reads the seed, the generator takes a number from the current state, `PutRNGstate()` writes the seed.

Simplification: the steps of a call are atomic and the threads alternate between them.  A state of the random numbers is the position
in the stream of numbers that belongs to the first seed.  How many numbers a function of R takes is a parameter (`takes`): it may depend
on the call and on the state, and is zero for densities.
-/

namespace ETR

/-- A mutex: the number of the thread and the number of the call whose local variable it is. -/
abbrev MutexId : Type := Nat × Nat

/-- The threads and R. -/
structure Threads where
  /-- What each thread has still to do. -/
  rest : Nat → List (MutexId × Ev)
  /-- How many numbers the function called under a mutex takes in a state. -/
  takes : MutexId → Nat → Nat
  /-- The thread that has locked a mutex. -/
  owner : MutexId → Option Nat := fun _ => none
  /-- The seed that R stores, and the current state. -/
  seed : Nat := 0
  cur : Nat := 0
  /-- The numbers taken so far, with the threads that took them. -/
  drawn : List (Nat × Nat) := []

/-- What the calls of thread `t` do, from call number `k` on: Distri.hpp 15-23 and so on. -/
def threadSteps (t : Nat) : Nat → List (List Ev) → List (MutexId × Ev)
  | _, [] => []
  | k, l :: ls => l.map (fun e => ((t, k), e)) ++ threadSteps t (k + 1) ls

namespace Threads

/-- The start: thread `t` is going to do the calls with the steps `calls t`. -/
def init (takes : MutexId → Nat → Nat) (calls : Nat → List (List Ev)) : Threads :=
  { rest := fun t => threadSteps t 0 (calls t), takes := takes }

/-- Thread `t` has done its next step. -/
def advance (s : Threads) (t : Nat) (r : List (MutexId × Ev)) : Threads :=
  { s with rest := fun u => if u = t then r else s.rest u }

/-- The next step of thread `t`; there is none if the thread has finished or waits for a mutex: Distri.hpp 19-23, 35-40 and so on. -/
def step (s : Threads) (t : Nat) : Option Threads :=
  match s.rest t with
  | [] => none
  | (m, .lock) :: r =>
    match s.owner m with
    | some _ => none
    | none => some { s.advance t r with owner := fun n => if n = m then some t else s.owner n }
  | (_, .get) :: r => some { s.advance t r with cur := s.seed }
  | (m, .call) :: r => some { s.advance t r with
      drawn := s.drawn ++ (List.range (s.takes m s.cur)).map (fun i => (t, s.cur + i)), cur := s.cur + s.takes m s.cur }
  | (_, .put) :: r => some { s.advance t r with seed := s.cur }
  | (m, .unlock) :: r => some { s.advance t r with owner := fun n => if n = m then none else s.owner n }

/-- The steps of the threads in the order of the schedule. -/
def run (s : Threads) : List Nat → Option Threads
  | [] => some s
  | t :: ts =>
    match s.step t with
    | none => none
    | some s' => s'.run ts

end Threads
end ETR
