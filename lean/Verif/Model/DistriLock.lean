import Verif.Model.Distri

/-!
# Distribution functions with the lock and the state of the random numbers

`/repo/include/etr_bits/Distri.hpp`, the parts left out in `Model/Distri.lean`: every function has a local `std::mutex m`
and computes each value between `m.lock(); GetRNGstate();` and `PutRNGstate(); m.unlock();`.  There is no guard object, so that
an exception leaves them out, and the mutex is destroyed at the end of the function, which is undefined behaviour if it is locked.

Simplification: the functions of R (`R::dunif` and so on) are parameters, as in `Model/Distri.lean`.
-/

namespace ETR

/-- What is done for a value: `m.lock()`, `GetRNGstate()`, the call of R, `PutRNGstate()`, `m.unlock()`. -/
inductive Ev
  | lock | get | call | put | unlock
  deriving DecidableEq, Repr

/-- The mutex and what has been done so far. -/
structure Guard where
  held : Bool := false
  log : List Ev := []
  deriving DecidableEq, Repr

/-- Computations that use the mutex, print warnings and build a vector. -/
abbrev GM (α : Type) : Type := M (Guard × (List String × (Heap F64 × Store))) α

/-- A part without calls of R. -/
def plainM {α : Type} (m : AM F64 α) : GM α := M.zoom Prod.snd (fun r s => (s.1, r)) m

/-- A step that always returns. -/
def ev (e : Ev) : GM Unit := M.modify (fun s => ({ s.1 with log := s.1.log ++ [e] }, s.2))

/-- `m.lock()`; locking it twice is undefined behaviour.  Distri.hpp 19, 35 and so on. -/
def lockM : GM Unit := do
  let s ← M.get
  if s.1.held then M.lift (.ub .lockedMutex)
  ev .lock
  M.modify (fun s => ({ s.1 with held := true }, s.2))

/-- `m.unlock()`: Distri.hpp 23, 40 and so on. -/
def unlockM : GM Unit := do
  ev .unlock
  M.modify (fun s => ({ s.1 with held := false }, s.2))

/-- `m.lock(); GetRNGstate(); res[i] = R::f(args); PutRNGstate(); m.unlock();`: Distri.hpp 19-23, 35-40 and so on. -/
def guarded (f : List F64 → Out F64) (args : Out (List F64)) (i : Nat) : GM Unit := do
  lockM
  ev .get
  let vs ← M.lift args
  ev .call
  let v ← M.lift (f vs)
  plainM (retM (Store.set i v))
  ev .put
  unlockM

/-- The end of the function, where `m` is destroyed, also after an exception: Distri.hpp 15, 53 and so on. -/
def withMutex {α : Type} (m : GM α) : GM α := fun s =>
  let r := m s
  if r.2.1.held then (.ub .lockedMutex, r.2) else r

/-- The arguments `a[i % a.size()]`: Distri.hpp 37-38 and so on. -/
def cycArgs (args : List (View F64)) (i : Nat) : Out (List F64) := Out.all (args.map (fun a => a.cyc i))

/-- The size of the result. -/
def resSize : GM Nat := M.reads (fun s => .ok s.2.2.2.sz)

/-- The loop over the elements of the result: Distri.hpp 34-41 and so on. -/
def guardedLoop (f : Nat → List F64 → Out F64) (args : List (View F64)) : GM Unit := do
  let n ← resSize
  M.forN n (fun i => guarded (f i) (cycArgs args i) i)

/-- The body of the densities: Distri.hpp 16-46, 184-215, 353-384, 527-559. -/
def densBody (f : List F64 → Out F64) (x a b lg : View F64) : GM Unit :=
  if x.size = 1 ∧ a.size = 1 ∧ b.size = 1 ∧ lg.size = 1 then do
    plainM (ctorNum 1)
    guarded f (Out.all [x.el 0, a.el 0, b.el 0, lg.el 0]) 0
  else do
    plainM (ctorNum (maxSizes x.size ([a.size, b.size, lg.size].drop 1)))
    guardedLoop (fun _ => f) [x, a, b, lg]

/-- The body of the distribution and quantile functions: Distri.hpp 96-129, 140-173 and so on. -/
def probBody (f : List F64 → Out F64) (x a b lower lg : View F64) : GM Unit :=
  if x.size = 1 ∧ a.size = 1 ∧ b.size = 1 ∧ lg.size = 1 then do
    plainM (ctorNum 1)
    guarded f (Out.all [x.el 0, a.el 0, b.el 0, lower.el 0, lg.el 0]) 0
  else do
    plainM (ctorNum (maxSizes x.size ([a.size, b.size, lower.size, lg.size].drop 1)))
    guardedLoop (fun _ => f) [x, a, b, lower, lg]

/-- The second branch of the random generators: Distri.hpp 66-81, 235-250, 404-419, 585-600. -/
def drawLongBody (draw : Nat → List F64 → Out F64) (x a b : View F64) : GM Unit := do
  plainM (ctorNum (maxSizes x.size ([a.size, b.size].drop 1)))
  guardedLoop draw [a, b]

/-- The body of `runif_etr`: Distri.hpp 54-86. -/
def runifBody (draw : Nat → List F64 → Out F64) (x a b : View F64) : GM Unit :=
  if x.size = 1 ∧ a.size = 1 ∧ b.size = 1 then do
    let k ← M.lift (do
      let v ← x.el 0
      v.toI32)
    plainM (retM (Store.ctorSize (.fin 0) (wrap64 k)))
    let size ← M.lift (do
      let v ← x.el 0
      v.toSizeT)
    M.forN size (fun i => guarded (draw i) (cycArgs [a, b] i) i)
  else drawLongBody draw x a b

/-- The body of `rnorm_etr`, `rlnorm_etr`, `rgamma_etr`: Distri.hpp 223-255, 392-424, 573-605. -/
def rdistBody (draw : Nat → List F64 → Out F64) (x a b : View F64) : GM Unit :=
  if x.size = 1 ∧ a.size = 1 ∧ b.size = 1 then do
    let size ← M.lift (do
      let v ← x.el 0
      v.toSizeT)
    plainM (ctorNum size)
    M.forN size (fun i => guarded (draw i) (cycArgs [a, b] i) i)
  else drawLongBody draw x a b

/-- A call of one of the functions. -/
inductive DCall
  | dens (f : List F64 → Out F64) (x a b lg : View F64)
  | prob (f : List F64 → Out F64) (x a b lower lg : View F64)
  | runif (draw : Nat → List F64 → Out F64) (x a b : View F64)
  | rdist (draw : Nat → List F64 → Out F64) (x a b : View F64)
  | dgamma (f : List F64 → Out F64) (x shape rate lg : View F64)
  | pgamma (f : List F64 → Out F64) (x shape rate lower lg : View F64)
  | rgamma (draw : Nat → List F64 → Out F64) (x shape rate : View F64)

/-- What a call does up to the destruction of the mutex. -/
def DCall.body : DCall → GM Unit
  | .dens f x a b lg => densBody f x a b lg
  | .prob f x a b lower lg => probBody f x a b lower lg
  | .runif draw x a b => runifBody draw x a b
  | .rdist draw x a b => rdistBody draw x a b
  | .dgamma f x shape rate lg => do
    let scale ← M.lift (gammaScale rate)
    densBody f x shape scale lg
  | .pgamma f x shape rate lower lg => do
    let scale ← M.lift (gammaScale rate)
    probBody f x shape scale lower lg
  | .rgamma draw x shape rate => do
    let scale ← M.lift (gammaScale rate)
    rdistBody draw x shape scale

/-- A call: the functions of Distri.hpp 11-700. -/
def DCall.run (c : DCall) : GM Unit := withMutex c.body

/-- The call in the model without the lock (`Model/Distri.lean`). -/
def DCall.unlocked : DCall → AM F64 Unit
  | .dens f x a b lg => ETR.dens f x a b lg
  | .prob f x a b lower lg => ETR.prob f x a b lower lg
  | .runif draw x a b => ETR.runif draw x a b
  | .rdist draw x a b => ETR.rdist draw x a b
  | .dgamma f x shape rate lg => ETR.dgamma f x shape rate lg
  | .pgamma f x shape rate lower lg => ETR.pgamma f x shape rate lower lg
  | .rgamma draw x shape rate => ETR.rgamma draw x shape rate

end ETR
