import Verif.Model.Alloc
import Verif.Model.Interp

/-!
# Distribution functions

`/repo/include/etr_bits/Distri.hpp`.  All densities have the same body, all distribution and quantile functions have the same body,
and so have the random generators but one.  The functions `R::dunif`, `R::punif` and so on are parameters: partial functions of their
arguments (the conversion of `lower` and `lg` to `int` is part of them); the values of a random generator may depend on the
number of values drawn before.

Simplifications: the random number state and the mutex are left out; arguments are read from left to right.
-/

namespace ETR

/-- `a[i % a.size()]`. -/
def View.cyc (a : View F64) (i : Nat) : Out F64 := do
  let k ← modz i a.size
  a.el k

/-- `Vec<BaseType> res(n)`, a vector with the only element `n`: Vector/Constructors.hpp 102-104 (called at Distri.hpp 18, 33 and so on). -/
def ctorNum (n : Nat) : AM F64 Unit := do
  retM (Store.ctorInt (.fin 0) 1)
  retM (Store.set 0 (F64.ofNat n))

/-- The computation of `max`: Distri.hpp 26-32; the loop starts with the second element of `sizes`. -/
def maxSizes (m : Nat) : List Nat → Nat
  | [] => m
  | n :: ns => maxSizes (if n > m then n else m) ns

/-- Element `i` of the result: Distri.hpp 37-38. -/
def distEl (f : List F64 → Out F64) (args : List (View F64)) (i : Nat) : Out F64 := do
  let vs ← Out.all (args.map (fun a => a.cyc i))
  f vs

/-- `dunif_etr(x, a, b, lg)` and the other densities: Distri.hpp 11-47, 178-216, 347-385. -/
def dens (f : List F64 → Out F64) (x a b lg : View F64) : AM F64 Unit :=
  if x.size = 1 ∧ a.size = 1 ∧ b.size = 1 ∧ lg.size = 1 then do
    ctorNum 1
    let v ← M.lift (do
      let vs ← Out.all [x.el 0, a.el 0, b.el 0, lg.el 0]
      f vs)
    retM (Store.set 0 v)
  else do
    ctorNum (maxSizes x.size ([a.size, b.size, lg.size].drop 1))
    retM (do
      let s ← Store.self
      M.forN s.sz (fun i => do
        let v ← M.lift (distEl f [x, a, b, lg] i)
        Store.set i v))

/-- `punif_etr(x, a, b, lower, lg)`, `qunif_etr` and the other distribution and quantile functions: Distri.hpp 89-173, 258-342, 427-512.
The first condition does not look at `lower`. -/
def prob (f : List F64 → Out F64) (x a b lower lg : View F64) : AM F64 Unit :=
  if x.size = 1 ∧ a.size = 1 ∧ b.size = 1 ∧ lg.size = 1 then do
    ctorNum 1
    let v ← M.lift (do
      let vs ← Out.all [x.el 0, a.el 0, b.el 0, lower.el 0, lg.el 0]
      f vs)
    retM (Store.set 0 v)
  else do
    ctorNum (maxSizes x.size ([a.size, b.size, lower.size, lg.size].drop 1))
    retM (do
      let s ← Store.self
      M.forN s.sz (fun i => do
        let v ← M.lift (distEl f [x, a, b, lower, lg] i)
        Store.set i v))

/-- The loop of the random generators. -/
def drawLoop (draw : Nat → List F64 → Out F64) (n : Nat) (a b : View F64) : AM F64 Unit :=
  retM (M.forN n (fun i => do
    let v ← M.lift (distEl (draw i) [a, b] i)
    Store.set i v))

/-- The second branch of the random generators: Distri.hpp 66-81, 235-250. -/
def drawLong (draw : Nat → List F64 → Out F64) (x a b : View F64) : AM F64 Unit := do
  ctorNum (maxSizes x.size ([a.size, b.size].drop 1))
  let r ← M.get
  drawLoop draw r.2.2.sz a b

/-- `runif_etr(x, a, b)`: Distri.hpp 49-87. -/
def runif (draw : Nat → List F64 → Out F64) (x a b : View F64) : AM F64 Unit :=
  if x.size = 1 ∧ a.size = 1 ∧ b.size = 1 then do
    let k ← M.lift (do
      let v ← x.el 0
      v.toI32)
    retM (Store.ctorSize (.fin 0) (wrap64 k))
    let size ← M.lift (do
      let v ← x.el 0
      v.toSizeT)
    drawLoop draw size a b
  else drawLong draw x a b

/-- `rnorm_etr(x, a, b)` and `rlnorm_etr`: Distri.hpp 218-256, 387-425. -/
def rdist (draw : Nat → List F64 → Out F64) (x a b : View F64) : AM F64 Unit :=
  if x.size = 1 ∧ a.size = 1 ∧ b.size = 1 then do
    let size ← M.lift (do
      let v ← x.el 0
      v.toSizeT)
    ctorNum size
    drawLoop draw size a b
  else drawLong draw x a b

/-- The vector `scale` of the gamma functions: Distri.hpp 522-525, 567-570, 614-617, 661-664. -/
def gammaScale (rate : View F64) : Out (View F64) := do
  let l ← Out.all ((List.range rate.size).map (fun i => do
    let v ← rate.el i
    return F64.div (.fin 1) v))
  return ⟨l.length, fun i => match l[i]? with
    | some v => .ok v
    | none => .ub .oob, .ub .oob⟩

/-- `dgamma_etr(x, shape, rate, lg)`: Distri.hpp 517-560. -/
def dgamma (f : List F64 → Out F64) (x shape rate lg : View F64) : AM F64 Unit := do
  let scale ← M.lift (gammaScale rate)
  dens f x shape scale lg

/-- `pgamma_etr(x, shape, rate, lower, lg)` and `qgamma_etr`: Distri.hpp 608-700. -/
def pgamma (f : List F64 → Out F64) (x shape rate lower lg : View F64) : AM F64 Unit := do
  let scale ← M.lift (gammaScale rate)
  prob f x shape scale lower lg

/-- `rgamma_etr(x, shape, rate)`: Distri.hpp 562-606. -/
def rgamma (draw : Nat → List F64 → Out F64) (x shape rate : View F64) : AM F64 Unit := do
  let scale ← M.lift (gammaScale rate)
  rdist draw x shape scale

end ETR
