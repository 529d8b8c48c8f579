import Verif.Model.Alloc
import Verif.Model.Deriv

/-!
# Constants of derivative programs

`/repo/include/etr_bits/Allocation/Vector.hpp` 99-254, `Colon.hpp` 248-476: `vector_*` and `colon` with an index store their
result in the constant with that index, which may have been used before.  The state consists of the warnings printed so far and
the buffer of the constant (`av.varConstants[Idx].d`); the returned object refers to it.  The overloads for constant and non-constant
arguments do the same.
-/

namespace ETR

/-- Computations that print warnings and work on the buffer of a constant. -/
abbrev CM (α : Type) : Type := M (List String × Buf F64) α

/-- A part that only prints. -/
def sayC {α : Type} (m : L α) : CM α := M.zoom Prod.fst (fun w s => (w, s.2)) m
/-- A part that only works on the constant. -/
def bufC {α : Type} (m : M (Buf F64) α) : CM α := M.zoom Prod.snd (fun r s => (s.1, r)) m

/-- `av.varConstants[Idx].resize(convertSize(inp))`: Vector.hpp 106, BaseStore.hpp 259-279. -/
def resizeCon (a : Num) : CM Unit := do
  let n ← sayC (convertSize a)
  bufC (Buf.resize (.fin 0) n)

/-- `vector_integer<Idx>`, `vector_numeric<Idx>` and `vector_logical<Idx>`: Vector.hpp 101-254.  With a floating point argument the line
is there twice (110-111). -/
def vectorCon : SizeArg → CM Unit
  | .one (.s (.d x)) => do
    resizeCon (.s (.d x))
    resizeCon (.s (.d x))
  | .one a => resizeCon a
  | .vec n f => do
    M.ass (n = 1) "invalid length argument"
    let a ← M.lift f
    resizeCon a

/-- `while (go(start)) { av.varConstants[Idx][counter] = start; step(start); counter++; }`: Colon.hpp 256-260 and 267-271.  As in
`seqLoop`, a write behind the end throws, so that there are at most size + 1 rounds.  `conv` is the conversion to `double`. -/
def seqLoopC {T : Type} (conv : T → F64) (go : T → Bool) (step : T → Out T) : (fuel : Nat) → (start : T) → (counter : Nat) →
    M (Buf F64) Unit
  | 0, _, _ => M.lift (.thr "not reached")
  | f + 1, start, counter =>
    if go start then do
      Buf.set counter (conv start)
      let start ← M.lift (step start)
      seqLoopC conv go step f start (counter + 1)
    else pure ()

/-- `colonInternalDerivs<Idx, AV, int>`: Colon.hpp 249-273. -/
def colonConI (start stop : Int) : CM Unit :=
  if start < stop then do
    let d ← M.lift (ckI32 (stop - start))
    let d ← M.lift (ckI32 (d + 1))
    let length ← sayC (convertSize (.s (.i d)))
    resizeCon (.n length)
    bufC (seqLoopC F64.ofInt (fun x => decide (x ≤ stop)) (fun x => ckI32 (x + 1)) (length + 1) start 0)
  else do
    let d ← M.lift (ckI32 (start - stop))
    let d ← M.lift (ckI32 (d + 1))
    let length ← sayC (convertSize (.s (.i d)))
    resizeCon (.n length)
    bufC (seqLoopC F64.ofInt (fun x => decide (stop ≤ x)) (fun x => ckI32 (x - 1)) (length + 1) start 0)

/-- `colonInternalDerivs<Idx, AV, double>`: Colon.hpp 249-273. -/
def colonConD (start stop : F64) : CM Unit :=
  if F64.lt start stop then do
    let length ← sayC (convertSizeD (F64.add (F64.sub stop start) (.fin 1)))
    resizeCon (.n length)
    bufC (seqLoopC id (fun x => F64.le x stop) (fun x => .ok (F64.add x (.fin 1))) (length + 1) start 0)
  else do
    let length ← sayC (convertSizeD (F64.add (F64.sub start stop) (.fin 1)))
    resizeCon (.n length)
    bufC (seqLoopC id (fun x => F64.le stop x) (fun x => .ok (F64.sub x (.fin 1))) (length + 1) start 0)

/-- `colon<Idx>(av, start, end)` of integers: Colon.hpp 275-476. -/
def colonConInt (start stop : CArg Int) : CM Unit := do
  sayC (colonWarn stop)
  sayC (colonWarn start)
  let a ← M.lift start.value
  let b ← M.lift stop.value
  colonConI a b

/-- `colon<Idx>(av, start, end)` of doubles: Colon.hpp 275-476. -/
def colonConDbl (start stop : CArg F64) : CM Unit := do
  sayC (colonWarn stop)
  sayC (colonWarn start)
  let a ← M.lift start.value
  let b ← M.lift stop.value
  colonConD a b

end ETR
