import Verif.Model.Deriv

/-! Programs over derivative variables with branches and loops of C++: user code around the statements of `AV.exec`.  The conditions
read single elements of the public arrays of `AllVars` (`av.varBuffer[x][i]`, AllVars.hpp 22-31). -/

namespace ETR
variable {T : Type}

/-- A number in a condition: an element of a variable or of a constant, or a literal. -/
inductive DRead (T : Type)
  | var (x : DVar) (i : Nat)
  | con (c i : Nat)
  | num (v : T)

/-- Its value: `Vec::operator[]` for an index of type `int` (VectorClass.hpp 40-41), which is `operator[]` of the storage
(BaseStore.hpp 281-286, Borrow.hpp 137-142, BorrowSEXP.hpp 143-148). -/
def DRead.get (s : AV T) : DRead T → Out T
  | .var x i => (s.val x).get i
  | .con c i => (s.con c).get i
  | .num v => .ok v

/-- Conditions of C++ on numbers of type `double`. -/
inductive DCond (T : Type)
  | lt (a b : DRead T)
  | le (a b : DRead T)
  | not (c : DCond T)
  | and (c d : DCond T)
  | or (c d : DCond T)

/-- `<`, `<=`, `!`, `&&` and `||` of C++; the last two evaluate their right operand only if it is needed. -/
def DCond.eval (A : DArith T) (s : AV T) : DCond T → Out Bool
  | .lt a b => do
    let x ← a.get s
    let y ← b.get s
    return A.lt x y
  | .le a b => do
    let x ← a.get s
    let y ← b.get s
    return A.le x y
  | .not c => do
    let v ← c.eval A s
    return !v
  | .and c d => do
    let v ← c.eval A s
    if v then d.eval A s else return false
  | .or c d => do
    let v ← c.eval A s
    if v then return true else d.eval A s

/-- Programs: a statement of `AV.exec`, one after the other, `if`, `for (int i = 0; i < n; i++)` and `while`. -/
inductive DProg (T : Type)
  | skip
  | stmt (p : AV.Stmt T)
  | seq (p q : DProg T)
  | ite (c : DCond T) (p q : DProg T)
  | rounds (n : Nat) (body : Nat → DProg T)
  | loop (c : DCond T) (body : DProg T)

namespace AV

/-- Go on with `f`, unless there was an exception or undefined behaviour. -/
def goOn (f : AV T → Option (Out Unit × AV T)) : Option (Out Unit × AV T) → Option (Out Unit × AV T)
  | some (.ok (), s) => f s
  | r => r

/-- `n` rounds of a loop, from round `i` on. -/
def forLoop (f : Nat → AV T → Option (Out Unit × AV T)) : Nat → Nat → AV T → Option (Out Unit × AV T)
  | 0, _, s => some (.ok (), s)
  | n + 1, i, s => goOn (forLoop f n (i + 1)) (f i s)

/-- `while`, with a bound on the number of rounds: `none` if more are needed. -/
def whileLoop (c : AV T → Out Bool) (f : AV T → Option (Out Unit × AV T)) : Nat → AV T → Option (Out Unit × AV T)
  | 0, _ => none
  | n + 1, s => match c s with
    | .ok true => goOn (whileLoop c f n) (f s)
    | .ok false => some (.ok (), s)
    | .thr m => some (.thr m, s)
    | .ub u => some (.ub u, s)

end AV

/-- Execution; `none` if a `while` needs more than `fuel` rounds. -/
def DProg.run (A : DArith T) (fuel : Nat) : DProg T → AV T → Option (Out Unit × AV T)
  | .skip, s => some (.ok (), s)
  | .stmt p, s => some (AV.exec A p s)
  | .seq p q, s => AV.goOn (q.run A fuel) (p.run A fuel s)
  | .ite c p q, s => match c.eval A s with
    | .ok true => p.run A fuel s
    | .ok false => q.run A fuel s
    | .thr m => some (.thr m, s)
    | .ub u => some (.ub u, s)
  | .rounds n body, s => AV.forLoop (fun i => (body i).run A fuel) n 0 s
  | .loop c body, s => AV.whileLoop (c.eval A) (body.run A fuel) fuel s

end ETR
