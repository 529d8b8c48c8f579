import Verif.Base.Out

/-!
# Printing a type name as a tree

`/repo/include/etr_bits/Core/Reflection.hpp`.  The type name (`demangle(typeid(inp).name())`) is a parameter; characters stand
for themselves.
-/

namespace ETR

/-- The local variables of `printAST`: `v`, `counter` and `indentationLevels`. -/
structure Tree where
  v : List (List Char)
  counter : Nat
  levels : List Int
  deriving DecidableEq

/-- One round of the loop: Reflection.hpp 38-48.  The levels are modelled without overflow. -/
def Tree.step (t : Tree) (c : Char) : Out Tree := do
  let line ← match t.v[t.counter]? with
    | some l => .ok l
    | none => .ub .oob
  let v := t.v.set t.counter (line ++ [c])
  if c = '<' then do
    let k ← match t.levels[t.counter]? with
      | some k => .ok k
      | none => .ub .oob
    return ⟨v ++ [[]], t.counter + 1, t.levels ++ [k + 1]⟩
  else if c = '>' then do
    let k ← match t.levels[t.counter]? with
      | some k => .ok k
      | none => .ub .oob
    return ⟨v ++ [[]], t.counter + 1, t.levels ++ [k - 1]⟩
  else return { t with v := v }

/-- The loop over the characters: Reflection.hpp 38-49. -/
def Tree.run (t : Tree) : List Char → Out Tree
  | [] => .ok t
  | c :: s => do
    let t ← t.step c
    t.run s

/-- `convertIndentation(idx)`; a negative level is converted to `std::size_t`, which asks for more than `2^63` tabs, more than a string can
hold.  Reflection.hpp 23-29. -/
def indentation (k : Int) : Out (List Char) :=
  if 0 ≤ k then .ok (List.replicate k.toNat '\t') else .thr "std::length_error"

/-- The loop that prints: Reflection.hpp 50-53; `out` is what has been printed. -/
def Tree.print (t : Tree) : Nat → List Char → Out (List Char)
  | 0, out => .ok out
  | n + 1, out => do
    let i := t.v.length - (n + 1)
    let k ← match t.levels[i]? with
      | some k => .ok k
      | none => .ub .oob
    let ind ← indentation k
    let line ← match t.v[i]? with
      | some l => .ok l
      | none => .ub .oob
    t.print n (out ++ ind ++ line ++ ['\n'])

/-- `printAST` and `printTAST`: Reflection.hpp 31-77. -/
def printAST (s : List Char) : Out (List Char) := do
  let t ← Tree.run ⟨[[]], 0, [0]⟩ s
  t.print t.v.length []

end ETR
