import Verif.Model.Expr

/-!
# Printing

`/repo/include/etr_bits/Printing.hpp`.  The state is the output stream: the text written so far and the flag set by
`std::boolalpha`, which stays set.  How an element is written depends on the flag only (`fmt`).
-/

namespace ETR
variable {V : Type}

/-- The output stream `PRINT_STREAM`: Printing.hpp 10-15. -/
structure OStream where
  alpha : Bool := false
  text : String := ""
  deriving DecidableEq

/-- `PRINT_STREAM << s`. -/
def put (s : String) : M OStream Unit := M.modify (fun o => { o with text := o.text ++ s })

/-- `PRINT_STREAM << v`. -/
def putEl (fmt : Bool → V → String) (v : V) : M OStream Unit :=
  M.modify (fun o => { o with text := o.text ++ fmt o.alpha v })

/-- `PRINT_STREAM << std::boolalpha`. -/
def setAlpha : M OStream Unit := M.modify (fun o => { o with alpha := true })

/-- `print(inp)` of a vector, an operation or a subset: Printing.hpp 39-87.  The three overloads have the same body. -/
def printVec (fmt : Bool → V → String) (env : Env V) (e : Expr V) : M OStream Unit :=
  if ¬ e.im env = true then do
    M.forN (e.size env) (fun i => do
      setAlpha
      let v ← M.lift (e.el env i)
      putEl fmt v
      put " ")
    put "\n"
  else do
    let r ← M.lift (e.nr env)
    M.forN r (fun i => do
      let c ← M.lift (e.nc env)
      M.forN c (fun j => do
        let v ← M.lift (e.el env ((j * r + i) % two64))
        putEl fmt v
        put "\t")
      put "\n")

/-- `operator<<` of a vector that owns or borrows its memory: Vector/VectorClass.hpp 89-97, Core/Borrow.hpp 163-170, Core/BaseStore.hpp
350-357; the elements are read without a check. -/
def showVec (fmt : Bool → V → String) (h : Heap V) (s : Store) : M OStream Unit := do
  put "Vec [ "
  M.forN s.sz (fun i => do
    let v ← M.lift (h.load s.p i)
    putEl fmt v
    put " ")
  put "]"

end ETR
