import Verif.Model.Subset
import Verif.Model.Typed

/-! Specification for C113: a formula in which every vector is replaced by a selection of it. -/

namespace ETR.Spec
variable {V : Type}

/-- `e'` is the formula `e`, made of vectors with `n` elements and of numbers, after each of these vectors `v` was replaced by `v(idx)`.
The vectors may be named, temporary, or formulas. -/
inductive SelectIn (env : Env V) (n : Nat) (idx : Index) : Expr V → Expr V → Prop
  | vec {v v' : Expr V} {ws ws' : List String} : v.isScal = false → v.size env = n → subset env v idx ws = (.ok v', ws') →
      SelectIn env n idx v v'
  | un {f : V → Out V} {e e' : Expr V} : SelectIn env n idx e e' → SelectIn env n idx (.un f e) (.un f e')
  | bin {f : V → V → Out V} {l l' r r' : Expr V} : SelectIn env n idx l l' → SelectIn env n idx r r' →
      SelectIn env n idx (.bin f l r) (.bin f l' r')
  | binLeft {f : V → V → Out V} {v : V} {r r' : Expr V} : SelectIn env n idx r r' →
      SelectIn env n idx (.bin f (.scal v) r) (.bin f (.scal v) r')
  | binRight {f : V → V → Out V} {v : V} {l l' : Expr V} : SelectIn env n idx l l' →
      SelectIn env n idx (.bin f l (.scal v)) (.bin f l' (.scal v))

/-- The same for formulas with element types, over named vectors; `ind` are the selected positions, counted from 0. -/
inductive TSelectIn (env : Env Scal) (n : Nat) (ind : List Nat) : TForm → TForm → Prop
  | vec {t : Ty} {x : Nat} : env.size x = n → TSelectIn env n ind (.leaf t x) (.sub (.leaf t x) ind {})
  | un {o : UnO} {e e' : TForm} : TSelectIn env n ind e e' → TSelectIn env n ind (.un o e) (.un o e')
  | bin {o : BinO} {l l' r r' : TForm} : TSelectIn env n ind l l' → TSelectIn env n ind r r' →
      TSelectIn env n ind (.bin o l r) (.bin o l' r')
  | binLeft {o : BinO} {v : Scal} {r r' : TForm} : TSelectIn env n ind r r' →
      TSelectIn env n ind (.bin o (.scal v) r) (.bin o (.scal v) r')
  | binRight {o : BinO} {v : Scal} {l l' : TForm} : TSelectIn env n ind l l' →
      TSelectIn env n ind (.bin o l (.scal v)) (.bin o l' (.scal v))

end ETR.Spec
