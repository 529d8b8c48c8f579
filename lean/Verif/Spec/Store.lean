import Verif.Model.Store

/-! Specification vocabulary for stores, in terms of what a user can observe: the reported size and
the result of reading each index. -/

namespace ETR

/-- The store shows exactly the list `l`: it reports `l.length` elements and reading index `i`
returns `l[i]`. -/
def Shows {V : Type} (h : Heap V) (s : Store) (l : List V) : Prop :=
  s.sz = l.length ∧ ∀ i (hi : i < l.length), s.get h i = .ok l[i]

end ETR
