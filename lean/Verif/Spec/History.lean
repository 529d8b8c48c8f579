import Verif.Model.Machine

/-!
# Which histories are considered

Preconditions of the public operations, as a user program has to respect them: objects exist, sizes
stay at or below `2^30` (so that the 32-bit arithmetic inside the library does not overflow), pointers handed to
the library are valid, a `Borrow` is made of memory of the caller, the functions applied to elements
work on values only.
-/

namespace ETR

/-- No memory error among the outcomes. -/
def Out.NoMem {α : Type} (o : Out α) : Prop := ∀ k, o = .ub k → k.memory = false

/-- The element functions of the expression make no memory errors (they work on values). -/
def Expr.FunSafe {V : Type} : Expr V → Prop
  | leaf _ | rvec _ _ | scal _ => True
  | un f e => (∀ v, (f v).NoMem) ∧ e.FunSafe
  | bin f l r => (∀ v w, (f v w).NoMem) ∧ l.FunSafe ∧ r.FunSafe
  | sub e _ _ => e.FunSafe

namespace Mach
variable {V : Type}

/-- `p` designates at least `n` elements of live memory. -/
def Valid (s : Mach V) (p : Ptr) (n : Nat) : Prop :=
  ∃ b, p = some b ∧ b < s.heap.next ∧ (s.heap.blk b).live = true ∧ n ≤ (s.heap.blk b).len

/-- The operation may be called in the state `s`. -/
def Allowed (s : Mach V) : Cmd V → Prop
  | .callerArray _ => True
  | .declDefault => True
  | .declSize n => n ≤ 2 ^ 30
  | .declScalar _ => True
  | .declMat r c => r * c ≤ 2 ^ 30
  | .declMatVal r c _ => r * c ≤ 2 ^ 30
  | .declCopy y => y < s.n ∧
      (s.bor y = false → (s.st (y, false)).sz ≤ (s.st (y, false)).capacity)
  | .declExpr conv e => (∀ v, (conv v).NoMem) ∧ e.FunSafe ∧ e.size s.env ≤ 2 ^ 30
  | .declTemp l _ => l.length ≤ 2 ^ 30
  | .declPtr p n => n ≤ 2 ^ 30 ∧ s.Valid p n
  | .declBorrow p n => 1 ≤ n ∧ s.Valid p n ∧ ∀ b, p = some b → (s.heap.blk b).newed = false
  | .assign conv x e => x < s.n ∧ (∀ v, (conv v).NoMem) ∧ e.FunSafe ∧ e.size s.env ≤ 2 ^ 30
  | .assignScalar x _ => x < s.n
  | .subAssign conv _ x ind e => x < s.n ∧ (∀ v, (conv v).NoMem) ∧ e.FunSafe ∧
      ind.length ≤ 2 ^ 30
  | .subAssignScalar x _ _ => x < s.n
  | .setElem x _ _ => x < s.n
  | .resize x n => x < s.n ∧ n ≤ 2 ^ 30
  | .fill x _ => x < s.n
  | .fillVec x _ => x < s.n
  | .pushBack x _ => x < s.n ∧ s.bor x = false ∧ (s.st (x, false)).sz < 2 ^ 29
  | .storeAssign x y => x < s.n ∧ s.bor x = false ∧ s.bor y = false ∧ x ≠ y
  | .destroy x => x < s.n

/-- Every operation of the history may be called in the state in which it is called (exceptions are
caught and the history goes on). -/
def AllowedAll (zero : V) : List (Cmd V) → Mach V → Prop
  | [], _ => True
  | c :: cs, s => s.Allowed c ∧ match exec zero c s with
    | (.ub _, _) => True
    | (_, s') => AllowedAll zero cs s'

theorem AllowedAll.cons {zero : V} {c : Cmd V} {cs : List (Cmd V)} {s : Mach V} (h : s.Allowed c)
    (h' : AllowedAll zero cs (exec zero c s).2) : AllowedAll zero (c :: cs) s := by
  refine ⟨h, ?_⟩
  rcases he : exec zero c s with ⟨o, s'⟩
  rw [he] at h'
  cases o
  · exact h'
  · exact h'
  · trivial

/-- The states a program can reach: the history consists of allowed operations and none of them had
undefined behaviour (exceptions are caught). -/
def Reach (zero : V) (s : Mach V) : Prop :=
  ∃ cs, AllowedAll zero cs start ∧ runAll zero cs start = (none, s)

/-- No block obtained by `new[]` is still allocated. -/
def NoLeak (s : Mach V) : Prop :=
  ∀ b, b < s.heap.next → (s.heap.blk b).newed = true → (s.heap.blk b).live = false

/-- Destruction of all objects. -/
def destroyAll (s : Mach V) : List (Cmd V) := (List.range s.n).map Cmd.destroy

end Mach
end ETR
