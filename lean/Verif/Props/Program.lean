import Verif.Lemmas.ProgBor

/-!
# Programs over vectors behave like programs over lists

C18 and its consequences.  `Spec.run` is the naive semantics, `Mach.runOk` the library.
-/

namespace ETR
namespace Mach
variable {V : Type}
open Store Spec

theorem Rep.run {zero : V} : ∀ {cs : List (Cmd V)} {s : Mach V} {p p' : PState V}, Rep s p →
    Spec.run zero cs p = some p' → ∃ s', runOk zero cs s = (.ok (), s') ∧ Rep s' p' := by
  intro cs
  induction cs with
  | nil =>
    intro s p p' R h
    simp only [Spec.run, Option.some.injEq] at h
    subst h
    exact ⟨s, rfl, R⟩
  | cons c cs ih =>
    intro s p p' R h
    simp only [Spec.run, Option.bind_eq_bind, Option.bind_eq_some_iff] at h
    obtain ⟨q, h1, h2⟩ := h
    obtain ⟨s1, e1, R1⟩ := R.step h1
    obtain ⟨s2, e2, R2⟩ := ih R1 h2
    exact ⟨s2, by unfold runOk; rw [M.bind_ok e1, e2], R2⟩

/-- C18: let the caller have the arrays `ls`.  A program (over vectors that own their elements and
vectors that borrow these arrays) that has a meaning in the naive semantics runs without exception
and without undefined behaviour; afterwards every vector shows exactly the naive list and every array
of the caller contains exactly the naive list. -/
theorem C18_program_agreement_partial (zero : V) (ls : List (List V)) (cs : List (Cmd V)) (p : PState V)
    (h : Spec.run zero cs (PState.caller ls) = some p) :
    ∃ s, runOk zero (ls.map .callerArray ++ cs) start = (.ok (), s) ∧
      (∀ x l, p.lists x = some l → ShowsVar s x l) ∧
      (∀ a l, p.arrays a = some l → ∀ i (hi : i < l.length), s.heap.load (some a) i = .ok l[i]) := by
  obtain ⟨s0, e0, R0⟩ := Rep.caller (zero := zero) ls
  obtain ⟨s, e, R⟩ := R0.run h
  refine ⟨s, by rw [runOk_append e0, e], fun x l hl => R.agrees x l hl, fun a l hl i hi => ?_⟩
  obtain ⟨_, k2⟩ := R.b.arrays a l hl
  exact Heap.load_some (by rw [k2]; rfl) (by rw [k2]; exact hi) (by rw [k2]; exact List.getElem?_eq_getElem _)

/-- A program with recycling, an operand that is also the target, a subset read and a subset
assignment:
`a = {1,2,3,4}; b = 10; a = a + b; a(1,3) = a(4,2); a.push_back(7);`. -/
def sampleProgram : List (Cmd Int) :=
  [.declExpr .ok (.rvec [1, 2, 3, 4] {}),
   .declScalar 10,
   .assign .ok 0 (.bin (fun a b => .ok (a + b)) (.leaf 0) (.leaf 1)),
   .subAssign .ok false 0 [0, 2] (.sub (.leaf 0) [3, 1] {}),
   .pushBack 0 7]

example : ∃ p, Spec.run 0 sampleProgram (PState.caller []) = some p ∧
    p.vars 0 = some ⟨[14, 12, 12, 14, 7], .std⟩ ∧ p.vars 1 = some ⟨[10], .std⟩ :=
  ⟨_, rfl, rfl, rfl⟩

example : (List.range 5).map ((runOk 0 sampleProgram start).2.env.get 0)
    = [14, 12, 12, 14, 7].map Out.ok := by
  decide +kernel

/-- Two vectors on the same array of the caller and one that owns its elements:
`borrow a(arr, 4); borrow b(arr, 2); vec c = a + b; b = c(1, 2) * b; a(4) = 9; c.fill(a);`. -/
def sharedProgram : List (Cmd Int) :=
  [.declBorrow (some 0) 4,
   .declBorrow (some 0) 2,
   .declExpr .ok (.bin (fun a b => .ok (a + b)) (.leaf 0) (.leaf 1)),
   .assign .ok 1 (.bin (fun a b => .ok (a * b)) (.sub (.leaf 2) [0, 1] {}) (.leaf 1)),
   .subAssignScalar 0 [3] 9,
   .fillVec 2 0]

example : ∃ p, Spec.run 0 sharedProgram (PState.caller [[1, 2, 3, 4]]) = some p ∧
    p.lists 0 = some [2, 8, 3, 9] ∧ p.lists 1 = some [2, 8] ∧ p.lists 2 = some [2, 8, 3, 9] ∧
    p.arrays 0 = some [2, 8, 3, 9] :=
  ⟨_, rfl, rfl, rfl, rfl, rfl⟩

example : (List.range 4).map ((runOk 0 (.callerArray [1, 2, 3, 4] :: sharedProgram) start).2.env.get 2)
    = [2, 8, 3, 9].map Out.ok := by
  decide +kernel

end Mach
end ETR
