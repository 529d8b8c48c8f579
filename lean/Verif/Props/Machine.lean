import Verif.Lemmas.MachExec

/-! Properties that hold in every reachable state of the vector machine: C02, C06, and parts of
C19 and C21. -/

namespace ETR
namespace Mach
open Store

variable {V : Type}

theorem Reach.inv {zero : V} {s : Mach V} (r : Reach zero s) : Inv s := by
  obtain ⟨cs, ha, e⟩ := r
  have := runAll_safe (zero := zero) cs start Inv.start ha
  rw [e] at this
  exact this

/-! ## C06 no double free, use after free, leak -/

/-- C06 (partial: sizes up to `2^30`; a copy is made only of vectors that were not just initialised
from a temporary, see `C07_false_moved_in`; `fill` from a temporary is treated in C09).
No history of allowed operations, whatever it does with exceptions, ends in a memory error: no access
outside a block, no use after free, no release of a block that is not owned. -/
theorem C06_no_memory_error_partial (zero : V) (cs : List (Cmd V))
    (ha : AllowedAll zero cs start) (k : UB) (s : Mach V)
    (e : runAll zero cs start = (some k, s)) : k.memory = false := by
  have := runAll_safe (zero := zero) cs start Inv.start ha
  rw [e] at this
  exact this

/-- `Vec x = 1 + 2` with signed overflow in the element function, the only kind of undefined behaviour that is left. -/
example : ∃ k s, runAll (0 : Int) [.declTemp [1, 2] {}, .assign .ok 1 (.bin (fun _ _ => .ub .intOverflow) (.leaf 1) (.scal 2))] start = (some k, s) ∧
    k.memory = false := by
  have e : runAll (0 : Int) [.declTemp [1, 2] {}, .assign .ok 1 (.bin (fun _ _ => .ub .intOverflow) (.leaf 1) (.scal 2))] start = (some .intOverflow, _) :=
    Prod.ext (by decide +kernel) rfl
  exact ⟨_, _, e, C06_no_memory_error_partial 0
    [.declTemp [1, 2] {}, .assign .ok 1 (.bin (fun _ _ => .ub .intOverflow) (.leaf 1) (.scal 2))] (.cons (show 2 ≤ 2 ^ 30 by decide)
    (.cons ⟨by decide +kernel, fun v => Out.NoMem.ok v, ⟨fun _ _ k hk => (by cases hk; rfl), trivial, trivial⟩, by decide +kernel⟩ trivial)) _ _ e⟩

/-- The destructors of all objects, one after the other. -/
theorem destroyMany (zero : V) (xs : List Nat) : ∀ (s : Mach V), Inv s → (∀ x ∈ xs, x < s.n) →
    ∃ s', runAll zero (xs.map Cmd.destroy) s = (none, s') ∧ Inv s' ∧ s'.n = s.n ∧
      (∀ y : Slot, y.1 ∈ xs → s'.st y = {}) ∧ (∀ y : Slot, s.st y = {} → s'.st y = {}) ∧
      (∀ b, (s.heap.blk b).newed = false → s'.heap.blk b = s.heap.blk b) := by
  induction xs with
  | nil => intro s I _; exact ⟨s, rfl, I, rfl, by simp, fun _ h => h, fun _ _ => rfl⟩
  | cons x xs ih =>
    intro s I hx
    obtain ⟨s1, e1, I1, n1, z1, o1, _, _, f1, _⟩ := safe_destroy I (hx x (by simp))
    obtain ⟨s2, e2, I2, n2, z2, o2, f2⟩ := ih s1 I1 (fun y hy => by
      rw [n1]; exact hx y (by simp [hy]))
    have fr : ∀ b, (s.heap.blk b).newed = false → s1.heap.blk b = s.heap.blk b := by
      intro b hb
      refine f1 b (fun y _ hy hp => ?_)
      have := ((I.ownOf hy).ptr b hp).2.2.1
      rw [hb] at this; simp at this
    refine ⟨s2, ?_, I2, by rw [n2, n1], ?_, ?_, ?_⟩
    · have : exec zero (.destroy x) s = (.ok (), s1) := e1
      rw [List.map_cons, runAll, this]
      exact e2
    · intro y hy
      rcases List.mem_cons.mp hy with h | h
      · exact o2 y (z1 y h)
      · exact z2 y h
    · intro y hy
      refine o2 y ?_
      by_cases h : y.1 = x
      · exact z1 y h
      · rw [o1 y h]; exact hy
    · intro b hb
      rw [f2 b (by rw [fr b hb]; exact hb), fr b hb]

/-- C06, no leak: from every reachable state the destruction of all objects works and leaves no
block allocated by the library. -/
theorem C06_no_leak_partial (zero : V) (s : Mach V) (r : Reach zero s) :
    ∃ s', runAll zero s.destroyAll s = (none, s') ∧ NoLeak s' := by
  obtain ⟨s', e, I', n', z, o, _⟩ := destroyMany zero (List.range s.n) s r.inv (by simp)
  refine ⟨s', e, fun b hb hn => ?_⟩
  cases hl : (s'.heap.blk b).live with
  | false => rfl
  | true =>
    obtain ⟨y, _, hp⟩ := I'.own b hb hl hn
    have : s'.st y = {} := by
      by_cases h : y.1 < s.n
      · exact z y (by simpa using h)
      · obtain ⟨h1, h2, _⟩ := I'.fresh y.1 (by omega)
        obtain ⟨y1, y2⟩ := y
        cases y2
        · exact h1
        · exact h2
    rw [this] at hp; simp at hp

/-- A sample history with several objects, an assignment, growth by `push_back`, a copy, a rejected
operation and a destruction. -/
def sampleHistory : List (Cmd Int) :=
  [.declSize 3, .declDefault, .assign .ok 1 (.leaf 0), .pushBack 0 7, .declCopy 0, .setElem 2 9 1,
    .destroy 1]

theorem sampleAllowed : AllowedAll 0 sampleHistory start := by
  refine .cons (by show _ ≤ _; decide) <| .cons trivial <|
    .cons ⟨by decide +kernel, fun v => Out.NoMem.ok v, trivial, by decide +kernel⟩ <|
    .cons ⟨by decide +kernel, by decide +kernel, by decide +kernel⟩ <|
    .cons ⟨by decide +kernel, by decide +kernel⟩ <| .cons ?_ <| .cons ?_ trivial
  · show _ < _; decide +kernel
  · show _ < _; decide +kernel

theorem sampleReach : Reach 0 (runAll 0 sampleHistory start).2 :=
  ⟨_, sampleAllowed, Prod.ext (by decide +kernel) rfl⟩

/-- The hypotheses of the theorems on reachable states are met by a state with three objects and five
allocated blocks, some of them released. -/
example : Reach 0 (runAll 0 sampleHistory start).2 ∧
    (runAll 0 sampleHistory start).2.n = 3 ∧ (runAll 0 sampleHistory start).2.heap.next = 4 :=
  ⟨sampleReach, by decide +kernel, by decide +kernel⟩

end Mach
end ETR
