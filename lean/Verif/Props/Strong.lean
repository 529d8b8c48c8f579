import Verif.Lemmas.Strong

/-! # C81: an operation that throws leaves every vector as it was -/

namespace ETR.Mach
open Store
variable {V : Type}

/-- C81 (partial: `Atomic` excludes the store assignment from a shorter store and the assignment to a subset with an index out of
range, see `C81_false_store` and `C81_false_subset`; failed allocations are C10).  In every reachable state, an operation that
throws leaves the length, the elements and the dimensions of every existing vector as they were, its target included. -/
theorem C81_partial {zero : V} {s s' : Mach V} (r : Reach zero s) {c : Cmd V} (ha : s.Allowed c) (hat : Atomic s c)
    {m : String} (e : exec zero c s = (.thr m, s')) (y : Nat) (hy : y < s.n) : SameVar s s' y := by
  have h := exec_strong (zero := zero) r.inv ha hat
  rw [e] at h
  exact SI.same h hy

/-- The same for histories: operations that throw can be left out, as far as the vectors that exist before them are concerned. -/
theorem C81_history_partial {zero : V} {s s' : Mach V} (r : Reach zero s) (cs : List (Cmd V)) (ha : AllowedAll zero cs s)
    (hf : ∀ ds c es, cs = ds ++ c :: es → Atomic (runAll zero ds s).2 c ∧ ∃ m t, exec zero c (runAll zero ds s).2 = (.thr m, t))
    (e : runAll zero cs s = (none, s')) (y : Nat) (hy : y < s.n) : SameVar s s' y := by
  induction cs generalizing s with
  | nil =>
    simp only [runAll, Prod.mk.injEq, true_and] at e
    subst e; exact ⟨rfl, fun _ => rfl, rfl⟩
  | cons c cs ih =>
    obtain ⟨hat, m, t, ht⟩ := hf [] c cs rfl
    simp only [runAll] at hat ht
    have h1 := C81_partial r ha.1 hat ht y hy
    have hal := ha.2
    rw [runAll, ht] at e
    rw [ht] at hal
    have r1 : Reach zero t := r.step ha.1 ht (by simp)
    have hn : s.n ≤ t.n := by
      have h := exec_strong (zero := zero) r.inv ha.1 hat
      rw [ht] at h
      exact SI.n h
    have h2 := ih r1 hal (fun ds d es h => by
      have := hf (c :: ds) d es (by rw [h]; rfl)
      simp only [runAll, ht] at this
      exact this) e (by omega)
    exact ⟨h2.1.trans h1.1, fun i => (h2.2.1 i).trans (h1.2.1 i), h2.2.2.trans h1.2.2⟩

/-- A vector with elements 1, 2, 3 and one with elements 4, 5. -/
def strongHistory : List (Cmd Int) := [.declSize 3, .setElem 0 0 1, .setElem 0 1 2, .setElem 0 2 3, .declSize 2, .setElem 1 0 4,
  .setElem 1 1 5]

theorem strongAllowed : AllowedAll 0 strongHistory (start : Mach Int) :=
  .cons (by show _ ≤ _; decide) (.cons (by show _ < _; decide +kernel) (.cons (by show _ < _; decide +kernel)
    (.cons (by show _ < _; decide +kernel) (.cons (by show _ ≤ _; decide) (.cons (by show _ < _; decide +kernel)
      (.cons (by show _ < _; decide +kernel) trivial))))))

/-- The assignment of an expression whose second element fails (here: a conversion that throws) leaves the target as it was. -/
example :
    let conv : Int → Out Int := fun v => if v = 7 then .thr "no" else .ok v
    let r := exec 0 (.assign conv 0 (.bin (fun a b => .ok (a + b)) (.leaf 0) (.leaf 1))) (runAll 0 strongHistory start).2
    r.1 = .thr "no" ∧ (List.range 3).map (r.2.env.get 0) = [1, 2, 3].map Out.ok ∧
      AllowedAll 0 strongHistory (start : Mach Int) :=
  ⟨by decide +kernel, by decide +kernel, strongAllowed⟩

/-- A resize to length zero and a construction that fails, one after the other. -/
example :
    let cs : List (Cmd Int) := [.resize 0 0, .declSize 0, .setElem 0 7 1, .fillVec 0 1]
    (cs.map fun c => match (exec 0 c (runAll 0 strongHistory start).2).1 with | .thr _ => true | _ => false)
      = [true, true, true, true] := by decide +kernel

/-- C81 is false for the assignment of stores: the elements before the failing read have been overwritten. -/
theorem C81_false_store : ∃ (s s' : Mach Int) (m : String), Reach (0 : Int) s ∧ s.Allowed (.storeAssign 0 1) ∧
    exec 0 (.storeAssign 0 1) s = (.thr m, s') ∧ (List.range 3).map (s.env.get 0) = [1, 2, 3].map Out.ok ∧
    (List.range 3).map (s'.env.get 0) = [4, 5, 3].map Out.ok := by
  refine ⟨(runAll 0 strongHistory start).2, _, "Error: out of boundaries --> value beyond size of vector",
    ⟨strongHistory, strongAllowed, Prod.ext (by decide +kernel) rfl⟩, ?_,
    Prod.ext (by decide +kernel) rfl, by decide +kernel, by decide +kernel⟩
  refine ⟨?_, ?_, ?_, ?_⟩ <;> decide +kernel

/-- C81 is false for the assignment to a subset: the writes before the index out of range have taken place. -/
theorem C81_false_subset : ∃ (s s' : Mach Int) (m : String), Reach (0 : Int) s ∧ s.Allowed (.subAssignScalar 0 [0, 7] 9) ∧
    exec 0 (.subAssignScalar 0 [0, 7] 9) s = (.thr m, s') ∧ (List.range 3).map (s.env.get 0) = [1, 2, 3].map Out.ok ∧
    (List.range 3).map (s'.env.get 0) = [9, 2, 3].map Out.ok := by
  refine ⟨(runAll 0 strongHistory start).2, _, "Error: out of boundaries --> value beyond size of vector",
    ⟨strongHistory, strongAllowed, Prod.ext (by decide +kernel) rfl⟩, ?_,
    Prod.ext (by decide +kernel) rfl, by decide +kernel, by decide +kernel⟩
  show _ < _
  decide +kernel

/-- `C81_partial` for an assignment that throws at its second element. -/
example : ∃ s', SameVar (runAll 0 strongHistory start).2 s' 0 ∧
    exec 0 (.assign (fun v => if v = 7 then .thr "no" else .ok v) 0 (.bin (fun a b => .ok (a + b)) (.leaf 0) (.leaf 1))) (runAll 0 strongHistory start).2 =
      (.thr "no", s') := by
  have e : exec 0 (.assign (fun v => if v = 7 then .thr "no" else .ok v) 0 (.bin (fun a b => .ok (a + b)) (.leaf 0) (.leaf 1)))
      (runAll 0 strongHistory start).2 = (.thr "no", _) := Prod.ext (by decide +kernel) rfl
  exact ⟨_, C81_partial (c := .assign (fun v => if v = 7 then .thr "no" else .ok v) 0 (.bin (fun a b => .ok (a + b)) (.leaf 0) (.leaf 1))) ⟨strongHistory, strongAllowed, Prod.ext (by decide +kernel) rfl⟩
    ⟨by decide +kernel, fun v k h => (by simp only [] at h; split at h <;> cases h), ⟨fun _ _ => Out.NoMem.ok _, trivial, trivial⟩, by decide +kernel⟩ trivial e 0 (by decide +kernel), e⟩

end ETR.Mach
