import Verif.Props.Held
import Verif.Model.HeldRead

/-! # C89: reading, printing and writing through expressions kept in variables -/

namespace ETR.HState
open Spec
variable {V : Type}

/-- C89 for reading: in any state that a program can reach, `e[i]`, the conversion of `e` to a number and `print(e)` are those of the
expression that the name stands for, if it stands for one. -/
theorem C89_read_partial (zero : V) (sched : List Bool) (p : List (HCmd V)) (H : HState V)
    (hs : ScopedAll Names.start p) (h : runAll zero p (HState.start sched) = (none, H)) (k : Nat) {e : Expr V}
    (he : (Names.start.after p).stands k = some e) :
    (∀ i, readHeld zero H k i = e.el H.mach.env i) ∧ (∀ b, firstHeld zero b H k = toScalar b H.mach.env e) ∧
      ∀ fmt, printHeld zero fmt H k = printVec fmt H.mach.env e := by
  have I := Inv2.run p _ _ _ (Inv2.start sched) hs h
  have hr := I.toInv.stands (zero := zero) he
  refine ⟨fun i => by unfold readHeld; rw [hr]; rfl, fun b => ?_, fun fmt => ?_⟩
  · funext ws; unfold firstHeld; rw [hr]; rfl
  · funext o; unfold printHeld; rw [hr]; rfl

/-- C89 for reading: a name that does not stand for an expression (an operand had no name, or has left its scope) never gives an element
or a number, whatever the position is. -/
theorem C89_read_temporary (zero : V) (sched : List Bool) (p : List (HCmd V)) (H : HState V)
    (hs : ScopedAll Names.start p) (h : runAll zero p (HState.start sched) = (none, H)) (k : Nat)
    (hk : k < (Names.start.after p).next) (he : (Names.start.after p).stands k = none) :
    (∀ i v, readHeld zero H k i ≠ .ok v) ∧ ∀ b ws v ws', firstHeld zero b H k ws ≠ (.ok v, ws') := by
  have I := Inv2.run p _ _ _ (Inv2.start sched) hs h
  have hd := I.stands (by rw [← I.next]; exact hk) he
  rcases hd.broken (zero := zero) H.next with ⟨u, hu⟩ | ⟨e, hr, hb⟩
  · refine ⟨fun i v hv => ?_, fun b ws v ws' hv => ?_⟩
    · unfold readHeld at hv; rw [hu] at hv; cases hv
    · unfold firstHeld at hv; rw [hu] at hv; cases hv
  · refine ⟨fun i v hv => ?_, fun b ws v ws' hv => ?_⟩
    · unfold readHeld at hv; rw [hr] at hv; exact hb _ _ _ hv
    · unfold firstHeld at hv
      rw [hr] at hv
      have hv : toScalar b H.mach.env e ws = (.ok v, ws') := hv
      have key : ∀ ws1, M.lift (e.el H.mach.env 0) ws1 ≠ (.ok v, ws') := by
        intro ws1 h1
        rw [M.lift_apply] at h1
        exact hb _ _ _ (congrArg Prod.fst h1)
      unfold toScalar at hv
      cases b with
      | false => exact key ws hv
      | true =>
        rw [if_pos rfl, M.bind_apply] at hv
        rcases hw : warn (decide (e.size H.mach.env = 1)) ifMsg ws with ⟨o, w⟩
        rw [hw] at hv
        cases o with
        | ok u => exact key w hv
        | thr m => cases hv
        | ub m => cases hv

/-- C89 for writing: if a name stands for a subset of a vector, `s = v;` writes `v` to the selected elements of that vector as
`subset(x, …) = v;` does, with the elements that the vector has at that time. -/
theorem C89_write_partial (zero : V) (sched : List Bool) (p : List (HCmd V)) (H : HState V)
    (hs : ScopedAll Names.start p) (h : runAll zero p (HState.start sched) = (none, H)) (k : Nat) {x : Nat} {ind : List Nat} {mp : MP}
    (he : (Names.start.after p).stands k = some (.sub (.leaf x) ind mp)) (v : V) :
    (writeHeld k v H).1 = (Mach.exec zero (.subAssignScalar x ind v) H.mach).1 ∧
      (writeHeld k v H).2.mach = (Mach.exec zero (.subAssignScalar x ind v) H.mach).2 := by
  have I := (Inv2.run p _ _ _ (Inv2.start sched) hs h).toInv
  simp only [Names.stands, Option.bind_eq_bind, Option.bind_eq_some_iff] at he
  obtain ⟨t, ht, he⟩ := he
  obtain ⟨o, ho, hn⟩ := I.term k t ht
  cases hn with
  | rvec l mp => cases he
  | un f h1 h2 => simp [Term.expr] at he
  | bin f h1 h2 h3 h4 =>
    simp only [Term.expr, Option.bind_eq_bind, Option.bind_eq_some_iff] at he
    obtain ⟨_, _, _, _, hxy⟩ := he
    cases hxy
  | @sub u a ind' mp' h1 h2 =>
    simp only [Term.expr, Option.map_eq_some_iff] at he
    obtain ⟨e', he', heq⟩ := he
    cases heq
    cases u with
    | vec y =>
      simp only [Term.expr] at he'
      split at he'
      · cases he'
      · rename_i hg
        cases he'
        cases h1
        rw [I.gone] at hg
        unfold writeHeld
        rw [ho]
        simp only [hg]
        exact ⟨rfl, rfl⟩
    | name j t =>
      obtain ⟨hj, hj'⟩ := h2
      simp only [Term.expr] at he'
      split at he'
      · rename_i hsome
        rcases hj' with hj' | hj'
        · obtain ⟨o', _, hn'⟩ := I.term j t hj'
          cases hn' with
          | rvec l mp => cases he'
          | un f h1 h2 => simp [Term.expr] at he'
          | bin f h1 h2 h3 h4 =>
            simp only [Term.expr, Option.bind_eq_bind, Option.bind_eq_some_iff] at he'
            obtain ⟨_, _, _, _, hxy⟩ := he'
            cases hxy
          | sub ind mp h1 h2 => simp [Term.expr] at he'
        · rw [hj'] at hsome; cases hsome
      · cases he'
    | var j => simp [Term.expr] at he'
    | rvec l mp => cases h1
    | un f t => cases h1
    | bin f t u => cases h1
    | sub t ind mp => cases h1

/-- C89 for writing: writing through a name that does not stand for an expression, such as a subset of a vector that has left its scope,
is undefined. -/
theorem C89_write_gone (zero : V) (sched : List Bool) (p : List (HCmd V)) (H : HState V)
    (hs : ScopedAll Names.start p) (h : runAll zero p (HState.start sched) = (none, H)) (k : Nat)
    (hk : k < (Names.start.after p).next) (he : (Names.start.after p).stands k = none) (v : V) :
    ∃ u, (writeHeld k v H).1 = .ub u := by
  have I := Inv2.run p _ _ _ (Inv2.start sched) hs h
  have hd := I.stands (by rw [← I.next]; exact hk) he
  unfold writeHeld
  split
  · rename_i x ind mp ho
    have hg : H.gone x = true := by
      cases hd with
      | none _ h1 => rw [ho] at h1; cases h1
      | isNum h1 => rw [ho] at h1; cases h1
      | un h1 _ => rw [ho] at h1; cases h1
      | left h1 _ => rw [ho] at h1; cases h1
      | right h1 _ => rw [ho] at h1; cases h1
      | sub h1 h2 =>
        rw [ho] at h1
        cases h1
        cases h2 with
        | vec h3 => exact h3
    exact ⟨.useAfterFree, by rw [if_pos hg]⟩
  · exact ⟨.useAfterFree, rfl⟩

/-! `auto e = a + b; int c = 2; auto f = e * c; a = c(5, 6, 7); c = 3; r = f;`, then `f[1]`. -/
example : ∃ H, runAll 0 heldProgram HState.start = (none, H) ∧ readHeld 0 H 2 1 = .ok 78 := by
  have e : runAll 0 heldProgram HState.start = (none, _) := Prod.ext (by decide +kernel) rfl
  refine ⟨_, e, ((C89_read_partial 0 [] heldProgram _
    (by simp [heldProgram, heldSetup, ScopedAll, ScopedCmd, Scoped, Names.step, Names.start, count]) e 2 rfl).1 1).trans ?_⟩
  decide +kernel

/-- `auto e = a + 1;`, then `e[0]`. -/
def heldLiteral : List (HCmd Int) := heldSetup ++ [.hold (.bin (fun x y => .ok (x + y)) (.vec 1) (.lit 1))]

example : ∃ H, runAll 0 heldLiteral HState.start = (none, H) ∧ ∀ v, readHeld 0 H 1 0 ≠ .ok v := by
  have e : runAll 0 heldLiteral HState.start = (none, _) := Prod.ext (by decide +kernel) rfl
  exact ⟨_, e, (C89_read_temporary 0 [] heldLiteral _
    (by simp [heldLiteral, heldSetup, ScopedAll, ScopedCmd, Scoped, Names.start]) e 1 (by decide) rfl).1 0⟩

/-- `auto s = subset(a, c(3, 1)); a = c(5, 6, 7);`, then `s = 9`. -/
def heldSubset : List (HCmd Int) := heldSetup ++ [.hold (.sub (.vec 1) [2, 0] {}), .cmd (.assign .ok 1 (.rvec [5, 6, 7] {}))]

example : ∃ H, runAll 0 heldSubset HState.start = (none, H) ∧ (writeHeld 0 9 H).1 = .ok () ∧
    (List.range 3).map ((writeHeld 0 9 H).2.mach.env.get 1) = [.ok 9, .ok 6, .ok 9] := by
  have e : runAll 0 heldSubset HState.start = (none, _) := Prod.ext (by decide +kernel) rfl
  obtain ⟨h1, h2⟩ := C89_write_partial 0 [] heldSubset _
    (by simp [heldSubset, heldSetup, ScopedAll, ScopedCmd, Scoped, Names.start]) e 0
    (x := 1) (ind := [2, 0]) (mp := {}) rfl 9
  exact ⟨_, e, h1.trans (by decide +kernel), by rw [h2]; decide +kernel⟩

/-- `auto s = subset(a, c(3, 1));` after the end of the scope of `a`, then `s = 9`. -/
def heldGone : List (HCmd Int) := heldSetup ++ [.hold (.sub (.vec 1) [2, 0] {}), .cmd (.destroy 1)]

example : ∃ H, runAll 0 heldGone HState.start = (none, H) ∧ ∃ u, (writeHeld 0 9 H).1 = .ub u := by
  have e : runAll 0 heldGone HState.start = (none, _) := Prod.ext (by decide +kernel) rfl
  exact ⟨_, e, C89_write_gone 0 [] heldGone _
    (by simp [heldGone, heldSetup, ScopedAll, ScopedCmd, Scoped, Names.start]) e 0 (by decide) rfl 9⟩

end ETR.HState
