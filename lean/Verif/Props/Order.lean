import Verif.Spec.Order
import Verif.Props.SwapControl

/-! The order in which operands are evaluated: C114. -/

namespace ETR
open Spec
variable {V : Type}

theorem bind_ok_iff {α β : Type} {a a' : Out α} {f f' : α → Out β} {v : β} (h : ∀ x, a = .ok x ↔ a' = .ok x)
    (hf : ∀ x, f x = .ok v ↔ f' x = .ok v) : (a >>= f) = .ok v ↔ (a' >>= f') = .ok v := by
  rcases a with x | m | u
  · rw [(h x).1 rfl]
    exact hf x
  · rcases a' with x | m' | u'
    · exact absurd ((h x).2 rfl) (by simp)
    · exact ⟨fun h => (by cases h), fun h => (by cases h)⟩
    · exact ⟨fun h => (by cases h), fun h => (by cases h)⟩
  · rcases a' with x | m' | u'
    · exact absurd ((h x).2 rfl) (by simp)
    · exact ⟨fun h => (by cases h), fun h => (by cases h)⟩
    · exact ⟨fun h => (by cases h), fun h => (by cases h)⟩

theorem two_orders {α β γ : Type} (a : Out α) (b : Out β) (f : α → β → Out γ) (v : γ) :
    (b >>= fun y => a >>= fun x => f x y) = .ok v ↔ (a >>= fun x => b >>= fun y => f x y) = .ok v := by
  rcases a with x | m | u <;> rcases b with y | m' | u' <;> first | exact Iff.rfl | exact ⟨fun h => (by cases h), fun h => (by cases h)⟩

/-- `o` is one of the outcomes of `p`, and both succeed with the same value or both fail. -/
theorem can_spec (env : Env V) : ∀ (e : Expr V) (i : Nat), Can env e i (e.el env i) ∧
    ∀ o, Can env e i o → ∀ v, o = .ok v ↔ e.el env i = .ok v := by
  have at_ {e : Expr V} (ih : ∀ i, Can env e i (e.el env i) ∧ ∀ o, Can env e i o → ∀ v, o = .ok v ↔ e.el env i = .ok v) (p : Out Nat) :
      CanAt (Can env e) p (p >>= e.el env) ∧ ∀ o, CanAt (Can env e) p o → ∀ v, o = .ok v ↔ (p >>= e.el env) = .ok v := by
    rcases p with k | m | u
    · exact ih k
    · exact ⟨rfl, fun o h v => by rw [show o = .thr m from h]; rfl⟩
    · exact ⟨rfl, fun o h v => by rw [show o = .ub u from h]; rfl⟩
  intro e
  induction e with
  | leaf x => exact fun i => ⟨rfl, fun o h v => by rw [show o = env.get x i from h]; rfl⟩
  | rvec l mp => exact fun i => ⟨rfl, fun o h v => by rw [show o = getL l i from h]; rfl⟩
  | scal w => exact fun i => ⟨rfl, fun o h v => by rw [show o = .ok w from h]; rfl⟩
  | un f e ih =>
    intro i
    obtain ⟨h1, h2⟩ := at_ ih (posOf e.isScal (e.size env) i)
    have he : (Expr.un f e).el env i = ((posOf e.isScal (e.size env) i >>= e.el env) >>= f) := by
      rw [Expr.el]
      rcases posOf e.isScal (e.size env) i with k | m | u <;> rfl
    rw [he]
    refine ⟨⟨_, h1, rfl⟩, ?_⟩
    rintro o ⟨a, ha, rfl⟩ v
    have h3 := h2 a ha
    generalize (posOf e.isScal (e.size env) i >>= e.el env) = b at h3
    exact bind_ok_iff h3 (fun _ => Iff.rfl)
  | bin f l r ihl ihr =>
    intro i
    obtain ⟨h1, h2⟩ := at_ ihl (posOf l.isScal (l.size env) i)
    obtain ⟨g1, g2⟩ := at_ ihr (posOf r.isScal (r.size env) i)
    have he : (Expr.bin f l r).el env i = ((posOf l.isScal (l.size env) i >>= l.el env) >>= fun x =>
        (posOf r.isScal (r.size env) i >>= r.el env) >>= fun y => f x y) := by
      rw [Expr.el]
      rcases posOf l.isScal (l.size env) i with k | m | u
      · show (l.el env k >>= _) = (l.el env k >>= _)
        rcases l.el env k with a | m | u
        · rcases posOf r.isScal (r.size env) i with k' | m | u <;> rfl
        · rfl
        · rfl
      · rfl
      · rfl
    rw [he]
    refine ⟨⟨_, _, h1, g1, Or.inl rfl⟩, ?_⟩
    rintro o ⟨a, b, ha, hb, h⟩ v
    have h3 := h2 a ha
    have g3 := g2 b hb
    generalize (posOf l.isScal (l.size env) i >>= l.el env) = a' at h3
    generalize (posOf r.isScal (r.size env) i >>= r.el env) = b' at g3
    rcases h with rfl | rfl
    · exact bind_ok_iff h3 fun x => bind_ok_iff g3 fun y => Iff.rfl
    · rw [two_orders]
      exact bind_ok_iff h3 fun x => bind_ok_iff g3 fun y => Iff.rfl
  | sub e ind mp ih =>
    intro i
    have he : (Expr.sub e ind mp).el env i = ((modz i (e.size env) >>= getL ind) >>= e.el env) := by
      rw [Expr.el]
      rcases modz i (e.size env) with k | m | u <;> rfl
    rw [he]
    exact at_ ih _

/-- C114, expressions: in whatever order the operands are evaluated, at every operation and every reading, an element has the same value,
or none in every order. -/
theorem C114_value (env : Env V) (e : Expr V) (i : Nat) {o o' : Out V} (h : Can env e i o) (h' : Can env e i o') (v : V) :
    o = .ok v ↔ o' = .ok v :=
  ((can_spec env e i).2 o h v).trans ((can_spec env e i).2 o' h' v).symm

/-- The order of the model, left to right, is one of them. -/
theorem C114_left_first (env : Env V) (e : Expr V) (i : Nat) : Can env e i (e.el env i) := (can_spec env e i).1

namespace Spec

theorem Reorder.swap {e e' : Expr V} (h : Reorder e e') : Swap e e' := by
  induction h with
  | refl e => exact .refl e
  | un f _ ih => exact .un f ih
  | bin f _ _ ihl ihr => exact .bin f ihl ihr
  | other f _ _ ihl ihr => exact .trans (.bin f ihl ihr) (.swap (fun _ _ _ h => h) _ _)
  | sub ind mp _ ih => exact .sub ind mp ih

theorem Reorder.swap' {e e' : Expr V} (h : Reorder e e') : Swap e' e := by
  induction h with
  | refl e => exact .refl e
  | un f _ ih => exact .un f ih
  | bin f _ _ ihl ihr => exact .bin f ihl ihr
  | other f _ _ ihl ihr => exact .trans (.swap (g := f) (fun _ _ _ h => h) _ _) (.bin f ihl ihr)
  | sub ind mp _ ih => exact .sub ind mp ih

theorem ReorderCmd.swap {c c' : Cmd V} (h : ReorderCmd c c') : SwapCmd c c' ∧ SwapCmd c' c := by
  cases h with
  | refl => exact ⟨.refl _, .refl _⟩
  | declExpr conv h => exact ⟨.declExpr conv h.swap, .declExpr conv h.swap'⟩
  | assign conv x h => exact ⟨.assign conv x h.swap, .assign conv x h.swap'⟩
  | subAssign conv same x ind h => exact ⟨.subAssign conv same x ind h.swap, .subAssign conv same x ind h.swap'⟩

theorem ReorderProg.swap {a a' : Prog V} (h : ReorderProg a a') : SwapProg a a' ∧ SwapProg a' a := by
  induction h with
  | refl a => exact ⟨.refl a, .refl a⟩
  | cmd h => exact ⟨.cmd h.swap.1, .cmd h.swap.2⟩
  | seq _ _ i j => exact ⟨.seq i.1 j.1, .seq i.2 j.2⟩
  | decl h _ i => exact ⟨.decl h.swap.1 fun y => (i y).1, .decl h.swap.2 fun y => (i y).2⟩
  | read b h _ i => exact ⟨.read b h.swap fun v => (i v).1, .read b h.swap' fun v => (i v).2⟩
  | index x h _ i => exact ⟨.index x h.swap fun v => (i v).1, .index x h.swap' fun v => (i v).2⟩
  | len h _ i => exact ⟨.len h.swap fun v => (i v).1, .len h.swap' fun v => (i v).2⟩
  | loop b c h _ i => exact ⟨.loop b c h.swap i.1, .loop b c h.swap' i.2⟩
  | forVec x _ i => exact ⟨.forVec x fun v => (i v).1, .forVec x fun v => (i v).2⟩
  | forInt a b _ i => exact ⟨.forInt a b fun v => (i v).1, .forInt a b fun v => (i v).2⟩
  | forDbl a b _ i => exact ⟨.forDbl a b fun v => (i v).1, .forDbl a b fun v => (i v).2⟩
  | block _ i => exact ⟨.block i.1, .block i.2⟩
  | tryCatch a _ i => exact ⟨.tryCatch a fun m => (i m).1, .tryCatch a fun m => (i m).2⟩

end Spec

/-- C114, statements: a statement succeeds in one order of evaluation exactly if it succeeds in the other, and leads to the same state,
memory included. -/
theorem C114_statement (zero : V) {c c' : Cmd V} (h : ReorderCmd c c') (s s' : Mach V) :
    Mach.exec zero c s = (.ok (), s') ↔ Mach.exec zero c' s = (.ok (), s') :=
  ⟨Mach.same_exec zero h.swap.1 s () s', Mach.same_exec zero h.swap.2 s () s'⟩

/-- C114, programs: a program with branches, loops, blocks and handlers ends normally in one order of evaluation exactly if it does in the
other, in the same state and with the same warnings. -/
theorem C114_program (zero : V) (fuel : Nat) {a a' : Prog V} (h : ReorderProg a a') (s s' : Prog.St V) :
    Prog.run zero fuel a s = some (.ok (), s') ↔ Prog.run zero fuel a' s = some (.ok (), s') :=
  ⟨Prog.run_same zero fuel h.swap.1 s s', Prog.run_same zero fuel h.swap.2 s s'⟩

/-- Subtraction of natural numbers, undefined below zero. -/
def subN (a b : Nat) : Out Nat := if b ≤ a then .ok (a - b) else .ub .intOverflow

/-- `a - b` in any order. -/
example {o : Out Nat} (h : Can (listEnv [[5], [2]]) (.bin subN (.leaf 0) (.leaf 1)) 0 o) : o = .ok 3 :=
  (C114_value (listEnv [[5], [2]]) (.bin subN (.leaf 0) (.leaf 1)) 0 h (C114_left_first _ _ _) 3).2 (by decide)

/-- `a - (b - 1)`, the right operand first. -/
example : ∃ s s', Mach.exec 0 (.assign .ok 1 (.bin subN (.leaf 1) (.bin subN (.leaf 3) (.scal 1)))) s = (.ok (), s') ∧
    Mach.exec 0 (.assign .ok 1 (.bin (fun b a => subN a b) (.bin subN (.leaf 3) (.scal 1)) (.leaf 1))) s = (.ok (), s') ∧
    (List.range 2).map (s'.env.get 1) = [4, 7].map Out.ok := by
  have e : Mach.exec 0 (.assign .ok 1 (.bin subN (.leaf 1) (.bin subN (.leaf 3) (.scal 1))))
      (Mach.runAll 0 [.declTemp [5, 9] {}, .declTemp [2, 3] {}] Mach.start).2 = (.ok (), _) := Prod.ext (by decide +kernel) rfl
  exact ⟨_, _, e, (C114_statement 0 (.assign .ok 1 (.other subN (.refl _) (.refl _))) _ _).1 e, by decide +kernel⟩

/-- `if (a - b) x = b - a; else ...` in both orders, as a program. -/
example : ∃ s', Prog.run 0 3 (.seq (.cmd (.declTemp [5, 9] {})) (.seq (.cmd (.declTemp [2, 3] {}))
      (.read true (.bin subN (.leaf 1) (.leaf 3)) fun v => .cmd (.assign .ok 3 (.bin subN (.scal (v + 9)) (.leaf 3)))))) ([], Mach.start) =
      some (.ok (), s') ∧ Prog.run 0 3 (.seq (.cmd (.declTemp [5, 9] {})) (.seq (.cmd (.declTemp [2, 3] {}))
      (.read true (.bin (fun b a => subN a b) (.leaf 3) (.leaf 1)) fun v =>
        .cmd (.assign .ok 3 (.bin (fun b a => subN a b) (.leaf 3) (.scal (v + 9))))))) ([], Mach.start) = some (.ok (), s') ∧
      (List.range 2).map (s'.2.env.get 3) = [10, 9].map Out.ok := by
  have h : (Prog.run 0 3 (.seq (.cmd (.declTemp [5, 9] {})) (.seq (.cmd (.declTemp [2, 3] {}))
      (.read true (.bin subN (.leaf 1) (.leaf 3)) fun v => .cmd (.assign .ok 3 (.bin subN (.scal (v + 9)) (.leaf 3)))))) ([], Mach.start)).map
      (fun r => (r.1, (List.range 2).map (r.2.2.env.get 3))) = some (.ok (), [10, 9].map Out.ok) := by decide +kernel
  rw [Option.map_eq_some_iff] at h
  obtain ⟨⟨o, s'⟩, e, h⟩ := h
  simp only [Prod.mk.injEq] at h
  obtain ⟨rfl, h⟩ := h
  exact ⟨s', e, (C114_program 0 3 (.seq (.refl _) (.seq (.refl _) (.read true (.other subN (.refl _) (.refl _)) fun v =>
    .cmd (.assign .ok 3 (.other subN (.refl _) (.refl _)))))) _ _).1 e, h⟩

/-- Which failure it is does depend on the order: `a(5) + (b - c)` throws or is undefined. -/
theorem C114_which_failure : ∃ (env : Env Nat) (m : String),
    Can env (.bin (fun a b => .ok (a + b)) (.sub (.leaf 0) [4] {}) (.bin subN (.leaf 1) (.leaf 0))) 0 (.thr m) ∧
    Can env (.bin (fun a b => .ok (a + b)) (.sub (.leaf 0) [4] {}) (.bin subN (.leaf 1) (.leaf 0))) 0 (.ub .intOverflow) := by
  refine ⟨listEnv [[3], [2]], _, ⟨_, .ub .intOverflow, rfl, ⟨.ok 2, .ok 3, rfl, rfl, Or.inl rfl⟩, Or.inl rfl⟩,
    ⟨.thr _, .ub .intOverflow, rfl, ⟨.ok 2, .ok 3, rfl, rfl, Or.inl rfl⟩, Or.inr rfl⟩⟩

end ETR
