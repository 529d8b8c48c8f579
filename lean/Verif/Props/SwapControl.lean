import Verif.Props.Swap
import Verif.Model.Control

/-!
# Exchanging the operands of a commutative operation, in programs with control flow

C102 for whole programs: operands may be exchanged in assignments, in the conditions of `if` and `while`, in scalar variables, in index
arguments, in the bodies of loops and of blocks and in handlers of exceptions.
-/

namespace ETR

namespace Spec

/-- The same program, with operands exchanged in its expressions.  The bodies of `try` are the same: which exception is thrown may
change. -/
inductive SwapProg {V : Type} : Prog V → Prog V → Prop
  | refl (a : Prog V) : SwapProg a a
  | cmd {c c' : Cmd V} : SwapCmd c c' → SwapProg (.cmd c) (.cmd c')
  | seq {a a' b b' : Prog V} : SwapProg a a' → SwapProg b b' → SwapProg (.seq a b) (.seq a' b')
  | decl {c c' : Cmd V} {k k' : Nat → Prog V} : SwapCmd c c' → (∀ y, SwapProg (k y) (k' y)) → SwapProg (.decl c k) (.decl c' k')
  | read (bool : Bool) {e e' : Expr V} {k k' : V → Prog V} : Swap e e' → (∀ v, SwapProg (k v) (k' v)) →
    SwapProg (.read bool e k) (.read bool e' k')
  | index (i : Index) {e e' : Expr V} {k k' : List Nat → Prog V} : Swap e e' → (∀ v, SwapProg (k v) (k' v)) →
    SwapProg (.index e i k) (.index e' i k')
  | len {e e' : Expr V} {k k' : Int → Prog V} : Swap e e' → (∀ v, SwapProg (k v) (k' v)) → SwapProg (.len e k) (.len e' k')
  | loop (bool : Bool) (c : V → Bool) {e e' : Expr V} {body body' : Prog V} : Swap e e' → SwapProg body body' →
    SwapProg (.loop bool e c body) (.loop bool e' c body')
  | forVec (x : Nat) {body body' : V → Prog V} : (∀ v, SwapProg (body v) (body' v)) → SwapProg (.forVec x body) (.forVec x body')
  | forInt (a b : Int) {body body' : Int → Prog V} : (∀ v, SwapProg (body v) (body' v)) →
    SwapProg (.forInt a b body) (.forInt a b body')
  | forDbl (a b : F64) {body body' : F64 → Prog V} : (∀ v, SwapProg (body v) (body' v)) →
    SwapProg (.forDbl a b body) (.forDbl a b body')
  | block {body body' : Prog V} : SwapProg body body' → SwapProg (.block body) (.block body')
  | tryCatch (a : Prog V) {b b' : String → Prog V} : (∀ m, SwapProg (b m) (b' m)) → SwapProg (.tryCatch a b) (.tryCatch a b')

end Spec

namespace Prog
variable {V σ α : Type}

/-- Everything that succeeds with `p` succeeds with `q`, with the same state. -/
def RunSame (p q : σ → Option (Out Unit × σ)) : Prop := ∀ s s', p s = some (.ok (), s') → q s = some (.ok (), s')

theorem andThen_eq_ok {r : Option (Out Unit × σ)} {k : σ → Option (Out Unit × σ)} {s' : σ} (h : andThen r k = some (.ok (), s')) :
    ∃ s1, r = some (.ok (), s1) ∧ k s1 = some (.ok (), s') := by
  rcases r with _ | ⟨_ | _ | _, s1⟩
  · cases h
  · exact ⟨s1, rfl, h⟩
  · cases h
  · cases h

theorem withOut_eq_ok {o : Out α × σ} {k : α → σ → Option (Out Unit × σ)} {s' : σ} (h : withOut o k = some (.ok (), s')) :
    ∃ a s1, o = (.ok a, s1) ∧ k a s1 = some (.ok (), s') := by
  rcases o with ⟨a | _ | _, s1⟩
  · exact ⟨a, s1, rfl, h⟩
  · cases h
  · cases h

theorem RunSame.seq {p p' q q' : σ → Option (Out Unit × σ)} (h : RunSame p p') (h' : RunSame q q') :
    RunSame (fun s => andThen (p s) q) (fun s => andThen (p' s) q') := by
  intro s s' hs
  obtain ⟨s1, h1, h2⟩ := andThen_eq_ok hs
  show andThen (p' s) q' = _
  rw [h _ _ h1]; exact h' _ _ h2

theorem RunSame.withOut {o o' : σ → Out α × σ} {k k' : α → σ → Option (Out Unit × σ)}
    (h : ∀ s a s', o s = (.ok a, s') → o' s = (.ok a, s')) (h' : ∀ a, RunSame (k a) (k' a)) :
    RunSame (fun s => Prog.withOut (o s) k) (fun s => Prog.withOut (o' s) k') := by
  intro s s' hs
  obtain ⟨a, s1, h1, h2⟩ := withOut_eq_ok hs
  show Prog.withOut (o' s) k' = _
  rw [h _ _ _ h1]; exact h' _ _ _ h2

theorem RunSame.rounds {t t' : σ → Out Bool × σ} {p p' : σ → Option (Out Unit × σ)}
    (h : ∀ s a s', t s = (.ok a, s') → t' s = (.ok a, s')) (h' : RunSame p p') (n : Nat) :
    RunSame (rounds t p n) (rounds t' p' n) := by
  induction n with
  | zero => intro s s' hs; cases hs
  | succ n ih =>
    refine RunSame.withOut (k := fun t1 s => if t1 then andThen (p s) (Prog.rounds t p n) else some (.ok (), s))
      (k' := fun t1 s => if t1 then andThen (p' s) (Prog.rounds t' p' n) else some (.ok (), s)) h (fun a => ?_)
    cases a
    · exact fun _ _ h => h
    · exact RunSame.seq h' ih

theorem RunSame.each {p p' : α → σ → Option (Out Unit × σ)} (h : ∀ v, RunSame (p v) (p' v)) (l : List α) :
    RunSame (each p l) (each p' l) := by
  induction l with
  | nil => exact fun _ _ h => h
  | cons v l ih => exact RunSame.seq (h v) ih

theorem RunSame.eachAt (q : Ptr) {p p' : V → St V → Option (Out Unit × St V)} (h : ∀ v, RunSame (p v) (p' v)) (n i : Nat) :
    RunSame (eachAt q p n i) (eachAt q p' n i) := by
  induction n generalizing i with
  | zero => exact fun _ _ h => h
  | succ n ih =>
    exact RunSame.withOut (o := fun s : St V => (s.2.heap.load q i, s)) (fun _ _ _ h => h)
      (fun v => RunSame.seq (h v) (ih (i + 1)))

theorem RunSame.inBlock {p p' : St V → Option (Out Unit × St V)} (h : RunSame p p') : RunSame (inBlock p) (inBlock p') := by
  intro s s' hs
  unfold Prog.inBlock at hs ⊢
  rcases hp : p s with _ | ⟨o, s1⟩
  · rw [hp] at hs; cases hs
  · rw [hp] at hs
    rcases o with ⟨⟨⟩⟩ | m | u
    · rw [h _ _ hp]; exact hs
    · dsimp only at hs
      split at hs <;> cases hs
    · cases hs

theorem say_same {m m' : L α} (h : SameOk m m') (s : St V) {a : α} {s' : St V} (hs : say m s = (.ok a, s')) :
    say m' s = (.ok a, s') := by
  unfold say at hs ⊢
  rcases hm : m s.1 with ⟨o, w⟩
  rw [hm] at hs
  simp only [Prod.mk.injEq] at hs
  obtain ⟨h1, h2⟩ := hs
  subst h1 h2
  rw [h _ _ _ hm]

theorem toScalar_same {e e' : Expr V} (h : ExprSame e e') (bool : Bool) (env : Env V) :
    SameOk (toScalar bool env e) (toScalar bool env e') := by
  unfold toScalar
  rw [h.size]
  have hl : SameOk (M.lift (e.el env 0) : L V) (M.lift (e'.el env 0)) := by
    intro s a s' hs
    rw [M.lift_apply] at hs ⊢
    simp only [Prod.mk.injEq] at hs ⊢
    exact ⟨h.el _ _ _ hs.1, hs.2⟩
  cases bool
  · exact hl
  · exact SameOk.bind (SameOk.rfl' _) (fun _ => hl)

theorem lengthOf_same {e e' : Expr V} (h : ExprSame e e') (env : Env V) : lengthOf env e = lengthOf env e' := by
  have h1 := h.scal
  have h2 := h.size env
  cases e <;> cases e' <;> simp_all [lengthOf, Expr.isScal]

/-- Exchanged operands do not change the runs that succeed. -/
theorem run_same (zero : V) (fuel : Nat) {a a' : Prog V} (h : Spec.SwapProg a a') : RunSame (run zero fuel a) (run zero fuel a') := by
  induction h with
  | refl a => exact fun _ _ h => h
  | cmd h =>
    intro s s' hs
    unfold run at hs ⊢
    simp only [Option.some.injEq, Prod.mk.injEq] at hs
    have := Mach.same_exec zero h s.2 () s'.2 (Prod.ext hs.1 (by rw [← hs.2]))
    rw [this, ← hs.2]
  | seq _ _ i j => exact RunSame.seq i j
  | decl h _ i =>
    refine RunSame.seq (p := fun s : St _ => some ((Mach.exec zero _ s.2).1, (s.1, (Mach.exec zero _ s.2).2))) ?_ (fun s s' hs => i _ s s' hs)
    intro s s' hs
    simp only [Option.some.injEq, Prod.mk.injEq] at hs
    have := Mach.same_exec zero h s.2 () s'.2 (Prod.ext hs.1 (by rw [← hs.2]))
    simp only [this, ← hs.2]
  | read bool h _ i =>
    exact RunSame.withOut (o := fun s : St _ => say (toScalar bool s.2.env _) s)
      (fun s a s' hs => say_same (toScalar_same h.same bool s.2.env) s hs) i
  | index i h _ j =>
    refine RunSame.withOut (o := fun s : St _ => say (calcIndVector (Expr.size s.2.env _) i) s)
      (fun s a s' hs => ?_) j
    rw [← h.same.size]; exact hs
  | len h _ i =>
    intro s s' hs
    unfold run at hs ⊢
    rw [← lengthOf_same h.same]; exact i _ _ _ hs
  | loop bool c h _ i =>
    exact RunSame.rounds (fun s a s' hs =>
      say_same (SameOk.bind (toScalar_same h.same bool s.2.env) (fun _ => SameOk.rfl' _)) s hs) i fuel
  | forVec x _ i =>
    intro s s' hs
    exact RunSame.eachAt _ i _ _ _ _ hs
  | forInt a b _ i =>
    exact RunSame.withOut (o := fun s : St _ => range (colonI a b) s) (fun _ _ _ h => h) (fun l => RunSame.each i l)
  | forDbl a b _ i =>
    exact RunSame.withOut (o := fun s : St _ => range (colonD a b) s) (fun _ _ _ h => h) (fun l => RunSame.each i l)
  | block _ i => exact RunSame.inBlock i
  | tryCatch a _ i =>
    intro s s' hs
    unfold run at hs ⊢
    rcases hr : inBlock (run zero fuel a) s with _ | ⟨o, s1⟩
    · rw [hr] at hs; cases hs
    · rw [hr] at hs
      rcases o with ⟨⟨⟩⟩ | m | u
      · exact hs
      · exact RunSame.inBlock (i m) _ _ hs
      · cases hs

end Prog

/-- C102 for programs with `if`, `while`, loops over vectors and ranges, blocks and `try`: operands of mirrored operations can be
exchanged everywhere outside of the bodies of `try`, in statements, conditions, scalar variables and index arguments.  If the original
program ends normally then the other one does, in the same state and with the same warnings. -/
theorem C102_control_partial {V : Type} (zero : V) (fuel : Nat) {a a' : Prog V} (h : Spec.SwapProg a a') {s s' : Prog.St V}
    (hs : Prog.run zero fuel a s = some (.ok (), s')) : Prog.run zero fuel a' s = some (.ok (), s') :=
  Prog.run_same zero fuel h s s' hs

/-- `while (y < 5) { x = x + y; y = y + 1; }` and `while (5 > y) { x = y + x; y = 1 + y; }`. -/
example :
    let lt : Nat → Nat → Out Nat := fun a b => .ok (if a < b then 1 else 0)
    let gt : Nat → Nat → Out Nat := fun a b => .ok (if b < a then 1 else 0)
    let add : Nat → Nat → Out Nat := fun a b => .ok (a + b)
    let p : Prog Nat := .seq (.cmd (.declTemp [1, 2] {})) (.seq (.cmd (.declTemp [0] {}))
      (.loop true (.bin lt (.leaf 3) (.scal 5)) (· == 1)
        (.seq (.cmd (.assign .ok 1 (.bin add (.leaf 1) (.leaf 3)))) (.cmd (.assign .ok 3 (.bin add (.leaf 3) (.scal 1)))))))
    let q : Prog Nat := .seq (.cmd (.declTemp [1, 2] {})) (.seq (.cmd (.declTemp [0] {}))
      (.loop true (.bin gt (.scal 5) (.leaf 3)) (· == 1)
        (.seq (.cmd (.assign .ok 1 (.bin add (.leaf 3) (.leaf 1)))) (.cmd (.assign .ok 3 (.bin add (.scal 1) (.leaf 3)))))))
    Spec.SwapProg p q ∧
    ((Prog.run 0 7 p ([], Mach.start)).map (fun r => (r.1, r.2.1, (List.range 2).map (r.2.2.env.get 1)))) =
      some (.ok (), [], [.ok 11, .ok 12]) := by
  intro lt gt add p q
  have hadd : ∀ a b v, add a b = .ok v → add b a = .ok v := fun a b v h => by rw [← h]; exact congrArg Out.ok (Nat.add_comm b a)
  refine ⟨.seq (.refl _) (.seq (.refl _) (.loop _ _ (.swap (fun _ _ _ h => h) _ _)
    (.seq (.cmd (.assign _ _ (.swap hadd _ _))) (.cmd (.assign _ _ (.swap hadd _ _)))))), ?_⟩
  decide +kernel

end ETR
