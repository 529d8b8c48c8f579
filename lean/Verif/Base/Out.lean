/-!
# Outcomes and the state monad used by the model

Not a translation of a particular piece of code: these are the semantic domains.  A C++
function either returns (`ok`), throws (`thr`, the message passed to `ass`,
`/repo/include/etr_bits/Core/Utils.hpp` 54-62), or has undefined behaviour (`ub`).
-/

namespace ETR

/-- Kinds of undefined behaviour that the model distinguishes. -/
inductive UB
  | nullDeref | oob | useAfterFree | badFree | uninit | intOverflow | badConv | modZero | noReturn
  | infiniteLoop | lockedMutex
  deriving DecidableEq, Repr

/-- Undefined behaviour caused by an access to, or a release of, memory that is not available. -/
def UB.memory : UB → Bool
  | .nullDeref | .oob | .useAfterFree | .badFree => true
  | _ => false

/-- Outcome of a computation. -/
inductive Out (α : Type) : Type
  | ok (a : α)
  | thr (msg : String)
  | ub (k : UB)
  deriving DecidableEq, Repr

namespace Out

@[simp] def bind {α β : Type} : Out α → (α → Out β) → Out β
  | ok a, f => f a
  | thr m, _ => thr m
  | ub k, _ => ub k

instance : Monad Out where
  pure := ok
  bind := bind

@[simp] theorem pure_eq {α : Type} (a : α) : (pure a : Out α) = ok a := rfl
@[simp] theorem ok_bind {α β : Type} (a : α) (f : α → Out β) : (ok a >>= f) = f a := rfl
@[simp] theorem thr_bind {α β : Type} (m : String) (f : α → Out β) : (thr m >>= f) = thr m := rfl
@[simp] theorem ub_bind {α β : Type} (k : UB) (f : α → Out β) : (ub k >>= f) = ub k := rfl

instance : LawfulMonad Out := LawfulMonad.mk'
  (id_map := by intro α x; cases x <;> rfl)
  (pure_bind := by intros; rfl)
  (bind_assoc := by intro α β γ x f g; cases x <;> rfl)

@[simp] theorem map_ok {α β : Type} (f : α → β) (a : α) : f <$> (ok a) = ok (f a) := rfl
@[simp] theorem map_thr {α β : Type} (f : α → β) (m : String) : f <$> (thr m : Out α) = thr m := rfl
@[simp] theorem map_ub {α β : Type} (f : α → β) (k : UB) : f <$> (ub k : Out α) = ub k := rfl

/-- The computation returned normally. -/
def isOk {α : Type} : Out α → Bool
  | ok _ => true
  | _ => false

/-- The computation threw. -/
def isThr {α : Type} : Out α → Bool
  | thr _ => true
  | _ => false

/-- The computation has undefined behaviour. -/
def isUB {α : Type} : Out α → Bool
  | ub _ => true
  | _ => false

theorem bind_eq_ok {α β : Type} {x : Out α} {f : α → Out β} {b : β} :
    (x >>= f) = ok b ↔ ∃ a, x = ok a ∧ f a = ok b := by
  cases x <;> simp

/-- `ass(cond, msg)`: `/repo/include/etr_bits/Core/Utils.hpp` 54-62. -/
def ass (c : Prop) [Decidable c] (msg : String) : Out Unit :=
  if c then ok () else thr msg

@[simp] theorem ass_pos {c : Prop} [Decidable c] {msg : String} (h : c) : ass c msg = ok () := by
  simp [ass, h]
@[simp] theorem ass_neg {c : Prop} [Decidable c] {msg : String} (h : ¬ c) :
    ass c msg = thr msg := by
  simp [ass, h]

/-- Evaluate a list of outcomes from left to right, stop at the first failure. -/
def all {α : Type} : List (Out α) → Out (List α)
  | [] => ok []
  | x :: xs => do
    let a ← x
    let as ← all xs
    return a :: as

@[simp] theorem all_nil {α : Type} : all ([] : List (Out α)) = ok [] := rfl

theorem all_map_ok {α β : Type} (f : α → β) (l : List α) :
    all (l.map (fun a => ok (f a))) = ok (l.map f) := by
  induction l with
  | nil => rfl
  | cons a t ih => simp [all, ih]

theorem all_eq_ok {α : Type} {l : List (Out α)} {r : List α} :
    all l = ok r ↔ l = r.map ok := by
  induction l generalizing r with
  | nil => cases r <;> simp [all]
  | cons x xs ih =>
    cases r with
    | nil => simp [all, bind_eq_ok]
    | cons a t =>
      simp [all, bind_eq_ok, ih]

end Out

/-- State transformer that keeps the reached state when an exception is thrown (C++ does not
roll back). -/
def M (σ α : Type) : Type := σ → Out α × σ

namespace M
variable {σ τ α β : Type}

def bind (m : M σ α) (f : α → M σ β) : M σ β := fun s =>
  match m s with
  | (.ok a, s') => f a s'
  | (.thr e, s') => (.thr e, s')
  | (.ub k, s') => (.ub k, s')

instance : Monad (M σ) where
  pure a := fun s => (.ok a, s)
  bind := bind

@[simp] theorem pure_apply (a : α) (s : σ) : (pure a : M σ α) s = (.ok a, s) := rfl

theorem bind_apply (m : M σ α) (f : α → M σ β) (s : σ) :
    (m >>= f) s = match m s with
      | (.ok a, s') => f a s'
      | (.thr e, s') => (.thr e, s')
      | (.ub k, s') => (.ub k, s') := rfl

theorem bind_ok {m : M σ α} {f : α → M σ β} {s s' : σ} {a : α} (h : m s = (.ok a, s')) :
    (m >>= f) s = f a s' := by simp [bind_apply, h]

theorem bind_thr {m : M σ α} {f : α → M σ β} {s s' : σ} {e : String} (h : m s = (.thr e, s')) :
    (m >>= f) s = (.thr e, s') := by simp [bind_apply, h]

theorem bind_ub {m : M σ α} {f : α → M σ β} {s s' : σ} {k : UB} (h : m s = (.ub k, s')) :
    (m >>= f) s = (.ub k, s') := by simp [bind_apply, h]

instance : LawfulMonad (M σ) := LawfulMonad.mk'
  (id_map := by
    intro α x; funext s
    show (M.bind x (fun a => pure (id a))) s = x s
    simp only [M.bind]
    rcases h : x s with ⟨o, s'⟩
    cases o <;> rfl)
  (pure_bind := by intros; rfl)
  (bind_assoc := by
    intro α β γ x f g; funext s
    show M.bind (M.bind x f) g s = M.bind x (fun a => M.bind (f a) g) s
    simp only [M.bind]
    rcases h : x s with ⟨o, s'⟩
    cases o <;> rfl)

/-- Read the state. -/
def get : M σ σ := fun s => (.ok s, s)
/-- Change the state. -/
def modify (f : σ → σ) : M σ Unit := fun s => (.ok (), f s)
/-- Run a pure outcome. -/
def lift (o : Out α) : M σ α := fun s => (o, s)
/-- Run an outcome that depends on the state but does not change it. -/
def reads (f : σ → Out α) : M σ α := fun s => (f s, s)
/-- `ass(cond, msg)`: `/repo/include/etr_bits/Core/Utils.hpp` 54-62. -/
def ass (c : Prop) [Decidable c] (msg : String) : M σ Unit := lift (Out.ass c msg)

@[simp] theorem get_apply (s : σ) : (get : M σ σ) s = (.ok s, s) := rfl
@[simp] theorem modify_apply (f : σ → σ) (s : σ) : modify f s = (.ok (), f s) := rfl
@[simp] theorem lift_apply (o : Out α) (s : σ) : (lift o : M σ α) s = (o, s) := rfl
@[simp] theorem reads_apply (f : σ → Out α) (s : σ) : reads f s = (f s, s) := rfl

/-- Run a computation on a component of the state. -/
def zoom (g : σ → τ) (put : τ → σ → σ) (m : M τ α) : M σ α := fun s =>
  let r := m (g s)
  (r.1, put r.2 s)

@[simp] theorem zoom_apply (g : σ → τ) (put : τ → σ → σ) (m : M τ α) (s : σ) :
    zoom g put m s = ((m (g s)).1, put (m (g s)).2 s) := rfl

/-- `for (std::size_t i = 0; i < n; i++) f(i);` -/
def forN : Nat → (Nat → M σ Unit) → M σ Unit
  | 0, _ => pure ()
  | n + 1, f => do forN n f; f n

@[simp] theorem forN_zero (f : Nat → M σ Unit) : forN 0 f = pure () := rfl
theorem forN_succ (n : Nat) (f : Nat → M σ Unit) :
    forN (n + 1) f = (do forN n f; f n) := rfl

/-- Hoare triple: started in `P`, `m` does not have undefined behaviour, returns in `Q` or throws
in `E`. -/
def Triple (P : σ → Prop) (m : M σ α) (Q : α → σ → Prop) (E : String → σ → Prop) : Prop :=
  ∀ s, P s → match m s with
    | (.ok a, s') => Q a s'
    | (.thr e, s') => E e s'
    | (.ub _, _) => False

theorem Triple.bind {P : σ → Prop} {m : M σ α} {f : α → M σ β} {R : α → σ → Prop}
    {Q : β → σ → Prop} {E : String → σ → Prop}
    (h1 : Triple P m R E) (h2 : ∀ a, Triple (R a) (f a) Q E) : Triple P (m >>= f) Q E := by
  intro s hs
  have h := h1 s hs
  rw [bind_apply]
  rcases hm : m s with ⟨o, s'⟩
  rw [hm] at h
  cases o with
  | ok a => exact h2 a s' h
  | thr e => exact h
  | ub k => exact h

theorem Triple.conseq {P P' : σ → Prop} {m : M σ α} {Q Q' : α → σ → Prop}
    {E E' : String → σ → Prop} (h : Triple P m Q E) (hP : ∀ s, P' s → P s)
    (hQ : ∀ a s, Q a s → Q' a s) (hE : ∀ e s, E e s → E' e s) : Triple P' m Q' E' := by
  intro s hs
  have := h s (hP s hs)
  rcases hm : m s with ⟨o, s'⟩
  rw [hm] at this
  cases o with
  | ok a => exact hQ _ _ this
  | thr e => exact hE _ _ this
  | ub k => exact this

theorem Triple.forN {I : Nat → σ → Prop} {f : Nat → M σ Unit} {E : String → σ → Prop} (n : Nat)
    (h : ∀ i, i < n → Triple (I i) (f i) (fun _ => I (i + 1)) E) :
    Triple (I 0) (forN n f) (fun _ => I n) E := by
  induction n with
  | zero => intro s hs; exact hs
  | succ n ih =>
    rw [forN_succ]
    exact Triple.bind (ih (fun i hi => h i (by omega))) (fun _ => h n (by omega))

/-- Hoare triple that allows undefined behaviour other than a memory error (for example the use of
an indeterminate value or an overflow in an element function): started in `P`, `m` makes no memory
error, returns in `Q` or throws in `E`. -/
def Safe (P : σ → Prop) (m : M σ α) (Q : α → σ → Prop) (E : σ → Prop) : Prop :=
  ∀ s, P s → match m s with
    | (.ok a, s') => Q a s'
    | (.thr _, s') => E s'
    | (.ub k, _) => k.memory = false

theorem Safe.bind {P : σ → Prop} {m : M σ α} {f : α → M σ β} {R : α → σ → Prop}
    {Q : β → σ → Prop} {E : σ → Prop}
    (h1 : Safe P m R E) (h2 : ∀ a, Safe (R a) (f a) Q E) : Safe P (m >>= f) Q E := by
  intro s hs
  have h := h1 s hs
  rw [bind_apply]
  rcases hm : m s with ⟨o, s'⟩
  rw [hm] at h
  cases o with
  | ok a => exact h2 a s' h
  | thr e => exact h
  | ub k => exact h

theorem Safe.conseq {P P' : σ → Prop} {m : M σ α} {Q Q' : α → σ → Prop}
    {E E' : σ → Prop} (h : Safe P m Q E) (hP : ∀ s, P' s → P s)
    (hQ : ∀ a s, Q a s → Q' a s) (hE : ∀ s, E s → E' s) : Safe P' m Q' E' := by
  intro s hs
  have := h s (hP s hs)
  rcases hm : m s with ⟨o, s'⟩
  rw [hm] at this
  cases o with
  | ok a => exact hQ _ _ this
  | thr e => exact hE _ this
  | ub k => exact this

theorem Safe.forN {I : Nat → σ → Prop} {f : Nat → M σ Unit} {E : σ → Prop} (n : Nat)
    (h : ∀ i, i < n → Safe (I i) (f i) (fun _ => I (i + 1)) E) :
    Safe (I 0) (forN n f) (fun _ => I n) E := by
  induction n with
  | zero => intro s hs; exact hs
  | succ n ih =>
    rw [forN_succ]
    exact Safe.bind (ih (fun i hi => h i (by omega))) (fun _ => h n (by omega))

theorem Safe.pure {P : σ → Prop} {Q : α → σ → Prop} {E : σ → Prop} {a : α}
    (h : ∀ s, P s → Q a s) : Safe P (pure a) Q E := fun s hs => h s hs

theorem Safe.get {P : σ → Prop} {E : σ → Prop} :
    Safe P (get : M σ σ) (fun a s => a = s ∧ P s) E := fun _ hs => ⟨rfl, hs⟩

theorem Safe.modify {P : σ → Prop} {Q : Unit → σ → Prop} {E : σ → Prop} {f : σ → σ}
    (h : ∀ s, P s → Q () (f s)) : Safe P (modify f) Q E := fun s hs => h s hs

theorem Safe.reads {P : σ → Prop} {f : σ → Out α} {E : σ → Prop}
    (hu : ∀ s, P s → ∀ k, f s = .ub k → k.memory = false) (hE : ∀ s, P s → E s) :
    Safe P (reads f) (fun a s => P s ∧ f s = .ok a) E := by
  intro s hs
  rw [reads_apply]
  rcases hf : f s with a | e | k
  · exact ⟨hs, hf⟩
  · exact hE s hs
  · exact hu s hs k hf

theorem Safe.lift {P : σ → Prop} {o : Out α} {E : σ → Prop}
    (hu : ∀ k, o = .ub k → k.memory = false) (hE : ∀ s, P s → E s) :
    Safe P (lift o) (fun a s => P s ∧ o = .ok a) E :=
  Safe.reads (f := fun _ => o) (fun _ _ => hu) hE

theorem Safe.ass {P : σ → Prop} {c : Prop} [Decidable c] {msg : String} {E : σ → Prop}
    (hE : ∀ s, P s → E s) : Safe P (ass c msg : M σ Unit) (fun _ s => P s ∧ c) E := by
  intro s hs
  by_cases hc : c
  · have e : (M.ass c msg : M σ Unit) s = (.ok (), s) := by
      unfold M.ass; rw [lift_apply, Out.ass_pos hc]
    rw [e]; exact ⟨hs, hc⟩
  · have e : (M.ass c msg : M σ Unit) s = (.thr msg, s) := by
      unfold M.ass; rw [lift_apply, Out.ass_neg hc]
    rw [e]; exact hE s hs

theorem Safe.ite {P : σ → Prop} {c : Prop} [Decidable c] {m m' : M σ α} {Q : α → σ → Prop}
    {E : σ → Prop} (h1 : c → Safe P m Q E) (h2 : ¬ c → Safe P m' Q E) :
    Safe P (if c then m else m') Q E := by
  split
  · exact h1 (by assumption)
  · exact h2 (by assumption)

/-- The initial state may be fixed. -/
theorem Safe.fix {P : σ → Prop} {m : M σ α} {Q : α → σ → Prop} {E : σ → Prop}
    (h : ∀ s0, P s0 → Safe (fun s => s = s0) m Q E) : Safe P m Q E :=
  fun s hs => h s hs s rfl

theorem Safe.of_ok {P : σ → Prop} {m : M σ α} {Q : α → σ → Prop} {E : σ → Prop}
    (h : ∀ s, P s → ∃ a s', m s = (.ok a, s') ∧ Q a s') : Safe P m Q E := by
  intro s hs
  obtain ⟨a, s', e, hq⟩ := h s hs
  rw [e]; exact hq

/-- Total-correctness rule for the loop: every step succeeds. -/
theorem forN_ok {I : Nat → σ → Prop} {f : Nat → M σ Unit} (n : Nat) {s : σ}
    (h0 : I 0 s)
    (h : ∀ i s, i < n → I i s → ∃ s', f i s = (.ok (), s') ∧ I (i + 1) s') :
    ∃ s', forN n f s = (.ok (), s') ∧ I n s' := by
  induction n with
  | zero => exact ⟨s, rfl, h0⟩
  | succ n ih =>
    obtain ⟨s1, e1, h1⟩ := ih (fun i s hi => h i s (by omega))
    obtain ⟨s2, e2, h2⟩ := h n s1 (by omega) h1
    exact ⟨s2, by rw [forN_succ, bind_ok e1, e2], h2⟩

/-- Rule for the loop that also keeps track of where an exception leaves it. -/
theorem forN_post {I : Nat → σ → Prop} {f : Nat → M σ Unit} (n : Nat) {s : σ} (h0 : I 0 s)
    (h : ∀ i s, i < n → I i s → match f i s with
      | (.ok _, s') => I (i + 1) s'
      | (.thr _, s') => I i s'
      | (.ub _, _) => True) :
    match forN n f s with
    | (.ok _, s') => I n s'
    | (.thr _, s') => ∃ i, i < n ∧ I i s'
    | (.ub _, _) => True := by
  induction n with
  | zero => exact h0
  | succ n ih =>
    have h1 := ih (fun i s hi => h i s (by omega))
    rw [forN_succ, bind_apply]
    rcases hm : forN n f s with ⟨o, s1⟩
    rw [hm] at h1
    cases o with
    | ok a =>
      have h2 := h n s1 (by omega) h1
      simp only []
      rcases hf : f n s1 with ⟨o, s2⟩
      rw [hf] at h2
      cases o with
      | ok a => exact h2
      | thr m => exact ⟨n, by omega, h2⟩
      | ub k => trivial
    | thr m => obtain ⟨i, hi, hI⟩ := h1; exact ⟨i, by omega, hI⟩
    | ub k => trivial

end M
end ETR
