import Verif.Spec.RefLoop
import Verif.Props.Control

/-! # C111: loops by reference -/

namespace ETR
open Spec Mach
variable {V : Type}

/-- The write through the reference is the write to the element. -/
theorem storeAt_of_setElem {s s' : Mach V} {x i : Nat} {w : V} (h : Mach.setElem x i w s = (.ok (), s')) (ws : List String) :
    Prog.storeAt (s.st (x, false)).p i w (ws, s) = (.ok (), (ws, s')) ∧ s'.st (x, false) = s.st (x, false) := by
  unfold Mach.setElem at h
  rw [onSlot_apply] at h
  unfold Store.set at h
  simp only [Prod.mk.injEq] at h
  obtain ⟨h1, h2⟩ := h
  have hc : ∃ u, (s.st (x, false)).checkIdx i = .ok u := by
    rcases hh : (s.st (x, false)).checkIdx i with u | m | u
    · exact ⟨u, rfl⟩
    all_goals
      exfalso
      simp [M.bind_apply, Store.self, hh] at h1
  obtain ⟨u, hc⟩ := hc
  simp only [M.bind_apply, Store.self, M.lift_apply, hc, Store.heapM, M.zoom_apply] at h1 h2
  subst h2
  refine ⟨Prod.ext h1 (Prod.ext rfl ?_), by simp [Mach.put]⟩
  have hst : s.st = fun y => if y = (x, false) then s.st (x, false) else s.st y := by
    funext y
    split
    · rename_i hy; rw [hy]
    · rfl
  unfold Mach.put Prog.storeAt
  dsimp only
  rw [← hst]

/-- The variable `x` has `n` elements, in the memory at `q`. -/
def LiesAt (s : Mach V) (p : PState V) (x : Nat) (q : Ptr) (n : Nat) : Prop :=
  ∃ l, p.lists x = some l ∧ l.length = n ∧ (s.st (x, false)).p = q

theorem LiesAt.keep {s s' : Mach V} {p p' : PState V} {x : Nat} {q : Ptr} {n : Nat} (h : LiesAt s p x q n) (hn : n ≠ 0) (R : Rep s p)
    (R' : Rep s' p') (K : KeepsVars (· = x) s p s' p') : LiesAt s' p' x q n := by
  obtain ⟨l, hl, rfl, rfl⟩ := h
  rcases PState.lists_eq hl with ⟨v, hx, rfl⟩ | ⟨β, a, hx, hβ, ha, rfl⟩
  · obtain ⟨k1, k2⟩ := (K x rfl).1 v hx (by rintro h; simp [h] at hn)
    exact ⟨v.val, by simp [PState.lists, k1], rfl, by rw [k2]⟩
  · have hβ' := (K x rfl).2 β hβ
    obtain ⟨a0, ha0, L⟩ := R.b.bors x β hβ
    obtain ⟨a', ha', L'⟩ := R'.b.bors x β hβ'
    have hvars : p'.vars x = none := by
      cases hv : p'.vars x with
      | none => rfl
      | some v => have := (R'.vars x v hv).bor; rw [L'.bor] at this; simp at this
    rw [ha] at ha0
    cases ha0
    refine ⟨a'.take β.size, by simp [PState.lists, PState.view, hvars, hβ', ha'], ?_, by rw [L.ptr, L'.ptr]⟩
    have := L.le; have := L.len; have := L'.len
    simp only [List.length_take]; omega

/-- The list after a change of an element. -/
theorem shown_lists {p : PState V} {x : Nat} {l vis : List V} (hl : p.lists x = some l) (hv : vis.length = l.length) :
    (p.shown x vis).lists x = some vis := by
  rcases PState.lists_eq hl with ⟨v, hx, rfl⟩ | ⟨β, a, hx, hβ, ha, rfl⟩
  · simp [PState.shown, hx, PState.lists, PState.put]
  · simp [PState.shown, hx, PState.lists, PState.view, hβ, ha, PState.write]

theorem Sim.refBody {zero : V} {fuel x i n : Nat} {q : Ptr} (hi : i < n) : ∀ (body : List (RefStmt V)), RefOK x body → ∀ s p ws, Rep s p →
    LiesAt s p x q n → ∀ (k : PState V → Res V) (k' : Prog.St V → Option (Out Unit × Prog.St V)),
    (∀ s p ws, Rep s p → LiesAt s p x q n → Sim (fun _ => False) s p (k p) (k' (ws, s))) →
    Sim (fun _ => False) s p ((Spec.refBody zero fuel x i body p).andThen k) (Prog.andThen (Prog.refBody zero fuel q i body (ws, s)) k') := by
  intro body
  induction body with
  | nil => intro _ s p ws R A k k' hk; exact hk s p ws R A
  | cons c r ih =>
    intro hb s p ws R A k k' hk
    have hbr : RefOK x r := fun c hc => hb c (List.mem_cons_of_mem _ hc)
    have hA := A
    obtain ⟨l, hl, hn, hq⟩ := A
    have hil : i < l.length := by omega
    have hload : s.heap.load q i = .ok l[i] := by
      rw [← hq]; exact load_of_shows (R.agrees x l hl) hil
    have hel : elemAt p x i = some l[i] := by simp [elemAt, hl, hil]
    cases c with
    | code kk =>
      have hc := hb (.code kk) List.mem_cons_self l[i]
      simp only [Spec.refBody, Prog.refBody, hel, hload, Spec.withVal, Prog.withOut]
      have hs := (sim zero fuel (kk l[i]) hc.1 s p ws R).mono (Y' := (· = x)) (fun y hy => by subst hy; exact hc.2)
      cases hr : Spec.exec zero fuel (kk l[i]) p with
      | done p' =>
        rw [hr] at hs
        obtain ⟨ws', s', e, R', K⟩ := hs
        rw [e]
        refine Sim.before ?_ (ih hbr s' p' ws' R' (hA.keep (by omega) R R' K) k k' hk)
        exact fun _ h => h.elim
      | threw m p' =>
        rw [hr] at hs
        obtain ⟨ws', s', e, R', K⟩ := hs
        rw [e]
        exact ⟨ws', s', rfl, R', fun _ h => h.elim⟩
      | more =>
        rw [hr] at hs
        have hs : _ = none := hs
        rw [hs]
        rfl
      | stuck => trivial
    | put e =>
      simp only [Spec.refBody, Prog.refBody, hel, hload, Spec.withVal, Prog.withOut]
      cases hf : Spec.first p (e l[i]) with
      | some w =>
        obtain ⟨ws', hw⟩ := R.first hf false ws
        simp only [Prog.say, hw]
        have hset : setAt p x i w = some (p.shown x (l.set i w)) := by simp [setAt, hl, hil]
        rw [hset]
        obtain ⟨s', e', W, sh⟩ := R.inv.write_ok (R.inv.lt_of_shows (R.agrees x l hl) (by rintro rfl; simp at hil)) (R.agrees x l hl) hil w
        obtain ⟨e1, e2⟩ := storeAt_of_setElem e' ws'
        rw [hq] at e1
        rw [e1]
        refine Sim.before ?_ (ih hbr s' (p.shown x (l.set i w)) ws' (R.shown hl (by simp) W sh)
          ⟨_, shown_lists hl (by simp), by simpa using hn, by rw [e2, hq]⟩ k k' hk)
        exact fun _ h => h.elim
      | none =>
        cases hr : readRejects p (e l[i]) with
        | none => trivial
        | some z =>
          obtain ⟨rfl, ws', hw⟩ := toScalar_rejects R (m := z.1) (p' := z.2) hr false ws
          simp only [Prog.say, hw]
          exact ⟨ws', s, rfl, R, fun _ h => h.elim⟩

theorem Sim.refRounds {zero : V} {fuel x n : Nat} {q : Ptr} {body : List (RefStmt V)} (hb : RefOK x body) : ∀ k i s p ws, Rep s p → i + k ≤ n →
    LiesAt s p x q n → Sim (fun _ => False) s p (Spec.refRounds zero fuel x body (List.range' i k) p)
      (Prog.refRounds zero fuel q body k i (ws, s)) := by
  intro k
  induction k with
  | zero => intro i s p ws R _ _; exact ⟨ws, s, rfl, R, KeepsVars.refl _ _ _⟩
  | succ k ih =>
    intro i s p ws R hik A
    rw [List.range'_succ]
    exact Sim.refBody (by omega) body hb s p ws R A _ _ (fun s p ws R A => ih (i + 1) s p ws R (by omega) A)

/-- The loop, from any state of the library that represents `p`. -/
theorem Sim.forRef {zero : V} {fuel x : Nat} {body : List (RefStmt V)} (hb : RefOK x body) {s : Mach V} {p : PState V} (ws : List String)
    (R : Rep s p) : Sim (fun _ => False) s p (Spec.forRef zero fuel x body p) (Prog.forRef zero fuel x body (ws, s)) := by
  unfold Spec.forRef Prog.forRef
  refine Sim.withVal (fun l hl => ?_) (fun m p' _ h => by cases h)
  have hs := (R.agrees x l hl).1
  have hs : (s.st (x, false)).sz = l.length := hs
  dsimp only
  rw [hs, List.range_eq_range']
  exact Sim.refRounds hb _ 0 s p ws R (by omega) ⟨l, hl, rfl, rfl⟩

/-- C111: let the caller have the arrays `ls`, and run any program and then a loop by reference.  If naive semantics finds no fault, the
vectors and the arrays are those of naive semantics, in which the name of the loop stands for the element. -/
theorem C111_partial (zero : V) (fuel : Nat) (ls : List (List V)) (c : Prog V) (hw : WellFormed c) (x : Nat) (body : List (RefStmt V))
    (hb : RefOK x body) {p q : PState V} (hc : Spec.exec zero fuel c (PState.caller ls) = .done p)
    (h : Spec.forRef zero fuel x body p = .done q) (ws : List String) :
    ∃ s0 s1 ws' s, runOk zero (ls.map .callerArray) start = (.ok (), s0) ∧ c.run zero fuel (ws, s0) = some (.ok (), s1) ∧
      Prog.forRef zero fuel x body s1 = some (.ok (), (ws', s)) ∧
      (∀ y l, q.lists y = some l → ShowsVar s y l) ∧
      (∀ a l, q.arrays a = some l → ∀ i (hi : i < l.length), s.heap.load (some a) i = .ok l[i]) := by
  obtain ⟨s0, e0, R0⟩ := Rep.caller (zero := zero) ls
  have h1 := sim zero fuel c hw s0 (PState.caller ls) ws R0
  rw [hc] at h1
  obtain ⟨ws1, s1, e1, R1, _⟩ := h1
  have h2 := Sim.forRef (zero := zero) (fuel := fuel) hb ws1 R1
  rw [h] at h2
  obtain ⟨ws2, s2, e2, R2, _⟩ := h2
  refine ⟨s0, _, ws2, s2, e0, e1, e2, fun y l hl => R2.agrees y l hl, fun a l hl i hi => ?_⟩
  obtain ⟨_, k2⟩ := R2.b.arrays a l hl
  exact Heap.load_some (by rw [k2]; rfl) (by rw [k2]; exact hi) (by rw [k2]; exact List.getElem?_eq_getElem _)

/-- C111: an exception in the body, of a program or of the right-hand side of an assignment to the name of the loop, ends the loop; the
elements changed before keep their new values. -/
theorem C111_throws_partial (zero : V) (fuel : Nat) (ls : List (List V)) (c : Prog V) (hw : WellFormed c) (x : Nat)
    (body : List (RefStmt V)) (hb : RefOK x body) {p q : PState V} {m : String}
    (hc : Spec.exec zero fuel c (PState.caller ls) = .done p) (h : Spec.forRef zero fuel x body p = .threw m q) (ws : List String) :
    ∃ s0 s1 ws' s, runOk zero (ls.map .callerArray) start = (.ok (), s0) ∧ c.run zero fuel (ws, s0) = some (.ok (), s1) ∧
      Prog.forRef zero fuel x body s1 = some (.thr m, (ws', s)) ∧
      (∀ y l, q.lists y = some l → ShowsVar s y l) ∧
      (∀ a l, q.arrays a = some l → ∀ i (hi : i < l.length), s.heap.load (some a) i = .ok l[i]) := by
  obtain ⟨s0, e0, R0⟩ := Rep.caller (zero := zero) ls
  have h1 := sim zero fuel c hw s0 (PState.caller ls) ws R0
  rw [hc] at h1
  obtain ⟨ws1, s1, e1, R1, _⟩ := h1
  have h2 := Sim.forRef (zero := zero) (fuel := fuel) hb ws1 R1
  rw [h] at h2
  obtain ⟨ws2, s2, e2, R2, _⟩ := h2
  refine ⟨s0, _, ws2, s2, e0, e1, e2, fun y l hl => R2.agrees y l hl, fun a l hl i hi => ?_⟩
  obtain ⟨_, k2⟩ := R2.b.arrays a l hl
  exact Heap.load_some (by rw [k2]; rfl) (by rw [k2]; exact hi) (by rw [k2]; exact List.getElem?_eq_getElem _)

/-- Changing the elements of a vector twice. -/
theorem shown_shown {p : PState V} {x : Nat} {l u v : List V} (hl : p.lists x = some l) (hu : u.length = l.length) (hv : v.length = l.length) :
    (p.shown x u).shown x v = p.shown x v := by
  rcases PState.lists_eq hl with ⟨w, hx, rfl⟩ | ⟨β, a, hx, hβ, ha, rfl⟩
  · simp only [PState.shown, hx, PState.put, if_true]
    congr 1
    funext y
    split <;> rfl
  · simp only [PState.shown, hx, PState.view, hβ, ha, PState.write, if_true, Option.bind_eq_bind, Option.bind_some, Option.pure_def]
    congr 1
    · funext y; split <;> rfl
    · funext y
      split
      · rw [List.drop_append_of_le_length (by omega), List.drop_of_length_le (by omega : u.length ≤ v.length), hu, hv]; rfl
      · rfl

/-- Another vector, unless both borrow the same array. -/
theorem shown_others {p : PState V} {x y : Nat} {l u k : List V} (hl : p.lists x = some l) (hy : p.lists y = some k) (hne : y ≠ x)
    (hb : ∀ β γ, p.bors x = some β → p.bors y = some γ → β.arr ≠ γ.arr) : (p.shown x u).lists y = some k := by
  rw [← hy]
  rcases PState.lists_eq hl with ⟨w, hx, rfl⟩ | ⟨β, a, hx, hβ, ha, rfl⟩
  · simp [PState.shown, hx, PState.put, PState.lists, hne, PState.view]
  · simp only [PState.shown, hx, PState.view, hβ, ha, PState.write, Option.bind_eq_bind, Option.bind_some, Option.pure_def, PState.lists, hne,
      if_false]
    split
    · rfl
    · cases hγ : p.bors y with
      | none => rfl
      | some γ => simp only [Option.bind_some]; rw [if_neg (fun h => hb β γ hβ hγ h.symm)]

/-- One round of the loop that replaces each element by a function of it. -/
theorem refBody_map {zero : V} {fuel x i : Nat} (f : V → V) {p : PState V} {l : List V} (hl : p.lists x = some l) (hi : i < l.length) :
    Spec.refBody zero fuel x i [.put fun v => .scal (f v)] p = .done (p.shown x (l.set i (f l[i]))) := by
  simp [Spec.refBody, elemAt, setAt, hl, hi, Spec.withVal, Spec.first, cellsOf, val]

/-- The rounds from `i` on. -/
theorem refRounds_map {zero : V} {fuel x : Nat} (f : V → V) {p : PState V} {l : List V} (hl : p.lists x = some l) :
    ∀ k i (u : List V), u.length = l.length → i + k = l.length →
    Spec.refRounds zero fuel x [.put fun v => .scal (f v)] (List.range' i k) (p.shown x u) =
      .done (p.shown x (u.take i ++ (u.drop i).map f)) := by
  intro k
  induction k with
  | zero =>
    intro i u hu hi
    rw [List.drop_of_length_le (by omega), List.take_of_length_le (by omega)]
    simp [Spec.refRounds]
  | succ k ih =>
    intro i u hu hi
    have hil : i < u.length := by omega
    rw [List.range'_succ]
    simp only [Spec.refRounds, refBody_map f (shown_lists hl hu) hil, Res.andThen]
    rw [shown_shown hl hu (by simpa using hu), ih (i + 1) _ (by simpa using hu) (by omega)]
    congr 2
    apply List.ext_getElem (by simp; omega)
    intro j h1 h2
    simp only [List.getElem_append, List.getElem_map, List.getElem_drop, List.getElem_take, List.getElem_set, List.length_take, List.length_set]
    by_cases hj : j < i
    · rw [dif_pos (by omega), dif_pos (by omega), if_neg (by omega)]
    · by_cases hj' : j = i
      · subst hj'
        rw [dif_pos (by omega), dif_neg (by omega), if_pos rfl]
        congr 2
        omega
      · rw [dif_neg (by omega), dif_neg (by omega), if_neg (by omega)]
        congr 2
        omega

/-- The whole loop. -/
theorem forRef_map {zero : V} {fuel x : Nat} (f : V → V) {p : PState V} {l : List V} (hl : p.lists x = some l) :
    ∃ q, Spec.forRef zero fuel x [.put fun v => .scal (f v)] p = .done q ∧ q.lists x = some (l.map f) ∧
      ∀ y k, y ≠ x → p.lists y = some k → (∀ β γ, p.bors x = some β → p.bors y = some γ → β.arr ≠ γ.arr) → q.lists y = some k := by
  unfold Spec.forRef
  rw [hl]
  cases l with
  | nil => exact ⟨p, rfl, hl, fun y k _ hy _ => hy⟩
  | cons a l =>
    refine ⟨p.shown x ((a :: l).map f), ?_, shown_lists hl (by simp), fun y k hne hy hb => shown_others hl hy hne hb⟩
    simp only [Spec.withVal, List.range_eq_range', List.length_cons, List.range'_succ, Spec.refRounds]
    rw [refBody_map f hl (by simp)]
    simp only [Res.andThen]
    rw [refRounds_map f hl _ _ _ (by simp) (by simp; omega)]
    simp

/-- C111: `for (auto &i : x) i = f(i);` replaces each element of `x` by `f` of it, and changes no other vector, unless both borrow the same
array. -/
theorem C111_map_partial (zero : V) (fuel : Nat) (ls : List (List V)) (c : Prog V) (hw : WellFormed c) (x : Nat) (f : V → V)
    {p : PState V} {l : List V} (hc : Spec.exec zero fuel c (PState.caller ls) = .done p) (hl : p.lists x = some l) (ws : List String) :
    ∃ s0 s1 ws' s, runOk zero (ls.map .callerArray) start = (.ok (), s0) ∧ c.run zero fuel (ws, s0) = some (.ok (), s1) ∧
      Prog.forRef zero fuel x [.put fun v => .scal (f v)] s1 = some (.ok (), (ws', s)) ∧ ShowsVar s x (l.map f) ∧
      ∀ y k, y ≠ x → p.lists y = some k → (∀ β γ, p.bors x = some β → p.bors y = some γ → β.arr ≠ γ.arr) → ShowsVar s y k := by
  obtain ⟨q, hq, h1, h2⟩ := forRef_map (zero := zero) (fuel := fuel) f hl
  obtain ⟨s0, s1, ws', s, e0, e1, e2, k1, _⟩ := C111_partial zero fuel ls c hw x _ (by
    intro c hc
    simp only [List.mem_singleton] at hc
    subst hc
    trivial) hc hq ws
  exact ⟨s0, s1, ws', s, e0, e1, e2, k1 x _ h1, fun y k hne hy hb => k1 y k (h2 y k hne hy hb)⟩

/-- C111 for a subset `x(ind)`: what the loop does.  It runs through the first elements of `x`, whatever the indices are. -/
theorem C111_subset_characterised (zero : V) (fuel : Nat) (ls : List (List V)) (c : Prog V) (hw : WellFormed c) (x : Nat) (ind : List Nat)
    (body : List (RefStmt V)) (hb : RefOK x body) {p q : PState V} {l : List V}
    (hc : Spec.exec zero fuel c (PState.caller ls) = .done p) (hl : p.lists x = some l) (hi : ind.length ≤ l.length)
    (h : Spec.refRounds zero fuel x body (List.range ind.length) p = .done q) (ws : List String) :
    ∃ s0 s1 ws' s, runOk zero (ls.map .callerArray) start = (.ok (), s0) ∧ c.run zero fuel (ws, s0) = some (.ok (), s1) ∧
      Prog.forRefSub zero fuel x ind body s1 = some (.ok (), (ws', s)) ∧ ∀ y l, q.lists y = some l → ShowsVar s y l := by
  obtain ⟨s0, e0, R0⟩ := Rep.caller (zero := zero) ls
  have h1 := sim zero fuel c hw s0 (PState.caller ls) ws R0
  rw [hc] at h1
  obtain ⟨ws1, s1, e1, R1, _⟩ := h1
  have h2 := Sim.refRounds (zero := zero) (fuel := fuel) hb ind.length 0 s1 p ws1 R1 (by omega) ⟨l, hl, rfl, rfl⟩
  rw [← List.range_eq_range', h] at h2
  obtain ⟨ws2, s2, e2, R2, _⟩ := h2
  exact ⟨s0, _, ws2, s2, e0, e1, e2, fun y l hl => R2.agrees y l hl⟩

/-- C111 for a subset that consists of the first elements of the vector, in their order. -/
theorem C111_subset_partial (zero : V) (fuel : Nat) (ls : List (List V)) (c : Prog V) (hw : WellFormed c) (x k : Nat)
    (body : List (RefStmt V)) (hb : RefOK x body) {p q : PState V} {l : List V}
    (hc : Spec.exec zero fuel c (PState.caller ls) = .done p) (hl : p.lists x = some l) (hk : k ≤ l.length)
    (h : Spec.refRounds zero fuel x body (List.range k) p = .done q) (ws : List String) :
    ∃ s0 s1 ws' s, runOk zero (ls.map .callerArray) start = (.ok (), s0) ∧ c.run zero fuel (ws, s0) = some (.ok (), s1) ∧
      Prog.forRefSub zero fuel x (List.range k) body s1 = some (.ok (), (ws', s)) ∧ ∀ y l, q.lists y = some l → ShowsVar s y l := by
  refine C111_subset_characterised zero fuel ls c hw x (List.range k) body hb hc hl (by simpa using hk) ?_ ws
  simpa using h

/-- `x = {3, 5, 2}; s = 0; y = {7, 8, 9};`. -/
def sampleRefDecl : Prog Int :=
  .seq (.cmd (.declExpr .ok (.rvec [3, 5, 2] {}))) <| .seq (.cmd (.declScalar 0)) (.cmd (.declExpr .ok (.rvec [7, 8, 9] {})))

theorem sampleRefDecl_wf : WellFormed sampleRefDecl := ⟨trivial, trivial, trivial⟩

/-- `for (auto &i : x) { i = i * 2; s = s + i; }`. -/
def sampleRefBody : List (RefStmt Int) :=
  [.put fun v => .scal (v * 2), .code fun v => .cmd (.assign .ok 1 (.bin (fun a b => .ok (a + b)) (.leaf 1) (.scal v)))]

theorem sampleRefBody_ok : RefOK 0 sampleRefBody := by
  intro c hc
  simp only [sampleRefBody, List.mem_cons, List.not_mem_nil, or_false] at hc
  rcases hc with rfl | rfl
  · trivial
  · exact fun v => ⟨trivial, by simp [Cmd.target], fun v k h => by simp at h, fun v w k h => by simp at h, trivial, trivial⟩

/-- The state of a result of naive semantics. -/
def Res.state? (r : Res V) : Option (PState V) :=
  match r with
  | .done p => some p
  | _ => none

theorem Res.exists_of_val {r : Res V} {x : Nat} {l : List V} (h : Res.val? r x = some l) : ∃ p, r = .done p ∧ p.lists x = some l := by
  cases r with
  | done q => exact ⟨q, rfl, h⟩
  | _ => cases h

/-- The state after the declarations. -/
def sampleRefState : PState Int := (Res.state? (Spec.exec 0 1 sampleRefDecl (PState.caller []))).getD PState.empty

theorem sampleRefState_eq : Spec.exec 0 1 sampleRefDecl (PState.caller []) = .done sampleRefState := rfl

/-- The theorem applied to the sample: afterwards `x` is `{6, 10, 4}`. -/
example : ∃ ws' s, (sampleRefDecl.run 0 1 ([], start)).bind (fun r => Prog.forRef 0 1 0 sampleRefBody r.2) = some (.ok (), (ws', s)) ∧
    ShowsVar s 0 [6, 10, 4] ∧ ShowsVar s 1 [20] := by
  have hv : Res.val? (Spec.forRef 0 1 0 sampleRefBody sampleRefState) 0 = some [6, 10, 4] := by decide +kernel
  have hv' : Res.val? (Spec.forRef 0 1 0 sampleRefBody sampleRefState) 1 = some [20] := by decide +kernel
  obtain ⟨q, hq, h0⟩ := Res.exists_of_val hv
  rw [hq] at hv'
  obtain ⟨s0, s1, ws', s, e0, e1, e2, hs, _⟩ :=
    C111_partial 0 1 [] sampleRefDecl sampleRefDecl_wf 0 sampleRefBody sampleRefBody_ok sampleRefState_eq hq []
  cases e0
  refine ⟨ws', s, ?_, hs 0 _ h0, hs 1 _ hv'⟩
  rw [e1]
  exact e2

/-- Squares in place, `y` is untouched. -/
example : ∃ ws' s, (sampleRefDecl.run 0 1 ([], start)).bind (fun r => Prog.forRef 0 1 0 [.put fun v => .scal (v * v)] r.2) =
    some (.ok (), (ws', s)) ∧ ShowsVar s 0 [9, 25, 4] ∧ ShowsVar s 2 [7, 8, 9] := by
  obtain ⟨s0, s1, ws', s, e0, e1, e2, hs, ho⟩ :=
    C111_map_partial 0 1 [] sampleRefDecl sampleRefDecl_wf 0 (fun v => v * v) (l := [3, 5, 2]) sampleRefState_eq (by decide +kernel) []
  cases e0
  refine ⟨ws', s, ?_, hs, ho 2 [7, 8, 9] (by decide) (by decide +kernel) (fun β γ h _ => by cases h)⟩
  rw [e1]
  exact e2

/-- `for (auto &i : x) i = y(i);`: in the second round there is no element 5, and the first element has been changed. -/
example : ∃ m ws' s, (sampleRefDecl.run 0 1 ([], start)).bind (fun r => Prog.forRef 0 1 0
    [.put fun v => .sub (.leaf 2) [v.toNat - 1] {}] r.2) = some (.thr m, (ws', s)) ∧ ShowsVar s 0 [9, 5, 2] := by
  have hv : (match Spec.forRef 0 1 0 [.put fun v => .sub (.leaf 2) [v.toNat - 1] {}] sampleRefState with
    | .threw _ q => q.lists 0
    | _ => none) = some [9, 5, 2] := by decide +kernel
  cases hq : Spec.forRef 0 1 0 [.put fun v => .sub (.leaf 2) [v.toNat - 1] {}] sampleRefState with
  | threw m q =>
    rw [hq] at hv
    obtain ⟨s0, s1, ws', s, e0, e1, e2, hs, _⟩ := C111_throws_partial 0 1 [] sampleRefDecl sampleRefDecl_wf 0 _ (by
      intro c hc
      simp only [List.mem_singleton] at hc
      subst hc
      trivial) sampleRefState_eq hq []
    cases e0
    refine ⟨m, ws', s, ?_, hs 0 _ hv⟩
    rw [e1]
    exact e2
  | _ => rw [hq] at hv; cases hv

/-- The first two elements: `for (auto &i : x(colon(1, 2))) i = i * 2;`. -/
example : ∃ ws' s, (sampleRefDecl.run 0 1 ([], start)).bind (fun r => Prog.forRefSub 0 1 0 [0, 1] sampleRefBody r.2) =
    some (.ok (), (ws', s)) ∧ ShowsVar s 0 [6, 10, 2] := by
  have hv : Res.val? (Spec.refRounds 0 1 0 sampleRefBody (List.range 2) sampleRefState) 0 = some [6, 10, 2] := by decide +kernel
  obtain ⟨q, hq, h0⟩ := Res.exists_of_val hv
  obtain ⟨s0, s1, ws', s, e0, e1, e2, hs⟩ := C111_subset_partial 0 1 [] sampleRefDecl sampleRefDecl_wf 0 2 sampleRefBody sampleRefBody_ok
    (l := [3, 5, 2]) sampleRefState_eq (by decide +kernel) (by decide) hq []
  cases e0
  refine ⟨ws', s, ?_, hs 0 _ h0⟩
  rw [e1]
  exact e2

/-- C111 does not hold for subsets: `for (auto &i : x(3)) i = 0;` changes the first element and not the third one. -/
theorem C111_subset_false : ∃ (q : PState Int) (ws' : List String) (s : Mach Int),
    Spec.refRounds 0 1 0 [.put fun _ => .scal 0] [2] sampleRefState = .done q ∧ q.lists 0 = some [3, 5, 0] ∧
    (sampleRefDecl.run 0 1 ([], start)).bind (fun r => Prog.forRefSub 0 1 0 [2] [.put fun _ => .scal 0] r.2) = some (.ok (), (ws', s)) ∧
    ShowsVar s 0 [0, 5, 2] ∧ ¬ ShowsVar s 0 [3, 5, 0] := by
  have hv : Res.val? (Spec.refRounds 0 1 0 [.put fun _ => .scal 0] [2] sampleRefState) 0 = some [3, 5, 0] := by decide +kernel
  obtain ⟨q, hq, h0⟩ := Res.exists_of_val hv
  have hv' : Res.val? (Spec.refRounds 0 1 0 [.put fun _ => .scal 0] (List.range 1) sampleRefState) 0 = some [0, 5, 2] := by decide +kernel
  obtain ⟨q', hq', h0'⟩ := Res.exists_of_val hv'
  obtain ⟨s0, s1, ws', s, e0, e1, e2, hs⟩ := C111_subset_characterised 0 1 [] sampleRefDecl sampleRefDecl_wf 0 [2] [.put fun _ => .scal 0] (by
    intro c hc
    simp only [List.mem_singleton] at hc
    subst hc
    trivial) (l := [3, 5, 2]) sampleRefState_eq (by decide +kernel) (by decide) hq' []
  cases e0
  refine ⟨q, ws', s, hq, h0, ?_, hs 0 _ h0', fun h => ?_⟩
  · rw [e1]; exact e2
  · have a := h.2 0 (by decide)
    have b := (hs 0 _ h0').2 0 (by decide)
    rw [a] at b
    cases b

/-- With more indices than the vector has elements, `for (auto &i : x(v)) i = 0;` with `v = {1, 1, 1, 1}`, the loop leaves the memory
of `x`. -/
theorem C111_subset_false_undefined :
    ((sampleRefDecl.run 0 1 ([], start)).bind (fun r => Prog.forRefSub 0 1 0 [0, 0, 0, 0] [.put fun _ => .scal 0] r.2)).map Prod.fst =
      some (.ub .oob) := by decide +kernel

end ETR
