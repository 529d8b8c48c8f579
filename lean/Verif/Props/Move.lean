import Verif.Props.Helper

/-! # C80: moving a store -/

namespace ETR
open Store
variable {V : Type}

/-- C80: the new store has the elements, the old one is empty; destroying both, in either order, releases the memory of the elements
exactly once and touches nothing else.  Missing: the matrix dimensions, see `C80_false`. -/
theorem C80_partial {h : Heap V} {s : Store} (w : WF h s) {l : List V} (hs : Shows h s l) :
    Shows h (moveCtor s).1 l ∧ Shows h (moveCtor s).2 [] ∧
    ∃ h' a b, dtor (h, (moveCtor s).1) = (.ok (), (h', a)) ∧ dtor (h', (moveCtor s).2) = (.ok (), (h', b)) ∧
      dtor (h, (moveCtor s).2) = (.ok (), (h, b)) ∧
      ∀ c, h'.blk c = if s.p = some c then { h.blk c with live := false } else h.blk c := by
  refine ⟨hs, ⟨rfl, by simp⟩, ?_⟩
  cases hp : s.p with
  | none =>
    refine ⟨h, _, _, dtor_none (by simp [moveCtor, hp]), dtor_none rfl, dtor_none rfl, fun c => by simp⟩
  | some b =>
    have o : Own h (moveCtor s).1 := ⟨fun c hc => w.own.ptr c hc, fun hc => w.own.null hc⟩
    refine ⟨h.kill b, _, _, dtor_some o (by simp [moveCtor, hp]), dtor_none rfl, dtor_none rfl, fun c => ?_⟩
    by_cases hc : c = b
    · subst hc; simp [Heap.kill]
    · rw [Heap.kill_ne h hc, if_neg (by simpa using fun e => hc e.symm)]

/-- C80 is false for matrices: the dimensions stay behind with the emptied store. -/
theorem C80_false : ∃ (h : Heap Int) (s : Store), WF h s ∧ Shows h s [1, 2, 3, 4] ∧ s.mp = ⟨true, 2, 2⟩ ∧
    (moveCtor s).1.mp ≠ s.mp ∧ (moveCtor s).2.mp = s.mp := by
  obtain ⟨h, s, w, hs⟩ := exists_shows (l := [(1 : Int), 2, 3, 4]) (by simp) (by norm_num)
  exact ⟨h, { s with mp := ⟨true, 2, 2⟩ }, ⟨fun b hb => w.ptr b hb, fun hp => w.null hp⟩, hs, rfl, by simp [moveCtor], rfl⟩

/-- Destroying the moved-to store releases its memory. -/
example : ∃ (h h' : Heap Int) (s a : Store), Shows h (moveCtor s).1 [4, 5] ∧ Shows h (moveCtor s).2 [] ∧
    dtor (h, (moveCtor s).1) = (.ok (), (h', a)) := by
  obtain ⟨h, s, w, hs⟩ := exists_shows (l := [(4 : Int), 5]) (by simp) (by norm_num)
  obtain ⟨h1, h2, h', a, b, h3, _⟩ := C80_partial w hs
  exact ⟨h, h', s, a, h1, h2, h3⟩

end ETR
