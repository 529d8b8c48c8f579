import Verif.Lemmas.Blocks
import Verif.Props.Assign

/-! # C16: the length after an assignment, in every state and for every length -/

namespace ETR
variable {V : Type}

namespace Store

theorem Tr.heapSize {α : Type} {m : M (Heap V) α} {n : Nat} :
    Tr (fun r : Heap V × Store => r.2.sz = n) (heapM m) (fun _ r => r.2.sz = n) (fun _ => True) := by
  intro r hr
  simp only [heapM, M.zoom_apply]
  rcases m r.1 with ⟨o, h⟩
  cases o with
  | ok a => exact hr
  | thr e => trivial
  | ub k => trivial

theorem Tr.updSize {P : Heap V × Store → Prop} {f : Store → Store} {n : Nat} (h : ∀ r, P r → (f r.2).sz = n) :
    Tr P (upd f : SM V Unit) (fun _ r => r.2.sz = n) (fun _ => True) := fun r hr => h r hr

theorem Tr.any {σ α : Type} {P : σ → Prop} (m : M σ α) : Tr P m (fun _ _ => True) (fun _ => True) := by
  intro s _
  rcases m s with ⟨o, s'⟩
  cases o <;> trivial

theorem Tr.selfB {β : Type} {P : Heap V × Store → Prop} {f : Store → SM V β} {Q : β → Heap V × Store → Prop} {E : Heap V × Store → Prop}
    (h : ∀ s, Tr P (f s) Q E) : Tr P (Store.self >>= f) Q E := fun r hr => h r.2 r hr

theorem Tr.fillSize {v : V} {n : Nat} :
    Tr (fun r : Heap V × Store => r.2.sz = n) (fillScalar v) (fun _ r => r.2.sz = n) (fun _ => True) := by
  unfold fillScalar
  exact Tr.selfB fun s => Tr.heapSize

theorem Tr.initSize {n : Nat} : Tr (fun _ : Heap V × Store => True) (init n) (fun _ r => r.2.sz = n) (fun _ => True) := by
  unfold init
  have rest : Tr (fun _ : Heap V × Store => True) (do
      upd (fun s => { s with sz := n })
      let c ← M.lift (capOf n)
      upd (fun s => { s with capacity := c })
      let b ← heapM (Heap.new c)
      upd (fun s => { s with p := some b, allocated := true })) (fun _ r => r.2.sz = n) (fun _ => True) := by
    refine Tr.bind (Tr.updSize (n := n) fun _ _ => rfl) fun _ => ?_
    refine Tr.bind (Tr.lift fun _ _ => trivial) fun c => ?_
    refine Tr.bind (Tr.updSize (n := n) fun _ h => h) fun _ => ?_
    refine Tr.bind Tr.heapSize fun b => ?_
    exact Tr.updSize fun _ h => h
  refine Tr.selfB fun s => ?_
  refine Tr.ite (fun _ => ?_) fun _ => rest
  refine Tr.bind (R := fun _ _ => True) (Tr.any _) fun _ => ?_
  refine Tr.bind (R := fun _ _ => True) (Tr.any _) fun _ => ?_
  exact Tr.bind (R := fun _ _ => True) (Tr.any _) fun _ => rest

/-- A successful `resize` sets the size. -/
theorem Tr.resizeSize {zero : V} {n : Nat} :
    Tr (fun _ : Heap V × Store => True) (resize zero n) (fun _ r => r.2.sz = n) (fun _ => True) := by
  unfold resize
  refine Tr.bind (Tr.ass fun _ _ => trivial) fun _ => ?_
  refine Tr.selfB fun s => ?_
  refine Tr.ite (fun _ => Tr.bind Tr.initSize fun _ => Tr.fillSize) fun _ => ?_
  refine Tr.ite (fun _ => ?_) fun _ => Tr.updSize fun _ _ => rfl
  refine Tr.bind (R := fun _ _ => True) (Tr.any _) fun _ => ?_
  refine Tr.bind (R := fun _ _ => True) (Tr.any _) fun _ => ?_
  refine Tr.bind (R := fun _ _ => True) (Tr.any _) fun _ => ?_
  refine Tr.bind (R := fun _ _ => True) (Tr.any _) fun _ => ?_
  refine Tr.bind (R := fun _ _ => True) (Tr.any _) fun _ => ?_
  exact Tr.bind (Tr.updSize (n := n) fun _ _ => rfl) fun _ => Tr.fillSize

theorem Tr.setSize {i n : Nat} {v : V} :
    Tr (fun r : Heap V × Store => r.2.sz = n) (set i v) (fun _ r => r.2.sz = n) (fun _ => True) := by
  unfold set
  refine Tr.selfB fun s => ?_
  exact Tr.bind (Tr.lift fun _ _ => trivial) fun _ => Tr.heapSize

end Store

namespace Mach
open Store

/-- The sizes of the vectors are those of `s0`, and the size of the slot `z` is `n`. -/
def Sized (s0 : Mach V) (z : Slot) (n : Nat) (s : Mach V) : Prop := (∀ y, (y, false) ≠ z → (s.st (y, false)).sz = (s0.st (y, false)).sz) ∧
  (s.st z).sz = n ∧ s.bor = s0.bor

theorem Tr.slotSize {s0 : Mach V} {z : Slot} {n k : Nat} {m : SM V Unit} {P : Heap V × Store → Prop}
    (h : Tr P m (fun _ r => r.2.sz = n) (fun _ => True)) (hP : ∀ s, Sized s0 z k s → P (s.heap, s.st z)) :
    Tr (Sized s0 z k) (onSlot z m) (fun _ => Sized s0 z n) (fun _ => True) := by
  intro s hs
  have := h (s.heap, s.st z) (hP s hs)
  rw [onSlot_apply]
  rcases hm : m (s.heap, s.st z) with ⟨o, r⟩
  rw [hm] at this
  cases o with
  | ok a =>
    refine ⟨fun y hy => ?_, ?_, hs.2.2⟩
    · rw [show ((s.put z r).st (y, false)) = s.st (y, false) from put_ne _ _ hy]; exact hs.1 y hy
    · simpa [Mach.put] using this
  | thr e => trivial
  | ub u => trivial

theorem Sized.expr {s0 s : Mach V} {t n : Nat} (h : Sized s0 (t, true) n s) (e : Expr V) : e.size s.env = e.size s0.env :=
  Expr.size_congr (fun y => h.1 y (by simp)) e

theorem Tr.fillTempSize {zero : V} {conv : V → Out V} {t : Nat} {e : Expr V} {s0 : Mach V} {k : Nat} :
    Tr (Sized s0 (t, true) k) (Mach.fillTemp zero conv t e) (fun _ => Sized s0 (t, true) (e.size s0.env)) (fun _ => True) := by
  unfold Mach.fillTemp
  refine Tr.getB fun s hs => ?_
  rw [hs.expr e]
  refine Tr.bind (Tr.slotSize Tr.resizeSize fun _ _ => trivial) fun _ => ?_
  have key : ∀ n, Tr (Sized s0 (t, true) (e.size s0.env)) (M.forN n (fun i => do
      let v ← M.reads (fun s => e.el s.env i)
      let w ← M.lift (conv v)
      onSlot (t, true) (Store.set i w))) (fun _ => Sized s0 (t, true) (e.size s0.env)) (fun _ => True) := by
    intro n
    induction n with
    | zero => intro s hs; exact hs
    | succ n ih =>
      rw [M.forN_succ]
      refine Tr.bind ih fun _ => ?_
      refine Tr.bind (R := fun _ => Sized s0 (t, true) (e.size s0.env)) (fun s hs => ?_) fun v => ?_
      · rw [M.reads_apply]
        cases e.el s.env n <;> first | exact hs | trivial
      refine Tr.bind (Tr.lift fun _ _ => trivial) fun w => ?_
      exact Tr.slotSize Tr.setSize fun s hs => hs.2.1
  exact key _

/-- `setDims` changes no size. -/
theorem Tr.setDimsSize {x : Nat} {e : Expr V} {n : Nat} :
    Tr (fun s : Mach V => (s.st (x, false)).sz = n) (setDims x e) (fun _ s => (s.st (x, false)).sz = n) (fun _ => True) := by
  unfold setDims
  refine Tr.getB fun s hs => ?_
  refine Tr.ite (fun _ => ?_) fun _ s hs => hs
  refine Tr.bind (Tr.lift fun _ _ => trivial) fun r => ?_
  refine Tr.bind (Tr.lift fun _ _ => trivial) fun c => ?_
  intro s hs
  rw [onSlot_apply]
  simpa [Mach.put, Store.upd] using hs

theorem Tr.assignSize {zero : V} {conv : V → Out V} {x : Nat} {e : Expr V} {s0 : Mach V} :
    Tr (fun s => s = s0) (Mach.assign zero conv x e) (fun _ s => (s.st (x, false)).sz =
      if s0.bor x = true then e.size s0.env else wrap64 (wrapI32 (e.size s0.env))) (fun _ => True) := by
  have start : ∀ s, s = s0 → Sized s0 (x, true) (s0.st (x, true)).sz s := by
    rintro s rfl
    exact ⟨fun _ _ => rfl, rfl, rfl⟩
  unfold Mach.assign
  refine Tr.getB fun s hs => ?_
  subst hs
  refine Tr.ite (fun hb => ?_) fun hb => ?_
  · rw [if_pos hb]
    unfold assignBorrow
    refine Tr.getB fun s1 hs1 => ?_
    refine Tr.bind (Tr.ass fun _ _ => trivial) fun _ => ?_
    refine Tr.bind (Tr.fillTempSize.pre start) fun _ => ?_
    refine Tr.getB fun s2 hs2 => ?_
    refine Tr.bind (Tr.ass fun _ _ => trivial) fun _ => ?_
    refine Tr.bind (R := fun _ s3 => (s3.st (x, false)).sz = e.size s.env) (fun s3 _ => ?_) fun _ => ?_
    · rw [onSlot_apply]
      simp [Mach.put, Store.upd, hs2.expr e]
    refine Tr.getB fun s3 hs3 => ?_
    refine Tr.bind (R := fun _ s4 => (s4.st (x, false)).sz = e.size s.env) ?_ fun _ => Tr.setDimsSize
    generalize e.size s3.env = n
    induction n with
    | zero => exact fun s hs => hs
    | succ n ih =>
      rw [M.forN_succ]
      refine Tr.bind ih fun _ => ?_
      refine Tr.bind (R := fun _ s4 => (s4.st (x, false)).sz = e.size s.env) (fun s4 hs4 => ?_) fun v => ?_
      · rw [M.reads_apply]
        cases (s4.st (x, true)).get s4.heap n <;> first | exact hs4 | trivial
      intro s4 hs4
      have := Tr.setSize (V := V) (i := n) (n := e.size s.env) (v := v) (s4.heap, s4.st (x, false)) hs4
      rw [onSlot_apply]
      rcases hm : Store.set n v (s4.heap, s4.st (x, false)) with ⟨o, r⟩
      rw [hm] at this
      cases o with
      | ok a => simpa [Mach.put] using this
      | thr e => trivial
      | ub u => trivial
  · rw [if_neg hb]
    unfold assignBuffer
    refine Tr.bind (Tr.fillTempSize.pre start) fun _ => ?_
    refine Tr.bind (R := fun _ s3 => (s3.st (x, false)).sz = wrap64 (wrapI32 (e.size s.env))) (fun s3 hs3 => ?_) fun _ => Tr.setDimsSize
    unfold moveTemp
    rw [M.modify_apply]
    simp [Store.moveit, hs3.2.1]

theorem wrap_length_iff {n : Nat} (h : n < 2 ^ 63) : wrap64 (wrapI32 n) = n ↔ n < 2 ^ 31 := by
  unfold wrap64 wrapI32 two64
  dsimp only
  split <;> omega

/-- C16, exactly: in every state whatsoever, an assignment to a vector that owns its memory keeps the length of the right-hand side if and
only if there are less than `2^31` elements. -/
theorem C16_characterised {zero : V} {s s' : Mach V} (conv : V → Out V) (x : Nat) (e : Expr V) (hb : s.bor x = false)
    (hn : e.size s.env < 2 ^ 63) (h : exec zero (.assign conv x e) s = (.ok (), s')) :
    s'.env.size x = e.size s.env ↔ e.size s.env < 2 ^ 31 := by
  have key := Tr.assignSize (zero := zero) (conv := conv) (x := x) (e := e) (s0 := s) s rfl
  rw [show Mach.assign zero conv x e s = (.ok (), s') from h, if_neg (by simp [hb])] at key
  rw [show s'.env.size x = _ from key]
  exact wrap_length_iff hn

/-- C16 for a vector that borrows: the length is kept, whatever it is. -/
theorem C16_borrowed {zero : V} {s s' : Mach V} (conv : V → Out V) (x : Nat) (e : Expr V) (hb : s.bor x = true)
    (h : exec zero (.assign conv x e) s = (.ok (), s')) : s'.env.size x = e.size s.env := by
  have key := Tr.assignSize (zero := zero) (conv := conv) (x := x) (e := e) (s0 := s) s rfl
  rwa [show Mach.assign zero conv x e s = (.ok (), s') from h, if_pos hb] at key

example : (exec (0 : Int) (.assign .ok 0 (.rvec [1, 2, 3] {})) (runAll 0 sampleHistory start).2).2.env.size 0 = 3 :=
  (C16_characterised .ok 0 (.rvec [1, 2, 3] {}) (by decide +kernel) (by decide +kernel) (Prod.ext (by decide +kernel) rfl)).mpr
    (by decide +kernel)

example : (exec (0 : Int) (.assign .ok 0 (.rvec [7, 8, 9] {})) (runAll 0 sampleBorrow start).2).2.env.size 0 = 3 :=
  C16_borrowed .ok 0 (.rvec [7, 8, 9] {}) (by decide +kernel) (Prod.ext (by decide +kernel) rfl)

end Mach
end ETR
