import Verif.Props.Memory
import Mathlib.Data.Nat.Log

/-! # C84: `push_back` on any vector of any program -/

namespace ETR.Mach
open Store
variable {V : Type}

/-- What `push_back` does to a vector of any reachable state: it appends if the capacity is at least the length, and otherwise does nothing
at all, without an error.  (The second case are vectors that were initialised from a temporary and not assigned since, `C84_false`.) -/
theorem C84_characterised {zero : V} {s : Mach V} (r : Reach zero s) {x : Nat} {v : V} (ha : s.Allowed (.pushBack x v)) {l : List V}
    (hl : ShowsVar s x l) :
    ((s.st (x, false)).sz ≤ (s.st (x, false)).capacity → ∃ s', exec zero (.pushBack x v) s = (.ok (), s') ∧ ShowsVar s' x (l ++ [v]) ∧
      s'.env.mp x = s.env.mp x ∧ (s'.st (x, false)).sz ≤ (s'.st (x, false)).capacity ∧
      ∀ y, y ≠ x → y < s.n → s.bor y = false → 1 ≤ s.env.size y → SameVar s s' y) ∧
    ((s.st (x, false)).capacity < (s.st (x, false)).sz → exec zero (.pushBack x v) s = (.ok (), s)) := by
  obtain ⟨hx, hb, hz⟩ := ha
  constructor
  · intro hc
    obtain ⟨h1, d1, e1, w1, sh1, st1, c1, m1, cc, _⟩ := pushBack_next_spec (zero := zero) (v := v) r.inv.sched
      (r.inv.d x hb).wf hl hc (fun _ => by omega)
    have e : exec zero (.pushBack x v) s = (.ok (), s.put (x, false) (h1, d1)) := onSlot_ok e1
    refine ⟨_, e, ?_, ?_, ?_, ?_⟩
    · refine ⟨?_, fun i hi => ?_⟩
      · show ((s.put (x, false) (h1, d1)).st (x, false)).sz = _
        rw [put_same]; exact sh1.1
      · show ((s.put (x, false) (h1, d1)).st (x, false)).get h1 i = _
        rw [put_same]; exact sh1.2 i hi
    · show ((s.put (x, false) (h1, d1)).st (x, false)).mp = _
      rw [put_same]; exact m1
    · rw [put_same]; exact c1
    · intro y hy hyn hyb hys
      refine C07_independent r y hyn hyb hys [.pushBack x v] (.cons ⟨hx, hb, hz⟩ trivial) ?_ (s' := s.put (x, false) (h1, d1)) ?_
      · intro c hc
        rw [List.mem_singleton.mp hc]
        simpa [Cmd.target] using fun e => hy e.symm
      · simp [runAll, e]
  · intro hc
    show Mach.pushBack zero x v s = _
    unfold Mach.pushBack
    rw [onSlot_apply]
    have : Store.pushBack zero v (s.heap, s.st (x, false)) = (.ok (), (s.heap, s.st (x, false))) := by
      unfold Store.pushBack
      rw [M.bind_ok (self_apply _), if_neg (by simp only []; omega), if_neg (by simp only []; omega)]
      rfl
    rw [this]
    refine Prod.ext rfl ?_
    show s.put (x, false) (s.heap, s.st (x, false)) = s
    cases s
    simp only [put, Mach.mk.injEq, true_and, and_true]
    funext z
    split
    · rename_i h; rw [h]
    · rfl

/-- C84 is false: `Vec<double> x = f(); x.d.push_back(7);` loses the value if `f` returns a vector. -/
theorem C84_false : ∃ s : Mach Int, Reach (0 : Int) s ∧ s.Allowed (.pushBack 1 7) ∧ ShowsVar s 1 [1, 2, 3] ∧
    exec 0 (.pushBack 1 7) s = (.ok (), s) := by
  let s := (runAll (0 : Int) [.declTemp [1, 2, 3] {}] start).2
  have r : Reach (0 : Int) s := ⟨[.declTemp [1, 2, 3] {}], .cons (by show _ ≤ _; decide) trivial, Prod.ext (by decide +kernel) rfl⟩
  have ha : s.Allowed (.pushBack 1 7) := ⟨by decide +kernel, by decide +kernel, by decide +kernel⟩
  have hl : ShowsVar s 1 [1, 2, 3] := by
    refine ⟨by decide +kernel, fun i hi => ?_⟩
    have : ∀ i : Fin 3, s.env.get 1 i = .ok [1, 2, 3][i] := by decide +kernel
    exact this ⟨i, hi⟩
  exact ⟨s, r, ha, hl, (C84_characterised r ha hl).2 (by decide +kernel)⟩

/-! ### Allocations -/

/-- Allocations caused by pushing the values of `l`, one after the other. -/
theorem push_many {zero : V} {x : Nat} (n0 c0 z0 : Nat) (l : List V) : ∀ (s : Mach V) (l0 : List V) (a : Nat), Inv s → x < s.n →
    s.bor x = false → ShowsVar s x l0 → (s.st (x, false)).sz ≤ (s.st (x, false)).capacity → l0.length + l.length ≤ 2 ^ 29 →
    s.heap.next = n0 + a → z0 ≤ c0 → z0 ≤ l0.length → (a = 0 → (s.st (x, false)).capacity = c0) →
    (1 ≤ a → (s.st (x, false)).capacity < 2 * l0.length ∧ 2 ^ (a - 1) ≤ (s.st (x, false)).capacity ∧
      c0 * 2 ^ a ≤ (s.st (x, false)).capacity) →
    ∃ s', runAll zero (l.map (Cmd.pushBack x)) s = (none, s') ∧ ShowsVar s' x (l0 ++ l) ∧
      2 ^ (s'.heap.next - n0) ≤ 4 * (l0.length + l.length - z0) + 1 := by
  induction l with
  | nil =>
    intro s l0 a I hx hb hl hc hlen hn hz hz' h0 h1
    refine ⟨s, rfl, by simpa using hl, ?_⟩
    rw [hn, Nat.add_sub_cancel_left, List.length_nil, Nat.add_zero]
    rcases Nat.eq_zero_or_pos a with e | e
    · rw [e]; omega
    · obtain ⟨p1, p2, p3⟩ := h1 e
      obtain ⟨k, rfl⟩ : ∃ k, a = k + 1 := ⟨a - 1, by omega⟩
      simp only [Nat.add_sub_cancel, pow_succ] at p2 p3 ⊢
      rcases Nat.eq_zero_or_pos c0 with ec | ec
      · subst ec
        have : z0 = 0 := by omega
        omega
      · have h2 := Nat.one_le_two_pow (n := k)
        -- `c0 * (2^k - 1) < l0.length - z0`
        have h3 : c0 * 2 ^ k < l0.length := by
          have : c0 * (2 ^ k * 2) = 2 * (c0 * 2 ^ k) := by ring
          omega
        have h4 : 2 ^ k + c0 ≤ c0 * 2 ^ k + 1 := by
          obtain ⟨c, rfl⟩ : ∃ c, c0 = c + 1 := ⟨c0 - 1, by omega⟩
          obtain ⟨q, hq⟩ : ∃ q, 2 ^ k = q + 1 := ⟨2 ^ k - 1, by omega⟩
          rw [hq]
          have : (c + 1) * (q + 1) = c * q + c + q + 1 := by ring
          have := Nat.zero_le (c * q)
          omega
        omega
  | cons v l ih =>
    intro s l0 a I hx hb hl hc hlen hn hz hz' h0 h1
    simp only [List.length_cons] at hlen
    have hsz : (s.st (x, false)).sz = l0.length := hl.1
    obtain ⟨g1, d1, e1, w1, sh1, st1, c1, m1, cc, nn⟩ := pushBack_next_spec (zero := zero) (v := v) I.sched
      (I.d x hb).wf hl hc (fun _ => by omega)
    have e : exec zero (.pushBack x v) s = (.ok (), s.put (x, false) (g1, d1)) := onSlot_ok e1
    have ha : s.Allowed (.pushBack x v) := ⟨hx, hb, by omega⟩
    have I1 := I.exec ha e (by simp)
    have hl1 : ShowsVar (s.put (x, false) (g1, d1)) x (l0 ++ [v]) := by
      refine ⟨?_, fun i hi => ?_⟩
      · show ((s.put (x, false) (g1, d1)).st (x, false)).sz = _
        rw [put_same]; exact sh1.1
      · show ((s.put (x, false) (g1, d1)).st (x, false)).get g1 i = _
        rw [put_same]; exact sh1.2 i hi
    obtain ⟨s', q1, q2, q3⟩ := ih (s.put (x, false) (g1, d1)) (l0 ++ [v])
      (a + if (s.st (x, false)).sz = (s.st (x, false)).capacity then 1 else 0) I1 hx hb hl1
      (by rw [put_same]; exact c1) (by simp only [List.length_append, List.length_singleton]; omega)
      (by show g1.next = _; rw [nn, hn]; omega) hz (by simp; omega)
      (by
        rw [put_same]
        intro h
        simp only [] at h ⊢
        by_cases hh : (s.st (x, false)).sz = (s.st (x, false)).capacity
        · rw [if_pos hh] at h; omega
        · rw [cc, if_neg hh]; exact h0 (by omega))
      (by
        rw [put_same]
        simp only [List.length_append, List.length_singleton]
        by_cases hh : (s.st (x, false)).sz = (s.st (x, false)).capacity
        · rw [if_pos hh, cc, if_pos hh]
          intro _
          rcases Nat.eq_zero_or_pos a with ea | ea
          · subst ea
            have := h0 rfl
            refine ⟨by split <;> omega, by split <;> simp <;> omega, ?_⟩
            split <;> simp <;> omega
          · obtain ⟨p1, p2, p3⟩ := h1 ea
            have hp := Nat.one_le_two_pow (n := a - 1)
            rw [if_neg (by omega)]
            obtain ⟨k, rfl⟩ : ∃ k, a = k + 1 := ⟨a - 1, by omega⟩
            refine ⟨by omega, ?_, ?_⟩
            · simp only [Nat.add_sub_cancel, pow_succ] at p2 ⊢; omega
            · have : c0 * 2 ^ (k + 1 + 1) = 2 * (c0 * 2 ^ (k + 1)) := by ring
              omega
        · rw [if_neg hh, cc, if_neg hh, Nat.add_zero]
          intro ea
          obtain ⟨p1, p2, p3⟩ := h1 ea
          exact ⟨by omega, p2, p3⟩)
    refine ⟨s', ?_, by simpa using q2, ?_⟩
    · rw [List.map_cons, runAll, e]; exact q1
    · simp only [List.length_append, List.length_cons, List.length_nil] at q3 ⊢
      rw [show l0.length + (l.length + 1) = l0.length + 1 + l.length by omega]
      exact q3

/-- C84.  Pushing any list of values to a vector of any reachable state whose capacity is at least its length appends all of them, and
allocates at most `log2 n + 2` blocks for `n` values (in total, not per value). -/
theorem C84_push_many_partial {zero : V} {s : Mach V} (r : Reach zero s) {x : Nat} (hx : x < s.n) (hb : s.bor x = false) {l0 : List V}
    (hl : ShowsVar s x l0) (hc : (s.st (x, false)).sz ≤ (s.st (x, false)).capacity) (l : List V) (hlen : l0.length + l.length ≤ 2 ^ 29)
    (hne : l ≠ []) :
    ∃ s', runAll zero (l.map (Cmd.pushBack x)) s = (none, s') ∧ ShowsVar s' x (l0 ++ l) ∧
      s'.heap.next ≤ s.heap.next + Nat.log 2 l.length + 2 := by
  have hz : (s.st (x, false)).sz = l0.length := hl.1
  obtain ⟨s', e, h1, h2⟩ := push_many (zero := zero) s.heap.next (s.st (x, false)).capacity l0.length l s l0 0 r.inv hx hb hl hc hlen
    rfl (by omega) (le_refl _) (fun _ => rfl) (fun h => absurd h (by omega))
  refine ⟨s', e, h1, ?_⟩
  rw [Nat.add_sub_cancel_left] at h2
  have hpos := List.length_pos_iff.mpr hne
  have h3 := Nat.lt_pow_succ_log_self (b := 2) (by omega) l.length
  by_contra hcon
  obtain ⟨k, hk⟩ : ∃ k, s'.heap.next - s.heap.next = Nat.log 2 l.length + 3 + k := ⟨s'.heap.next - s.heap.next - (Nat.log 2 l.length + 3), by omega⟩
  rw [hk, pow_add, pow_add] at h2
  have := Nat.one_le_two_pow (n := k)
  rw [pow_succ] at h3
  have h4 : 2 ^ Nat.log 2 l.length * 2 ^ 3 ≤ 2 ^ Nat.log 2 l.length * 2 ^ 3 * 2 ^ k := Nat.le_mul_of_pos_right _ (by omega)
  omega

/-! ### Vectors that have been assigned -/

/-- After a successful `resize` the memory covers the length. -/
theorem resize_room {zero : V} {h : Heap V} {s : Store} {n : Nat} (hs : h.sched = []) (o : Own h s) (hn : n ≤ 2 ^ 30)
    {st : Heap V × Store} (e : Store.resize zero n (h, s) = (.ok (), st)) : st.2.sz ≤ st.2.capacity := by
  rcases Nat.eq_zero_or_pos n with h0 | h1
  · subst h0; rw [resize_zero] at e; simp at e
  · obtain ⟨c, ec, hc1, hc2⟩ := capOf_spec (n := n) (by omega)
    by_cases ha : s.allocated = true
    · by_cases hc : n ≤ s.capacity
      · rw [resize_keep h1 ha hc] at e; obtain rfl := (Prod.mk.inj e).2; exact hc
      · cases hp : s.p with
        | none => rw [resize_null h1 ha (by omega) hp] at e; simp at e
        | some b =>
          rw [resize_grow hs h1 (by omega) ec hc1 o hp (by omega)] at e
          obtain rfl := (Prod.mk.inj e).2
          exact hc1
    · rw [resize_fresh hs h1 (by omega) ec hc1 (by simpa using ha)] at e
      obtain rfl := (Prod.mk.inj e).2
      exact hc1

theorem fillTemp_room {zero : V} {conv : V → Out V} {t : Nat} {e : Expr V} {s s' : Mach V} (I : Inv s)
    (hn : e.size s.env ≤ 2 ^ 30) (he : fillTemp zero conv t e s = (.ok (), s')) :
    (s'.st (t, true)).sz ≤ (s'.st (t, true)).capacity := by
  unfold fillTemp at he
  rw [M.bind_ok (M.get_apply _), M.bind_apply, onSlot_apply] at he
  rcases hm : Store.resize zero (e.size s.env) (s.heap, s.st (t, true)) with ⟨o, st'⟩
  rw [hm] at he
  cases o with
  | ub k => simp at he
  | thr m => simp at he
  | ok u =>
    have hr := resize_room I.sched (I.t t).own hn hm
    simp only [] at he
    have := KP.forN (P := fun s1 : Mach V => s1.heap.next = (s.put (t, true) st').heap.next ∧
      s1.st = (s.put (t, true) st').st) (f := fun i => M.reads (fun s => e.el s.env i) >>= fun v => M.lift (conv v) >>= fun w =>
        onSlot (t, true) (Store.set i w)) (e.size s.env) (fun i _ => KP.bind (KP.reads _) (fun v => KP.bind (KP.lift _) (fun w =>
        slotSet_count))) (s.put (t, true) st') ⟨rfl, rfl⟩
    rw [he] at this
    rw [(show _ ∧ _ from this).2, put_same]
    exact hr

/-- After a successful assignment to a vector that owns its memory, the capacity is at least the length. -/
theorem assign_room {zero : V} {conv : V → Out V} {x : Nat} {e : Expr V} {s s' : Mach V} (I : Inv s)
    (hal : s.Allowed (.assign conv x e)) (hb : s.bor x = false) (he : exec zero (.assign conv x e) s = (.ok (), s')) :
    (s'.st (x, false)).sz ≤ (s'.st (x, false)).capacity ∧ s'.bor x = false ∧ x < s'.n := by
  obtain ⟨hlt, hc, hf, hn⟩ := hal
  have hsafe := safe_fillTemp (zero := zero) (t := x) hlt hc hf (J.of I) hn s rfl
  simp only [exec, Mach.assign] at he
  rw [M.bind_ok (M.get_apply _), if_neg (by simp [hb])] at he
  unfold assignBuffer at he
  rw [M.bind_apply] at he
  rcases hm : fillTemp zero conv x e s with ⟨o, s1⟩
  rw [hm] at hsafe he
  cases o with
  | ub k => simp at he
  | thr m => simp at he
  | ok u =>
    have hr := fillTemp_room I hn hm
    obtain ⟨J1, F1, _⟩ := hsafe
    simp only [moveTemp] at he
    rw [M.bind_ok (M.modify_apply _ _), setDims_ok] at he
    obtain rfl := (Prod.mk.inj he).2
    have := F1.inv.cap
    have w1 : wrap64 (wrapI32 (s1.st (x, true)).capacity) = (s1.st (x, true)).capacity := by
      rw [wrapI32_small (by omega), wrap64_small (by omega)]
    have w2 : wrap64 (wrapI32 (s1.st (x, true)).sz) = (s1.st (x, true)).sz := by
      rw [wrapI32_small (by omega), wrap64_small (by omega)]
    refine ⟨?_, ?_, ?_⟩
    · rw [put_same]
      simp only [Store.moveit, if_true, w1, w2]
      exact hr
    · show s1.bor x = false
      rw [J1.bor]; exact hb
    · show x < s1.n
      rw [J1.n]; exact hlt

/-- C84 for every vector that owns its memory and has been assigned: `x = e; x.d.push_back(v1); ...; x.d.push_back(vn);` appends all values,
in every reachable state and for every expression.  What is missing: vectors initialised from a temporary (`C84_false`). -/
theorem C84_assigned_partial {zero : V} {conv : V → Out V} {x : Nat} {e : Expr V} {s s1 : Mach V} (r : Reach zero s)
    (ha : s.Allowed (.assign conv x e)) (hb : s.bor x = false) (he : exec zero (.assign conv x e) s = (.ok (), s1)) {l0 : List V}
    (hl : ShowsVar s1 x l0) (l : List V) (hlen : l0.length + l.length ≤ 2 ^ 29) (hne : l ≠ []) :
    ∃ s', runAll zero (.assign conv x e :: l.map (Cmd.pushBack x)) s = (none, s') ∧ ShowsVar s' x (l0 ++ l) ∧
      s'.heap.next ≤ s1.heap.next + Nat.log 2 l.length + 2 := by
  obtain ⟨h1, h2, h3⟩ := assign_room r.inv ha hb he
  obtain ⟨s', q1, q2, q3⟩ := C84_push_many_partial (r.step ha he (by simp)) h3 h2 hl h1 l hlen hne
  exact ⟨s', by rw [runAll, he]; exact q1, q2, q3⟩

/-- Eleven values pushed to a vector with two elements: three allocations. -/
example : let s := (runAll (0 : Int) [.declSize 2, .assign .ok 0 (.rvec [5, 6] {})] start).2
    let s' := (runAll 0 ([1, 2, 3, 4, 5, 6, 7, 8, 9, 10, 11].map (Cmd.pushBack 0)) s).2
    (List.range 13).map (s'.env.get 0) = [5, 6, 1, 2, 3, 4, 5, 6, 7, 8, 9, 10, 11].map Out.ok ∧ s'.heap.next = s.heap.next + 3 := by
  decide +kernel

example : ∃ s', exec 0 (.pushBack 0 9) (runAll (0 : Int) sampleHistory start).2 = (.ok (), s') ∧ ShowsVar s' 0 [0, 0, 0, 7, 9] := by
  obtain ⟨s', h1, h2, _⟩ := (C84_characterised sampleReach (x := 0) (v := 9) ⟨by decide +kernel, by decide +kernel, by decide +kernel⟩ (l := [0, 0, 0, 7])
    ⟨by decide +kernel, by decide +kernel⟩).1 (by decide +kernel)
  exact ⟨s', h1, h2⟩

example : ∃ s', runAll 0 ([9, 8, 7].map (Cmd.pushBack 0)) (runAll (0 : Int) sampleHistory start).2 = (none, s') ∧
    ShowsVar s' 0 [0, 0, 0, 7, 9, 8, 7] := by
  obtain ⟨s', h1, h2, _⟩ := C84_push_many_partial sampleReach (x := 0) (by decide +kernel) (by decide +kernel) (l0 := [0, 0, 0, 7])
    ⟨by decide +kernel, by decide +kernel⟩ (by decide +kernel) [9, 8, 7] (by decide) (by decide)
  exact ⟨s', h1, h2⟩

end ETR.Mach
