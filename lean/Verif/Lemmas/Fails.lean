import Verif.Lemmas.ProgBor
import Verif.Lemmas.Cells

/-! # Operations whose right-hand side throws -/

namespace ETR
namespace Mach
open Spec Store
variable {V : Type}

/-- Vectors of the machine reject positions that do not exist. -/
theorem Rep.agreesX {s : Mach V} {p : PState V} (R : Rep s p) : AgreesX s.env p.lists := by
  refine ⟨R.agrees, fun x l hl hne i hi => ?_⟩
  obtain ⟨hsz, hg⟩ := R.agrees x l hl
  have hsz : (s.st (x, false)).sz = l.length := hsz
  have h0 := List.length_pos_of_ne_nil hne
  have h1 : (s.st (x, false)).get s.heap 0 = .ok l[0] := hg 0 h0
  have hal : (s.st (x, false)).allocated = true := by
    by_contra hn
    unfold Store.get checkIdx at h1
    rw [Out.ass_neg (by simpa using hn)] at h1
    cases h1
  show (s.st (x, false)).get s.heap i = _
  unfold Store.get checkIdx
  rw [Out.ass_pos hal, Out.ok_bind, Out.ass_neg (by omega)]
  rfl

/-- Writing the first elements of a slot, and an exception. -/
theorem slotLoop_thr {s0 : Mach V} {z : Slot} {g : Nat → Mach V → Out V} {L : List V} {h1 : Heap V}
    {d1 : Store} (w : WF h1 d1) (hz : L.length < d1.sz) {m : String}
    (hg : ∀ i (hi : i < L.length), ∀ h', WF h' d1 → Step h1 d1 h' d1 →
      g i (s0.put z (h', d1)) = .ok L[i])
    (hm : ∀ h', WF h' d1 → Step h1 d1 h' d1 → g L.length (s0.put z (h', d1)) = .thr m) :
    ∃ h2, M.forN d1.sz (fun i => do
        let v ← M.reads (g i)
        onSlot z (Store.set i v)) (s0.put z (h1, d1)) = (.thr m, s0.put z (h2, d1)) ∧
      WF h2 d1 ∧ Step h1 d1 h2 d1 := by
  obtain ⟨b, hp⟩ : ∃ b, d1.p = some b := by
    cases hp : d1.p with
    | none => have := w.null hp; omega
    | some b => exact ⟨b, rfl⟩
  obtain ⟨s2, e2, h2, rfl, w2, st2⟩ := M.forN_ok (σ := Mach V)
    (I := fun _ s => ∃ h', s = s0.put z (h', d1) ∧ WF h' d1 ∧ Step h1 d1 h' d1) L.length
    (f := fun i => do
        let v ← M.reads (g i)
        onSlot z (Store.set i v)) (s := s0.put z (h1, d1))
    ⟨h1, rfl, w, Step.refl _ _⟩ (by
      rintro i s hi ⟨h', rfl, w', st'⟩
      refine ⟨s0.put z (h'.setCells b (fun j => if j = i then some L[i] else (h'.blk b).cell j), d1),
        ?_, _, rfl, w'.setCells _ _, st'.trans w.own (Step.setCells hp _ _ rfl)⟩
      rw [M.bind_ok (show M.reads (g i) (s0.put z (h', d1)) = (.ok L[i], _) by
        rw [M.reads_apply, hg i hi h' w' st'])]
      rw [onSlot_ok (r := (h'.setCells b (fun j => if j = i then some L[i]
        else (h'.blk b).cell j), d1)) (a := ()), put_put]
      rw [put_heap, put_same]
      exact set_ok w' hp (by simp only []; omega))
  refine ⟨h2, forN_thr e2 ?_ _ hz, w2, st2⟩
  rw [M.bind_thr (show M.reads (g L.length) (s0.put z (h2, d1)) = (.thr m, _) by rw [M.reads_apply, hm h2 w2 st2])]

/-- The evaluation loop of an assignment whose right-hand side throws. -/
theorem fillTemp_thr {zero : V} {conv : V → Out V} {t : Nat} {e : Expr V} {s0 : Mach V} {L : List V} {n : Nat} {m : String}
    (I : Inv s0) (hal : (s0.st (t, true)).allocated = true → (s0.st (t, true)).p ≠ none)
    (hsz : e.size s0.env = n) (hn : L.length < n)
    (hel : ∀ i (hi : i < L.length), (e.el s0.env i >>= conv) = .ok L[i])
    (hm : (e.el s0.env L.length >>= conv) = .thr m) (hlim : n ≤ 2 ^ 30) :
    ∃ h1 t1, fillTemp zero conv t e s0 = (.thr m, s0.put (t, true) (h1, t1)) ∧
      Step s0.heap (s0.st (t, true)) h1 t1 ∧ TInv h1 t1 ∧ t1.p ≠ none := by
  have hpos : 0 < n := by omega
  obtain ⟨h1, t1, e1, w1, st1, z1, a1, m1, c1, k1, g1⟩ := resize_spec (zero := zero)
    (h := s0.heap) (s := s0.st (t, true)) (n := n) I.sched (I.t t).own hal hpos (by omega)
  have hp1 : t1.p ≠ none := by intro hp; have := w1.null hp; omega
  have hcap : t1.capacity < 2 ^ 31 := by
    by_cases hk : n ≤ (s0.st (t, true)).capacity
    · rw [(k1 hk).2]; exact (I.t t).cap
    · have := (g1 (by omega)).1; omega
  have heq : ∀ h', Step h1 t1 h' t1 → (s0.put (t, true) (h', t1)).env = s0.env := by
    intro h' st'
    exact I.env_put (st1.trans (I.t t).own st')
  obtain ⟨h2, e2, w2, st2⟩ := slotLoop_thr (s0 := s0) (z := (t, true))
    (g := fun i s => e.el s.env i >>= conv) (L := L) (m := m) w1 (by omega) (fun i hi h' _ st' => by
      rw [heq h' st']; exact hel i hi) (fun h' _ st' => by rw [heq h' st']; exact hm)
  refine ⟨h2, t1, ?_, st1.trans (I.t t).own st2, ⟨w2.own, hcap⟩, hp1⟩
  unfold fillTemp
  rw [M.bind_ok (M.get_apply _), hsz, M.bind_ok (onSlot_ok e1)]
  simp only [M.reads_lift]
  rw [z1] at e2
  exact e2

/-- The cells of a right-hand side. -/
theorem rhs_sound {env : Env V} {ρ : Nat → Option (List V)} (ha : AgreesX env ρ) {e : Expr V} {conv : V → Out V} {C : List (Out V)}
    (h : cellsOf ρ e = some C) : e.size env = (C.map (· >>= conv)).length ∧
      ∀ i (hi : i < (C.map (· >>= conv)).length), (e.el env i >>= conv) = (C.map (· >>= conv))[i] := by
  obtain ⟨_, h1, h2⟩ := cells_sound ha e h
  refine ⟨by simpa using h1, fun i hi => ?_⟩
  rw [List.getElem_map, h2 i (by simpa using hi)]

/-- The failure of a list of cells, position by position. -/
theorem failure_get {D : List (Out V)} {m : String} (h : failure D = some m) : ∃ L : List V, ∃ hn : L.length < D.length,
    (∀ i (hi : i < L.length), D[i]'(by omega) = .ok L[i]) ∧ D[L.length] = .thr m := by
  obtain ⟨L, T, rfl⟩ := failure_split h
  refine ⟨L, by simp, fun i hi => ?_, ?_⟩
  · rw [List.getElem_append_left (by simpa using hi)]; simp
  · rw [List.getElem_append_right (by simp)]; simp

/-- An object that is not a variable of the program may change. -/
theorem Rep.put_free {s : Mach V} {p : PState V} (R : Rep s p) {x : Nat} (hx : x < s.n) (hb : s.bor x = false)
    (hv : p.vars x = none) {r : Heap V × Store} (st : Step s.heap (s.st (x, false)) r.1 r.2) (D : DInv r.1 r.2) :
    Rep (s.put (x, false) r) p := by
  have ho : s.owned (x, false) := Or.inr hb
  refine ⟨R.inv.step ho hx st (fun _ => D) (by simp), R.n, ?_, R.b.put R.inv hb st⟩
  intro y w hw
  exact (R.vars y w hw).frame R.inv ho (fun h => by rw [show y = x from h.symm, hv] at hw; cases hw) st

/-- Writes to the elements of a vector that owns them. -/
theorem Rep.wroteO {s s' : Mach V} {p : PState V} (R : Rep s p) {x : Nat} {v : Var V} {vis : List V}
    (hv : p.vars x = some v) (hl : vis.length = v.val.length) (w : Wrote s x s') (sh : ShowsVar s' x vis) :
    Rep s' (p.put x (some ⟨vis, v.kind⟩)) := by
  have L := R.vars x v hv
  refine ⟨w.inv, by rw [w.n]; exact R.n, fun y u hu => ?_, R.b.keep (by rw [w.n]) (by rw [w.next]) (fun y _ _ => ?_) (fun b hb hw => ?_)⟩
  · simp only [PState.put] at hu
    by_cases hyx : y = x
    · subst hyx
      rw [if_pos rfl, Option.some.injEq] at hu
      subst hu
      refine ⟨by rw [w.n]; exact L.lt, by rw [w.bor]; exact L.bor, sh, ?_⟩
      rw [w.st]
      exact L.kind.same (by rw [← List.length_eq_zero_iff, ← List.length_eq_zero_iff, hl]) id (fun _ => rfl)
    · rw [if_neg hyx] at hu
      have M := R.vars y u hu
      refine ⟨by rw [w.n]; exact M.lt, by rw [w.bor]; exact M.bor, ?_, by rw [w.st]; exact M.kind⟩
      exact (w.same (R.inv.owned_apart L.bor hyx)).shows M.shows
  · rw [w.st, w.bor]; exact ⟨rfl, rfl, rfl⟩
  · refine w.frame b (fun h => ?_)
    have := ((R.inv.ownOf (y := (x, false)) (Or.inr L.bor)).ptr b h).2.2.1
    rw [hw] at this; exact absurd this (by decide)

end Mach
end ETR
