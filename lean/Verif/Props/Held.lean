import Verif.Spec.Held
import Verif.Props.Program

/-! # C89: expressions kept in variables -/

namespace ETR.HState
open Spec
variable {V : Type}

/-! ## Building objects -/

theorem build_next : ∀ (src : Src V) (s : HState V), (build src s).2.next = s.next + count src
  | .vec _, _ | .name _, _ | .var _, _ => rfl
  | .lit _, _ | .rvec _ _, _ => rfl
  | .un f e, s => by simp only [build, new, count]; rw [build_next e s]; omega
  | .bin f l r, s => by
    simp only [build, new, count]; rw [build_next r, build_next l]; omega
  | .sub e ind mp, s => by simp only [build, new, count]; rw [build_next e s]; omega

theorem build_keep : ∀ (src : Src V) (s : HState V),
    (build src s).2.mach = s.mach ∧ (build src s).2.gone = s.gone ∧
      ∀ j, j < s.next → (build src s).2.obj j = s.obj j
  | .vec _, _ | .name _, _ | .var _, _ => ⟨rfl, rfl, fun _ _ => rfl⟩
  | .lit _, s | .rvec _ _, s => by
    refine ⟨rfl, rfl, fun j hj => ?_⟩
    simp only [build, new]; rw [if_neg (by omega)]
  | .un f e, s | .sub e ind mp, s => by
    obtain ⟨h1, h2, h3⟩ := build_keep e s
    refine ⟨h1, h2, fun j hj => ?_⟩
    simp only [build, new]
    rw [if_neg (by rw [build_next]; omega), h3 j hj]
  | .bin f l r, s => by
    obtain ⟨h1, h2, h3⟩ := build_keep l s
    obtain ⟨k1, k2, k3⟩ := build_keep r (build l s).2
    refine ⟨k1.trans h1, k2.trans h2, fun j hj => ?_⟩
    simp only [build, new]
    rw [if_neg (by rw [build_next, build_next]; omega), k3 j (by rw [build_next]; omega), h3 j hj]

theorem hold_next (src : Src V) (s : HState V) : (hold src s).next = s.next + count src := build_next src s

theorem hold_old (src : Src V) (s : HState V) {j : Nat} (h : j < s.next) : (hold src s).obj j = s.obj j := by
  simp only [hold]; rw [if_neg (by omega)]; exact (build_keep src s).2.2 j h

theorem hold_temps (src : Src V) (s : HState V) {j : Nat} (h : s.next ≤ j) (h' : j + 1 < s.next + count src) :
    (hold src s).obj j = none := by
  simp only [hold]; rw [if_pos ⟨h, by rw [build_next]; exact h'⟩]

theorem hold_root (src : Src V) (s : HState V) {j : Nat} (h : j + 1 = s.next + count src) :
    (hold src s).obj j = (build src s).2.obj j := by
  simp only [hold]; rw [if_neg (by rw [build_next]; omega)]

/-- The object that a reference leads to, for a named operand. -/
def refOf : Term V → Option Ref
  | .vec x => some (.vec x)
  | .var k => some (.num k)
  | .name k _ => some (.obj k)
  | _ => none

theorem build_operand {S : Names V} {e : Src V} {o : Term V} (h : operand S e = some o) (s : HState V) :
    refOf o = some (build e s).1 := by
  cases e with
  | vec x => cases h; rfl
  | var x => cases h; rfl
  | name k =>
    simp only [operand, Option.map_eq_some_iff] at h
    obtain ⟨t, _, rfl⟩ := h
    rfl
  | _ => cases h

theorem number_num {H : HState V} {k : Nat} {v : V} (h : H.obj k = some (.num v)) : H.number k = some v := by
  simp only [number, h]

theorem number_congr {H H' : HState V} {k : Nat} (h : H.obj k = H'.obj k) : H.number k = H'.number k := by
  simp only [number, h]

/-! ## Objects and meanings -/

/-- A named operand and its meaning. -/
def OpOk (S : Names V) (k : Nat) : Term V → Prop
  | .name j t => j < k ∧ (S.term j = some t ∨ S.term j = none)
  | _ => True

/-- The object `o` with identifier `k` is the one declared with meaning `t`. -/
inductive Node (S : Names V) (k : Nat) : Term V → Obj V → Prop
  | rvec (l mp) : Node S k (.rvec l mp) (.rvec l mp)
  | un (f) {t a} : refOf t = some a → OpOk S k t → Node S k (.un f t) (.un f a)
  | bin (f) {t u a b} : refOf t = some a → refOf u = some b → OpOk S k t → OpOk S k u →
      Node S k (.bin f t u) (.bin f a b)
  | sub {t a} (ind mp) : refOf t = some a → OpOk S k t → Node S k (.sub t ind mp) (.sub a ind mp)

/-- State and meaning agree. -/
structure Inv (H : HState V) (S : Names V) : Prop where
  next : S.next = H.next
  gone : S.gone = H.gone
  num : ∀ k, S.num k = H.number k
  fresh : ∀ k, H.next ≤ k → H.obj k = none
  term : ∀ k t, S.term k = some t → ∃ o, H.obj k = some o ∧ Node S k t o

theorem Inv.lt {H : HState V} {S : Names V} (I : Inv H S) {k : Nat} {t : Term V} (h : S.term k = some t) :
    k < H.next := by
  obtain ⟨o, ho, _⟩ := I.term k t h
  by_contra hn
  rw [I.fresh k (by omega)] at ho
  cases ho

theorem Node.mono {S S' : Names V} {k : Nat} {t : Term V} {o : Obj V}
    (hm : ∀ j, j < k → S'.term j = S.term j ∨ S'.term j = none) (h : Node S k t o) : Node S' k t o := by
  have ok : ∀ u : Term V, OpOk S k u → OpOk S' k u := by
    intro u hu
    cases u with
    | name j t =>
      refine ⟨hu.1, ?_⟩
      rcases hm j hu.1 with h1 | h1
      · rw [h1]; exact hu.2
      · exact .inr h1
    | _ => trivial
  cases h with
  | rvec l mp => exact .rvec l mp
  | un f h1 h2 => exact .un f h1 (ok _ h2)
  | bin f h1 h2 h3 h4 => exact .bin f h1 h2 (ok _ h3) (ok _ h4)
  | sub ind mp h1 h2 => exact .sub ind mp h1 (ok _ h2)

/-! ## Resolving names -/

/-- A reference resolves to the expression. -/
def Res (zero : V) (H : HState V) (k : Nat) (a : Ref) (e : Expr V) : Prop :=
  ∀ n, k ≤ n → resolve zero H n a = .ok e

theorem resolve_bin {zero : V} {H : HState V} {n k : Nat} {f : V → V → Out V} {a b : Ref} {x y : Expr V}
    (h : H.obj k = some (.bin f a b)) (ha : resolve zero H n a = .ok x) (hb : resolve zero H n b = .ok y) :
    resolve zero H (n + 1) (.obj k) = .ok (.bin f x y) := by
  have hnum : ∀ {i : Nat} {z : Expr V}, resolve zero H n (.num i) = .ok z →
      ∃ v, H.number i = some v ∧ z = .scal v := by
    intro i z hz
    have : resolve zero H n (.num i) = (match H.number i with
      | some v => .ok (.scal v) | none => .ub .useAfterFree) := by cases n <;> rfl
    rw [this] at hz
    cases hv : H.number i with
    | none => rw [hv] at hz; cases hz
    | some v => rw [hv] at hz; cases hz; exact ⟨v, rfl, rfl⟩
  rw [resolve, h]
  cases a with
  | num i =>
    obtain ⟨v, hv, rfl⟩ := hnum ha
    simp only [hb, hv]; rfl
  | vec i =>
    cases b with
    | num j =>
      obtain ⟨v, hv, rfl⟩ := hnum hb
      simp only [ha, hv]; rfl
    | vec j => simp only [ha, hb]; rfl
    | obj j => simp only [ha, hb]; rfl
  | obj i =>
    cases b with
    | num j =>
      obtain ⟨v, hv, rfl⟩ := hnum hb
      simp only [ha, hv]; rfl
    | vec j => simp only [ha, hb]; rfl
    | obj j => simp only [ha, hb]; rfl

theorem Inv.operand {zero : V} {H : HState V} {S : Names V} (I : Inv H S) {k : Nat}
    (ih : ∀ j, j < k → ∀ t e, S.term j = some t → t.expr S = some e → Res zero H (j + 1) (.obj j) e)
    {t : Term V} {a : Ref} {e : Expr V} (hr : refOf t = some a) (ho : OpOk S k t)
    (he : t.expr S = some e) : Res zero H k a e := by
  cases t with
  | vec x =>
    cases hr
    intro n _
    have : resolve zero H n (.vec x) = if H.gone x then .ub .useAfterFree else .ok (.leaf x) := by
      cases n <;> rfl
    rw [this, ← I.gone]
    simp only [Term.expr] at he
    by_cases hg : S.gone x = true
    · rw [if_pos hg] at he; cases he
    · rw [if_neg hg] at he; cases he; rw [if_neg hg]
  | var i =>
    cases hr
    intro n _
    have : resolve zero H n (.num i) = (match H.number i with
      | some v => .ok (.scal v) | none => .ub .useAfterFree) := by cases n <;> rfl
    rw [this, ← I.num]
    simp only [Term.expr, Option.map_eq_some_iff] at he
    obtain ⟨v, hv, rfl⟩ := he
    rw [hv]
  | name j t =>
    cases hr
    simp only [Term.expr] at he
    by_cases hs : (S.term j).isSome = true
    · rw [if_pos hs] at he
      have ht : S.term j = some t := by
        rcases ho.2 with h | h
        · exact h
        · rw [h] at hs; cases hs
      intro n hn
      exact ih j ho.1 t e ht he n (by have := ho.1; omega)
    · rw [if_neg hs] at he; cases he
  | _ => cases hr

theorem Inv.resolves {zero : V} {H : HState V} {S : Names V} (I : Inv H S) : ∀ (k : Nat) (t : Term V) (e : Expr V),
    S.term k = some t → t.expr S = some e → Res zero H (k + 1) (.obj k) e := by
  intro k
  induction k using Nat.strongRecOn with
  | ind k ih =>
  intro t e ht he m hm
  obtain ⟨n, rfl⟩ : ∃ n, m = n + 1 := ⟨m - 1, by omega⟩
  have hn : k ≤ n := by omega
  obtain ⟨o, ho, hnode⟩ := I.term k t ht
  cases hnode with
  | rvec l mp => cases he; rw [resolve, ho]
  | un f h1 h2 =>
    simp only [Term.expr, Option.map_eq_some_iff] at he
    obtain ⟨e', he', rfl⟩ := he
    rw [resolve, ho]
    simp only [I.operand ih h1 h2 he' n hn]; rfl
  | bin f h1 h2 h3 h4 =>
    simp only [Term.expr, Option.bind_eq_bind, Option.bind_eq_some_iff] at he
    obtain ⟨x, hx, y, hy, hxy⟩ := he
    cases hxy
    exact resolve_bin ho (I.operand ih h1 h3 hx n hn) (I.operand ih h2 h4 hy n hn)
  | sub ind mp h1 h2 =>
    simp only [Term.expr, Option.map_eq_some_iff] at he
    obtain ⟨e', he', rfl⟩ := he
    rw [resolve, ho]
    simp only [I.operand ih h1 h2 he' n hn]; rfl

theorem Inv.stands {zero : V} {H : HState V} {S : Names V} (I : Inv H S) {k : Nat} {e : Expr V}
    (h : S.stands k = some e) : resolve zero H H.next (.obj k) = .ok e := by
  simp only [Names.stands, Option.bind_eq_bind, Option.bind_eq_some_iff] at h
  obtain ⟨t, ht, he⟩ := h
  exact I.resolves k t e ht he _ (I.lt ht)

/-! ## Steps -/

theorem Inv.start (sched : List Bool) : Inv (HState.start sched) (Names.start : Names V) where
  next := rfl
  gone := rfl
  num _ := rfl
  fresh _ _ := rfl
  term _ _ h := by cases h

theorem Inv.hold {H : HState V} {S : Names V} (I : Inv H S) (src : Src V) :
    Inv (H.hold src) (S.step (.hold src)) := by
  by_cases hc : count src = 0
  · have e : H.hold src = H := by
      have : (build src H).2 = H := by cases src <;> first | rfl | (simp [count] at hc)
      simp only [HState.hold, this]
      have : (fun j => if H.next ≤ j ∧ j + 1 < H.next then none else H.obj j) = H.obj := by
        funext j; rw [if_neg (by omega)]
      rw [this]
    rw [e, Names.step, if_pos hc]
    exact I
  · rw [Names.step, if_neg hc]
    have hold_far : ∀ k, H.next + count src ≤ k → (H.hold src).obj k = none := by
      intro k hk
      have : ∀ (src : Src V) (s : HState V), (∀ k, s.next ≤ k → s.obj k = none) →
          ∀ k, s.next + count src ≤ k → (build src s).2.obj k = none := by
        intro src
        induction src with
        | vec x => intro s hs k hk; exact hs k (by simpa [count] using hk)
        | name x => intro s hs k hk; exact hs k (by simpa [count] using hk)
        | var x => intro s hs k hk; exact hs k (by simpa [count] using hk)
        | lit v =>
          intro s hs k hk
          simp only [count] at hk
          simp only [build, new]; rw [if_neg (by omega)]; exact hs k (by omega)
        | rvec l mp =>
          intro s hs k hk
          simp only [count] at hk
          simp only [build, new]; rw [if_neg (by omega)]; exact hs k (by omega)
        | un f e ih =>
          intro s hs k hk
          simp only [count] at hk
          simp only [build, new]; rw [if_neg (by rw [build_next]; omega)]; exact ih s hs k (by omega)
        | sub e ind mp ih =>
          intro s hs k hk
          simp only [count] at hk
          simp only [build, new]; rw [if_neg (by rw [build_next]; omega)]; exact ih s hs k (by omega)
        | bin f l r ihl ihr =>
          intro s hs k hk
          simp only [count] at hk
          simp only [build, new]; rw [if_neg (by rw [build_next, build_next]; omega)]
          exact ihr _ (fun k hk => ihl s hs k (by rw [build_next] at hk; exact hk)) k
            (by rw [build_next]; omega)
      simp only [HState.hold]
      rw [if_neg (by rw [build_next]; omega)]
      exact this src H I.fresh k hk
    refine ⟨?_, ?_, fun k => ?_, fun k hk => ?_, fun k t hk => ?_⟩
    · show S.next + _ = _
      rw [hold_next, I.next]
    · exact I.gone.trans (build_keep src H).2.1.symm
    · show (if _ then _ else _) = _
      rw [I.next]
      by_cases hk : k = H.next + count src - 1
      · rw [if_pos hk]
        have hr := hold_root src H (j := k) (by omega)
        simp only [number, hr]
        cases src with
        | vec x => simp [count] at hc
        | name x => simp [count] at hc
        | var x => simp [count] at hc
        | lit v => simp only [build, new]; rw [if_pos (by simpa [count] using hk)]; rfl
        | rvec l mp => simp only [build, new]; rw [if_pos (by simpa [count] using hk)]; rfl
        | un f e => simp only [build, new]; rw [if_pos (by rw [build_next]; simpa [count] using hk)]; rfl
        | sub e ind mp => simp only [build, new]; rw [if_pos (by rw [build_next]; simpa [count] using hk)]; rfl
        | bin f l r =>
          simp only [build, new]
          rw [if_pos (by rw [build_next, build_next]; simp only [count] at hk; omega)]; rfl
      · rw [if_neg hk, I.num]
        simp only [number]
        by_cases h1 : k < H.next
        · rw [hold_old src H h1]
        · rw [I.fresh k (by omega)]
          by_cases h2 : k + 1 < H.next + count src
          · rw [hold_temps src H (by omega) h2]
          · rw [hold_far k (by omega)]
    · exact hold_far k (by rw [hold_next] at hk; exact hk)
    · change (if _ then _ else _) = _ at hk
      rw [I.next] at hk
      by_cases hk' : k = H.next + count src - 1
      · rw [if_pos hk'] at hk
        have hr := hold_root src H (j := k) (by omega)
        rw [hr]
        have opok : ∀ {e : Src V} {o : Term V}, Spec.operand S e = some o →
            OpOk { S with
              term := fun j => if j = S.next + count src - 1 then declared S src else S.term j
              num := fun j => if j = S.next + count src - 1 then literal src else S.num j
              next := S.next + count src } k o := by
          intro e o h
          cases e with
          | vec x => cases h; trivial
          | var x => cases h; trivial
          | name j =>
            simp only [Spec.operand, Option.map_eq_some_iff] at h
            obtain ⟨t, ht, rfl⟩ := h
            have := I.lt ht
            refine ⟨by omega, .inl ?_⟩
            show (if _ then _ else _) = _
            rw [if_neg (by rw [I.next]; omega), ht]
          | _ => cases h
        cases src with
        | vec x => simp [count] at hc
        | name x => simp [count] at hc
        | var x => simp [count] at hc
        | lit v => cases hk
        | rvec l mp =>
          cases hk
          refine ⟨.rvec l mp, ?_, .rvec l mp⟩
          simp only [build, new]; rw [if_pos (by simpa [count] using hk')]
        | un f e =>
          simp only [declared, Option.map_eq_some_iff] at hk
          obtain ⟨o, ho, rfl⟩ := hk
          refine ⟨.un f (build e H).1, ?_, .un f (build_operand ho H) (opok ho)⟩
          simp only [build, new]; rw [if_pos (by rw [build_next]; simpa [count] using hk')]
        | sub e ind mp =>
          simp only [declared, Option.map_eq_some_iff] at hk
          obtain ⟨o, ho, rfl⟩ := hk
          refine ⟨.sub (build e H).1 ind mp, ?_, .sub ind mp (build_operand ho H) (opok ho)⟩
          simp only [build, new]; rw [if_pos (by rw [build_next]; simpa [count] using hk')]
        | bin f l r =>
          simp only [declared, Option.bind_eq_bind, Option.bind_eq_some_iff] at hk
          obtain ⟨a, ha, b, hb, hab⟩ := hk
          cases hab
          refine ⟨.bin f (build l H).1 (build r (build l H).2).1, ?_,
            .bin f (build_operand ha H) (build_operand hb _) (opok ha) (opok hb)⟩
          simp only [build, new]
          rw [if_pos (by rw [build_next, build_next]; simp only [count] at hk'; omega)]
      · rw [if_neg hk'] at hk
        obtain ⟨o, ho, hn⟩ := I.term k t hk
        have hlt := I.lt hk
        refine ⟨o, by rw [hold_old src H hlt, ho], hn.mono fun j hj => .inl ?_⟩
        show (if _ then _ else _) = _
        rw [if_neg (by rw [I.next]; omega)]

/-- Agreement does not depend on the machine. -/
theorem Inv.mach {H : HState V} {S : Names V} (I : Inv H S) (m : Mach V) : Inv { H with mach := m } S :=
  ⟨I.next, I.gone, I.num, I.fresh, I.term⟩

theorem Inv.cmd {H : HState V} {S : Names V} (I : Inv H S) (m : Mach V) (c : Cmd V) :
    Inv { H with mach := m, gone := fun x => H.gone x || ends x c } (S.step (.cmd c)) := by
  have same : ∀ c : Cmd V, (∀ x, ends x c = false) → S.step (.cmd c) = S →
      Inv { H with mach := m, gone := fun x => H.gone x || ends x c } (S.step (.cmd c)) := by
    intro c h1 h2
    rw [h2]
    refine ⟨I.next, ?_, I.num, I.fresh, I.term⟩
    rw [I.gone]; funext x; simp only [h1, Bool.or_false]
  cases c with
  | destroy y =>
    refine ⟨I.next, ?_, I.num, I.fresh, fun k t hk => ?_⟩
    · show (fun x => S.gone x || x == y) = _
      rw [I.gone]; rfl
    · obtain ⟨o, ho, hn⟩ := I.term k t hk
      exact ⟨o, ho, Node.mono (S := S) (fun j _ => .inl rfl) hn⟩
  | _ => exact same _ (fun _ => rfl) rfl

theorem Inv.setNum {H : HState V} {S : Names V} (I : Inv H S) (k : Nat) (v : V) :
    Inv { H with obj := fun j => if j = k ∧ (H.number k).isSome then some (.num v) else H.obj j }
      (S.step (.setNum k v)) := by
  refine ⟨I.next, I.gone, fun j => ?_, fun j hj => ?_, fun j t hj => ?_⟩
  · show (if _ then _ else _) = _
    rw [I.num k]
    by_cases h : j = k ∧ (H.number k).isSome = true
    · rw [if_pos h]
      exact (number_num (by show (if _ then _ else _) = _; rw [if_pos h])).symm
    · rw [if_neg h, I.num j]
      exact number_congr (by show _ = (if _ then _ else _); rw [if_neg h])
  · have : ¬ (j = k ∧ (H.number k).isSome = true) := by
      rintro ⟨rfl, h⟩
      simp only [number, I.fresh j hj] at h
      cases h
    show (if _ then _ else _) = _
    rw [if_neg this]; exact I.fresh j hj
  · obtain ⟨o, ho, hn⟩ := I.term j t hj
    have : ¬ (j = k ∧ (H.number k).isSome = true) := by
      rintro ⟨rfl, h⟩
      simp only [number, ho] at h
      cases hn <;> cases h
    refine ⟨o, ?_, Node.mono (S := S) (fun j _ => .inl rfl) hn⟩
    show (if _ then _ else _) = _
    rw [if_neg this]; exact ho

theorem Inv.drop {H : HState V} {S : Names V} (I : Inv H S) (k : Nat) :
    Inv { H with obj := fun j => if j = k then none else H.obj j } (S.step (.drop k)) := by
  refine ⟨I.next, I.gone, fun j => ?_, fun j hj => ?_, fun j t hj => ?_⟩
  · show (if _ then _ else _) = _
    simp only [number]
    by_cases h : j = k
    · rw [if_pos h, if_pos h]
    · rw [if_neg h, if_neg h, I.num j]; rfl
  · show (if _ then _ else _) = _
    by_cases h : j = k
    · rw [if_pos h]
    · rw [if_neg h]; exact I.fresh j hj
  · change (if _ then _ else _) = _ at hj
    by_cases h : j = k
    · rw [if_pos h] at hj; cases hj
    · rw [if_neg h] at hj
      obtain ⟨o, ho, hn⟩ := I.term j t hj
      refine ⟨o, ?_, hn.mono fun i _ => ?_⟩
      · show (if _ then _ else _) = _
        rw [if_neg h]; exact ho
      · show (if _ then _ else _) = _ ∨ (if _ then _ else _) = _
        by_cases h' : i = k
        · right; rw [if_pos h']
        · left; rw [if_neg h']

theorem use_apply (zero : V) (conv : V → Out V) (x k : Nat) (H : HState V) :
    exec zero (.use conv x k) H = (match resolve zero H H.next (.obj k) with
      | .ok e => onMach (Mach.assign zero conv x e) H
      | .thr m => (.thr m, H)
      | .ub u => (.ub u, H)) := by
  show assignHeld zero conv x k H = _
  rw [assignHeld, M.bind_ok (M.get_apply H)]
  cases h : resolve zero H H.next (.obj k) with
  | ok e => rw [M.bind_ok (by rw [M.lift_apply])]
  | thr m => rw [M.bind_thr (by rw [M.lift_apply])]
  | ub m => rw [M.bind_ub (by rw [M.lift_apply])]

theorem use_mach (zero : V) (conv : V → Out V) (x k : Nat) (H : HState V) :
    ∃ m, (exec zero (.use conv x k) H).2 = { H with mach := m } := by
  rw [use_apply]
  cases h : resolve zero H H.next (.obj k) with
  | ok e => exact ⟨_, rfl⟩
  | thr m => exact ⟨H.mach, rfl⟩
  | ub m => exact ⟨H.mach, rfl⟩

theorem Inv.step {zero : V} {H H' : HState V} {S : Names V} (I : Inv H S) (c : HCmd V) {o : Out Unit}
    (h : exec zero c H = (o, H')) : Inv H' (S.step c) := by
  have h2 : H' = (exec zero c H).2 := by rw [h]
  cases c with
  | cmd c => rw [h2]; exact I.cmd _ c
  | hold src => rw [h2]; exact I.hold src
  | setNum k v => rw [h2]; exact I.setNum k v
  | drop k => rw [h2]; exact I.drop k
  | use conv x k =>
    obtain ⟨m, hm⟩ := use_mach zero conv x k H
    rw [h2, hm]; exact I.mach m

theorem Inv.run {zero : V} : ∀ (p : List (HCmd V)) (H H' : HState V) (S : Names V), Inv H S →
    runAll zero p H = (none, H') → Inv H' (S.after p)
  | [], H, H', S, I, h => by cases h; exact I
  | c :: p, H, H', S, I, h => by
    rw [runAll] at h
    rcases hm : exec zero c H with ⟨o, H1⟩
    rw [hm] at h
    have I1 := I.step c hm
    cases o with
    | ub k => simp at h
    | ok u => exact Inv.run p H1 H' _ I1 h
    | thr e => exact Inv.run p H1 H' _ I1 h

theorem inlined_run {zero : V} : ∀ (p : List (HCmd V)) (H : HState V) (S : Names V) (cs : List (Cmd V)),
    Inv H S → inlined S p = some cs →
    (runAll zero p H).1 = (Mach.runAll zero cs H.mach).1 ∧
      (runAll zero p H).2.mach = (Mach.runAll zero cs H.mach).2
  | [], H, S, cs, I, h => by cases h; exact ⟨rfl, rfl⟩
  | .cmd c :: p, H, S, cs, I, h => by
    simp only [inlined, Option.bind_eq_bind, Option.bind_eq_some_iff] at h
    obtain ⟨ds, hd, e⟩ := h
    cases e
    have I1 := I.cmd (Mach.exec zero c H.mach).2 c
    rw [runAll, Mach.runAll]
    simp only [exec]
    rcases hm : Mach.exec zero c H.mach with ⟨o, m⟩
    rw [hm] at I1
    cases o with
    | ub k => exact ⟨rfl, rfl⟩
    | ok u => exact inlined_run p _ _ ds I1 hd
    | thr e => exact inlined_run p _ _ ds I1 hd
  | .use conv x k :: p, H, S, cs, I, h => by
    simp only [inlined, Option.bind_eq_bind, Option.bind_eq_some_iff] at h
    obtain ⟨e, he, ds, hd, e'⟩ := h
    cases e'
    rw [runAll, Mach.runAll, use_apply, I.stands he]
    simp only [onMach]
    have : Mach.exec zero (.assign conv x e) H.mach = Mach.assign zero conv x e H.mach := rfl
    rw [this]
    rcases hm : Mach.assign zero conv x e H.mach with ⟨o, m⟩
    cases o with
    | ub k => exact ⟨rfl, rfl⟩
    | ok u => exact inlined_run p _ _ ds (I.mach m) hd
    | thr e => exact inlined_run p _ _ ds (I.mach m) hd
  | .hold src :: p, H, S, cs, I, h => by
    have := inlined_run (zero := zero) p _ _ cs (I.hold src) h
    have e : (H.hold src).mach = H.mach := (build_keep src H).1
    rw [e] at this
    exact this
  | .setNum k v :: p, H, S, cs, I, h => inlined_run p _ _ cs (I.setNum k v) h
  | .drop k :: p, H, S, cs, I, h => inlined_run p _ _ cs (I.drop k) h

/-! ## Names that stand for nothing -/

/-- An access through the reference reaches something that no longer exists. -/
inductive DeadRef (H : HState V) : Ref → Prop
  | vec {x} : H.gone x = true → DeadRef H (.vec x)
  | num {k} : k < H.next → H.number k = none → DeadRef H (.num k)
  | none {k} : k < H.next → H.obj k = none → DeadRef H (.obj k)
  | isNum {k v} : H.obj k = some (.num v) → DeadRef H (.obj k)
  | un {k f a} : H.obj k = some (.un f a) → DeadRef H a → DeadRef H (.obj k)
  | left {k f a b} : H.obj k = some (.bin f a b) → DeadRef H a → DeadRef H (.obj k)
  | right {k f a b} : H.obj k = some (.bin f a b) → DeadRef H b → DeadRef H (.obj k)
  | sub {k a ind mp} : H.obj k = some (.sub a ind mp) → DeadRef H a → DeadRef H (.obj k)

/-- No element of the expression has a value. -/
def NoValue (e : Expr V) : Prop := ∀ env i v, e.el env i ≠ .ok v

/-- Resolving fails, or gives an expression none of whose elements has a value. -/
def Broken (o : Out (Expr V)) : Prop := (∃ u, o = .ub u) ∨ ∃ e, o = .ok e ∧ NoValue e

theorem resolve_num (zero : V) (H : HState V) (n i : Nat) : resolve zero H n (.num i) = (match H.number i with
      | some v => .ok (.scal v) | Option.none => .ub .useAfterFree) := by cases n <;> rfl

theorem resolve_cases (zero : V) (H : HState V) : ∀ (n : Nat) (r : Ref),
    (∃ u, resolve zero H n r = .ub u) ∨ ∃ e, resolve zero H n r = .ok e := by
  intro n
  induction n with
  | zero =>
    intro r
    cases r with
    | vec x => rw [resolve]; split <;> simp
    | num k => rw [resolve_num]; cases H.number k <;> simp
    | obj k => rw [resolve]; simp
  | succ n ih =>
    intro r
    cases r with
    | vec x => rw [resolve]; split <;> simp
    | num k => rw [resolve_num]; cases H.number k <;> simp
    | obj k =>
      rw [resolve]
      cases ho : H.obj k with
      | none => simp
      | some o =>
        cases o with
        | num v => simp
        | rvec l mp => simp
        | un f a => rcases ih a with ⟨u, h⟩ | ⟨e, h⟩ <;> simp only [h] <;> [left; right] <;> exact ⟨_, rfl⟩
        | sub a ind mp => rcases ih a with ⟨u, h⟩ | ⟨e, h⟩ <;> simp only [h] <;> [left; right] <;> exact ⟨_, rfl⟩
        | bin f a b =>
          cases a with
          | num i =>
            rcases ih b with ⟨u, h⟩ | ⟨e, h⟩
            · simp only [h]; exact .inl ⟨_, rfl⟩
            · simp only [h]; cases H.number i <;> exact .inr ⟨_, rfl⟩
          | vec i =>
            rcases ih (.vec i) with ⟨u, h⟩ | ⟨e, h⟩ <;> cases b with
            | num j =>
              simp only [h]
              first | exact .inl ⟨_, rfl⟩ | (cases H.number j <;> exact .inr ⟨_, rfl⟩)
            | vec j =>
              simp only [h]
              first
              | exact .inl ⟨_, rfl⟩
              | (rcases ih (.vec j) with ⟨u, h'⟩ | ⟨e, h'⟩ <;> simp only [h'] <;> [left; right] <;> exact ⟨_, rfl⟩)
            | obj j =>
              simp only [h]
              first
              | exact .inl ⟨_, rfl⟩
              | (rcases ih (.obj j) with ⟨u, h'⟩ | ⟨e, h'⟩ <;> simp only [h'] <;> [left; right] <;> exact ⟨_, rfl⟩)
          | obj i =>
            rcases ih (.obj i) with ⟨u, h⟩ | ⟨e, h⟩ <;> cases b with
            | num j =>
              simp only [h]
              first | exact .inl ⟨_, rfl⟩ | (cases H.number j <;> exact .inr ⟨_, rfl⟩)
            | vec j =>
              simp only [h]
              first
              | exact .inl ⟨_, rfl⟩
              | (rcases ih (.vec j) with ⟨u, h'⟩ | ⟨e, h'⟩ <;> simp only [h'] <;> [left; right] <;> exact ⟨_, rfl⟩)
            | obj j =>
              simp only [h]
              first
              | exact .inl ⟨_, rfl⟩
              | (rcases ih (.obj j) with ⟨u, h'⟩ | ⟨e, h'⟩ <;> simp only [h'] <;> [left; right] <;> exact ⟨_, rfl⟩)

/-- A binary operation that resolves at all either has two operands that resolve or reads a number that
is gone in every element. -/
theorem resolve_bin_inv {zero : V} {H : HState V} {n k : Nat} {f : V → V → Out V} {a b : Ref} {e : Expr V}
    (h : H.obj k = some (.bin f a b)) (he : resolve zero H (n + 1) (.obj k) = .ok e) :
    (∃ x y, e = .bin f x y ∧ resolve zero H n a = .ok x ∧ resolve zero H n b = .ok y) ∨
      ∃ x y, e = .bin (fun _ _ => .ub .useAfterFree) x y := by
  rw [resolve, h] at he
  cases a with
  | num i =>
    rcases resolve_cases zero H n b with ⟨u, hb⟩ | ⟨y, hb⟩
    · simp only [hb] at he; cases he
    · simp only [hb] at he
      rw [resolve_num]
      cases hn : H.number i with
      | none => simp only [hn] at he; cases he; exact .inr ⟨_, _, rfl⟩
      | some v => simp only [hn] at he; cases he; exact .inl ⟨_, _, rfl, rfl, hb⟩
  | vec i =>
    rcases resolve_cases zero H n (.vec i) with ⟨u, ha⟩ | ⟨x, ha⟩
    · cases b <;> (simp only [ha] at he; cases he)
    · cases b with
      | num j =>
        simp only [ha] at he
        cases hn : H.number j with
        | none => simp only [hn] at he; cases he; exact .inr ⟨_, _, rfl⟩
        | some v =>
          simp only [hn] at he; cases he
          exact .inl ⟨_, _, rfl, ha, by rw [resolve_num, hn]⟩
      | vec j =>
        rcases resolve_cases zero H n (.vec j) with ⟨u, hb⟩ | ⟨y, hb⟩
        · simp only [ha, hb] at he; cases he
        · simp only [ha, hb] at he; cases he; exact .inl ⟨_, _, rfl, ha, hb⟩
      | obj j =>
        rcases resolve_cases zero H n (.obj j) with ⟨u, hb⟩ | ⟨y, hb⟩
        · simp only [ha, hb] at he; cases he
        · simp only [ha, hb] at he; cases he; exact .inl ⟨_, _, rfl, ha, hb⟩
  | obj i =>
    rcases resolve_cases zero H n (.obj i) with ⟨u, ha⟩ | ⟨x, ha⟩
    · cases b <;> (simp only [ha] at he; cases he)
    · cases b with
      | num j =>
        simp only [ha] at he
        cases hn : H.number j with
        | none => simp only [hn] at he; cases he; exact .inr ⟨_, _, rfl⟩
        | some v =>
          simp only [hn] at he; cases he
          exact .inl ⟨_, _, rfl, ha, by rw [resolve_num, hn]⟩
      | vec j =>
        rcases resolve_cases zero H n (.vec j) with ⟨u, hb⟩ | ⟨y, hb⟩
        · simp only [ha, hb] at he; cases he
        · simp only [ha, hb] at he; cases he; exact .inl ⟨_, _, rfl, ha, hb⟩
      | obj j =>
        rcases resolve_cases zero H n (.obj j) with ⟨u, hb⟩ | ⟨y, hb⟩
        · simp only [ha, hb] at he; cases he
        · simp only [ha, hb] at he; cases he; exact .inl ⟨_, _, rfl, ha, hb⟩

theorem el_un_ok {env : Env V} {f : V → Out V} {e : Expr V} {i : Nat} {v : V}
    (h : (Expr.un f e).el env i = .ok v) : ∃ k w, e.el env k = .ok w := by
  simp only [Expr.el, Out.bind_eq_ok] at h
  obtain ⟨k, _, w, hw, _⟩ := h
  exact ⟨k, w, hw⟩

theorem el_sub_ok {env : Env V} {e : Expr V} {ind : List Nat} {mp : MP} {i : Nat} {v : V}
    (h : (Expr.sub e ind mp).el env i = .ok v) : ∃ k w, e.el env k = .ok w := by
  simp only [Expr.el, Out.bind_eq_ok] at h
  obtain ⟨k, _, j, _, hw⟩ := h
  exact ⟨j, v, hw⟩

theorem el_bin_ok {env : Env V} {f : V → V → Out V} {l r : Expr V} {i : Nat} {v : V}
    (h : (Expr.bin f l r).el env i = .ok v) :
    ∃ j k a b, l.el env j = .ok a ∧ r.el env k = .ok b ∧ f a b = .ok v := by
  simp only [Expr.el, Out.bind_eq_ok] at h
  obtain ⟨j, _, a, ha, k, _, b, hb, hf⟩ := h
  exact ⟨j, k, a, b, ha, hb, hf⟩

theorem DeadRef.broken {zero : V} {H : HState V} {r : Ref} (h : DeadRef H r) :
    ∀ n, Broken (resolve zero H n r) := by
  have zeroObj : ∀ k, Broken (resolve zero H 0 (.obj k)) := fun k => .inl ⟨.useAfterFree, rfl⟩
  induction h with
  | vec h => intro n; left; exact ⟨.useAfterFree, by cases n <;> (rw [resolve, if_pos h])⟩
  | num _ h => intro n; left; exact ⟨.useAfterFree, by rw [resolve_num, h]⟩
  | none _ h =>
    intro n
    cases n with
    | zero => exact zeroObj _
    | succ n => left; exact ⟨.useAfterFree, by rw [resolve, h]⟩
  | isNum h =>
    intro n
    cases n with
    | zero => exact zeroObj _
    | succ n => left; exact ⟨.useAfterFree, by rw [resolve, h]⟩
  | un h _ ih =>
    intro n
    cases n with
    | zero => exact zeroObj _
    | succ n =>
      rw [resolve, h]
      rcases ih n with ⟨u, hu⟩ | ⟨e, he, hb⟩
      · simp only [hu]; exact .inl ⟨_, rfl⟩
      · simp only [he]
        refine .inr ⟨_, rfl, fun env i v hv => ?_⟩
        obtain ⟨k, w, hw⟩ := el_un_ok hv
        exact hb env k w hw
  | sub h _ ih =>
    intro n
    cases n with
    | zero => exact zeroObj _
    | succ n =>
      rw [resolve, h]
      rcases ih n with ⟨u, hu⟩ | ⟨e, he, hb⟩
      · simp only [hu]; exact .inl ⟨_, rfl⟩
      · simp only [he]
        refine .inr ⟨_, rfl, fun env i v hv => ?_⟩
        obtain ⟨k, w, hw⟩ := el_sub_ok hv
        exact hb env k w hw
  | left h _ ih =>
    intro n
    cases n with
    | zero => exact zeroObj _
    | succ n =>
      rcases resolve_cases zero H (n + 1) _ with hu | ⟨e, he⟩
      · exact .inl hu
      · refine .inr ⟨e, he, fun env i v hv => ?_⟩
        rcases resolve_bin_inv h he with ⟨x, y, rfl, hx, hy⟩ | ⟨x, y, rfl⟩
        · obtain ⟨j, k, a, b, ha, hb, _⟩ := el_bin_ok hv
          rcases ih n with ⟨u, hu⟩ | ⟨e, he', hbad⟩
          · rw [hx] at hu; cases hu
          · rw [hx] at he'; cases he'; exact hbad env j a ha
        · obtain ⟨j, k, a, b, _, _, hf⟩ := el_bin_ok hv
          cases hf
  | right h _ ih =>
    intro n
    cases n with
    | zero => exact zeroObj _
    | succ n =>
      rcases resolve_cases zero H (n + 1) _ with hu | ⟨e, he⟩
      · exact .inl hu
      · refine .inr ⟨e, he, fun env i v hv => ?_⟩
        rcases resolve_bin_inv h he with ⟨x, y, rfl, hx, hy⟩ | ⟨x, y, rfl⟩
        · obtain ⟨j, k, a, b, ha, hb, _⟩ := el_bin_ok hv
          rcases ih n with ⟨u, hu⟩ | ⟨e, he', hbad⟩
          · rw [hy] at hu; cases hu
          · rw [hy] at he'; cases he'; exact hbad env k b hb
        · obtain ⟨j, k, a, b, _, _, hf⟩ := el_bin_ok hv
          cases hf

/-- What is dead stays dead. -/
theorem DeadRef.mono {H H' : HState V} (hn : H.next ≤ H'.next) (hg : ∀ x, H.gone x = true → H'.gone x = true)
    (ho : ∀ k, k < H.next → H'.obj k = H.obj k ∨ H'.obj k = Option.none ∨
      ∃ v w, H.obj k = some (.num v) ∧ H'.obj k = some (.num w))
    (hf : ∀ k, H.next ≤ k → H.obj k = Option.none) {r : Ref} (h : DeadRef H r) : DeadRef H' r := by
  have lt : ∀ {k : Nat} {o : Obj V}, H.obj k = some o → k < H.next := by
    intro k o h
    by_contra hk
    rw [hf k (by omega)] at h; cases h
  induction h with
  | vec h => exact .vec (hg _ h)
  | num hk h =>
    refine .num (by omega) ?_
    rename_i k
    rcases ho k hk with e | e | ⟨v, w, e, _⟩
    · rw [number_congr e, h]
    · simp only [number, e]
    · rw [number_num e] at h; cases h
  | none hk h =>
    refine .none (by omega) ?_
    rename_i k
    rcases ho k hk with e | e | ⟨v, w, e, _⟩
    · rw [e, h]
    · exact e
    · rw [h] at e; cases e
  | isNum h =>
    rcases ho _ (lt h) with e | e | ⟨v, w, e, e'⟩
    · exact .isNum (e.trans h)
    · exact .none (by have := lt h; omega) e
    · exact .isNum e'
  | un h _ ih =>
    rcases ho _ (lt h) with e | e | ⟨v, w, e, e'⟩
    · exact .un (e.trans h) ih
    · exact .none (by have := lt h; omega) e
    · exact .isNum e'
  | left h _ ih =>
    rcases ho _ (lt h) with e | e | ⟨v, w, e, e'⟩
    · exact .left (e.trans h) ih
    · exact .none (by have := lt h; omega) e
    · exact .isNum e'
  | right h _ ih =>
    rcases ho _ (lt h) with e | e | ⟨v, w, e, e'⟩
    · exact .right (e.trans h) ih
    · exact .none (by have := lt h; omega) e
    · exact .isNum e'
  | sub h _ ih =>
    rcases ho _ (lt h) with e | e | ⟨v, w, e, e'⟩
    · exact .sub (e.trans h) ih
    · exact .none (by have := lt h; omega) e
    · exact .isNum e'

/-- The number variables among the operands are declared. -/
def VarOk (n : Nat) : Term V → Prop
  | .var i => i < n
  | .un _ t | .sub t _ _ => VarOk n t
  | .bin _ t u => VarOk n t ∧ VarOk n u
  | _ => True

theorem VarOk.mono {n m : Nat} (h : n ≤ m) : ∀ {t : Term V}, VarOk n t → VarOk m t
  | .vec _, _ | .name _ _, _ | .rvec _ _, _ => trivial
  | .var i, hv => Nat.lt_of_lt_of_le (show i < n from hv) h
  | .un _ t, hv => VarOk.mono (t := t) h hv
  | .sub t _ _, hv => VarOk.mono (t := t) h hv
  | .bin _ t u, hv => ⟨VarOk.mono (t := t) h hv.1, VarOk.mono (t := u) h hv.2⟩

/-- Agreement in both directions: names without a meaning lead to something that no longer exists. -/
structure Inv2 (H : HState V) (S : Names V) : Prop extends Inv H S where
  vars : ∀ k t, S.term k = some t → VarOk H.next t
  dead : ∀ k, k < H.next → S.term k = none → DeadRef H (.obj k)

theorem Inv2.deadOperand {H : HState V} {S : Names V} (I : Inv2 H S) {k : Nat}
    (ih : ∀ j, j < k → ∀ t, S.term j = some t → t.expr S = none → DeadRef H (.obj j)) (hk : k ≤ H.next)
    {t : Term V} {a : Ref} (hr : refOf t = some a) (ho : OpOk S k t) (hv : VarOk H.next t)
    (he : t.expr S = none) : DeadRef H a := by
  cases t with
  | vec x =>
    cases hr
    simp only [Term.expr] at he
    by_cases hg : S.gone x = true
    · exact .vec (by rw [← I.gone]; exact hg)
    · rw [if_neg hg] at he; cases he
  | var i =>
    cases hr
    simp only [Term.expr, Option.map_eq_none_iff] at he
    exact .num hv (by rw [← I.num]; exact he)
  | name j t =>
    cases hr
    rcases ho.2 with h | h
    · simp only [Term.expr, h, Option.isSome_some, if_true] at he
      exact ih j ho.1 t h he
    · exact I.dead j (by have := ho.1; omega) h
  | _ => cases hr

theorem Inv2.deadTerm {H : HState V} {S : Names V} (I : Inv2 H S) : ∀ (k : Nat) (t : Term V),
    S.term k = some t → t.expr S = none → DeadRef H (.obj k) := by
  intro k
  induction k using Nat.strongRecOn with
  | ind k ih =>
  intro t ht he
  obtain ⟨o, ho, hnode⟩ := I.term k t ht
  have hk : k ≤ H.next := Nat.le_of_lt (I.lt ht)
  have hv := I.vars k t ht
  cases hnode with
  | rvec l mp => cases he
  | un f h1 h2 =>
    simp only [Term.expr, Option.map_eq_none_iff] at he
    exact .un ho (I.deadOperand ih hk h1 h2 hv he)
  | sub ind mp h1 h2 =>
    simp only [Term.expr, Option.map_eq_none_iff] at he
    exact .sub ho (I.deadOperand ih hk h1 h2 hv he)
  | bin f h1 h2 h3 h4 =>
    rename_i t u a b
    cases hx : t.expr S with
    | none => exact .left ho (I.deadOperand ih hk h1 h3 hv.1 hx)
    | some x =>
      cases hy : u.expr S with
      | none => exact .right ho (I.deadOperand ih hk h2 h4 hv.2 hy)
      | some y => simp [Term.expr, hx, hy] at he

theorem Inv2.stands {H : HState V} {S : Names V} (I : Inv2 H S) {k : Nat} (hk : k < H.next)
    (h : S.stands k = none) : DeadRef H (.obj k) := by
  simp only [Names.stands, Option.bind_eq_bind, Option.bind_eq_none_iff] at h
  cases ht : S.term k with
  | none => exact I.dead k hk ht
  | some t => exact I.deadTerm k t ht (h t ht)

theorem operand_var {S : Names V} {e : Src V} {o : Term V} (h : operand S e = some o) {n : Nat}
    (hs : Scoped n e) : VarOk n o := by
  cases e with
  | vec x => cases h; trivial
  | var i => cases h; exact hs
  | name k =>
    simp only [operand, Option.map_eq_some_iff] at h
    obtain ⟨t, _, rfl⟩ := h
    trivial
  | _ => cases h

/-- An operand without a meaning is dead after the declaration. -/
theorem Inv2.temp {H H' : HState V} {S : Names V} (I : Inv2 H S) {s : HState V} {e : Src V}
    (h : operand S e = none) (hs : Scoped H.next e) (hle : H.next ≤ s.next)
    (hdead : ∀ r, DeadRef H r → DeadRef H' r)
    (hkill : ∀ j, H.next ≤ j → j < s.next + count e → H'.obj j = none)
    (hn : s.next + count e ≤ H'.next) : DeadRef H' (build e s).1 := by
  cases e with
  | vec x => cases h
  | var i => cases h
  | name k =>
    simp only [operand, Option.map_eq_none_iff] at h
    exact hdead _ (I.dead k hs h)
  | lit v =>
    simp only [count] at hkill hn
    exact .num (k := s.next) (by omega) (by simp only [number, hkill s.next hle (by omega)])
  | rvec l mp =>
    simp only [count] at hkill hn
    exact .none (k := s.next) (by omega) (hkill s.next hle (by omega))
  | un f e =>
    simp only [count] at hkill hn
    exact .none (k := (build e s).2.next) (by rw [build_next]; omega)
      (hkill _ (by rw [build_next]; omega) (by rw [build_next]; omega))
  | sub e ind mp =>
    simp only [count] at hkill hn
    exact .none (k := (build e s).2.next) (by rw [build_next]; omega)
      (hkill _ (by rw [build_next]; omega) (by rw [build_next]; omega))
  | bin f l r =>
    simp only [count] at hkill hn
    exact .none (k := (build r (build l s).2).2.next) (by rw [build_next, build_next]; omega)
      (hkill _ (by rw [build_next, build_next]; omega) (by rw [build_next, build_next]; omega))

theorem Inv2.hold {H : HState V} {S : Names V} (I : Inv2 H S) {src : Src V} (hs : Scoped H.next src) :
    Inv2 (H.hold src) (S.step (.hold src)) := by
  have I1 := I.toInv.hold src
  by_cases hc : count src = 0
  · have e : (H.hold src) = H := by
      have : (build src H).2 = H := by cases src <;> first | rfl | (simp [count] at hc)
      simp only [HState.hold, this]
      have : (fun j => if H.next ≤ j ∧ j + 1 < H.next then none else H.obj j) = H.obj := by
        funext j; rw [if_neg (by omega)]
      rw [this]
    rw [e, Names.step, if_pos hc]
    exact I
  · have hmono : ∀ r, DeadRef H r → DeadRef (H.hold src) r := by
      intro r hr
      refine hr.mono (by rw [hold_next]; omega) ?_ (fun k hk => .inl (hold_old src H hk)) I.fresh
      intro x hx
      have : (H.hold src).gone = H.gone := (build_keep src H).2.1
      rw [this]; exact hx
    have hkill : ∀ j, H.next ≤ j → j + 1 < H.next + count src → (H.hold src).obj j = none :=
      fun j h1 h2 => hold_temps src H h1 h2
    have hnx := hold_next src H
    refine ⟨I1, fun k t hk => ?_, fun k hk ht => ?_⟩
    · rw [Names.step, if_neg hc] at hk
      change (if _ then _ else _) = _ at hk
      by_cases hk' : k = S.next + count src - 1
      · rw [if_pos hk'] at hk
        refine VarOk.mono (n := H.next) (by rw [hnx]; omega) ?_
        cases src with
        | un f e =>
          simp only [declared, Option.map_eq_some_iff] at hk
          obtain ⟨o, ho, rfl⟩ := hk
          exact operand_var ho hs
        | sub e ind mp =>
          simp only [declared, Option.map_eq_some_iff] at hk
          obtain ⟨o, ho, rfl⟩ := hk
          exact operand_var ho hs
        | bin f l r =>
          simp only [declared, Option.bind_eq_bind, Option.bind_eq_some_iff] at hk
          obtain ⟨a, ha, b, hb, hab⟩ := hk
          cases hab
          exact ⟨operand_var ha hs.1, operand_var hb hs.2⟩
        | rvec l mp => cases hk; trivial
        | _ => cases hk
      · rw [if_neg hk'] at hk
        exact VarOk.mono (by rw [hnx]; omega) (I.vars k t hk)
    · rw [Names.step, if_neg hc] at ht
      change (if _ then _ else _) = _ at ht
      rw [hnx] at hk
      rw [I.next] at ht
      by_cases h1 : k < H.next
      · rw [if_neg (by omega)] at ht
        exact hmono _ (I.dead k h1 ht)
      · by_cases h2 : k + 1 < H.next + count src
        · exact .none (by rw [hnx]; omega) (hkill k (by omega) h2)
        · have hk' : k = H.next + count src - 1 := by omega
          rw [if_pos hk'] at ht
          have hr := hold_root src H (j := k) (by omega)
          cases src with
          | vec x => simp [count] at hc
          | name x => simp [count] at hc
          | var x => simp [count] at hc
          | lit v =>
            refine .isNum (v := v) ?_
            rw [hr]; simp only [build, new]; rw [if_pos (by simpa [count] using hk')]
          | rvec l mp => cases ht
          | un f e =>
            simp only [declared, Option.map_eq_none_iff] at ht
            simp only [count] at hkill hnx hk'
            refine .un (f := f) (a := (build e H).1) ?_ (I.temp ht hs (by omega) hmono
              (fun j h1 h2 => hkill j h1 (by omega)) (by rw [hnx]; omega))
            rw [hr]; simp only [build, new]; rw [if_pos (by rw [build_next]; omega)]
          | sub e ind mp =>
            simp only [declared, Option.map_eq_none_iff] at ht
            simp only [count] at hkill hnx hk'
            refine .sub (a := (build e H).1) (ind := ind) (mp := mp) ?_ (I.temp ht hs (by omega) hmono
              (fun j h1 h2 => hkill j h1 (by omega)) (by rw [hnx]; omega))
            rw [hr]; simp only [build, new]; rw [if_pos (by rw [build_next]; omega)]
          | bin f l r =>
            simp only [count] at hkill hnx hk'
            have hobj : (H.hold (.bin f l r)).obj k = some (.bin f (build l H).1 (build r (build l H).2).1) := by
              rw [hr]; simp only [build, new]; rw [if_pos (by rw [build_next, build_next]; omega)]
            cases ha : operand S l with
            | none =>
              exact .left hobj (I.temp ha hs.1 (by omega) hmono
                (fun j h1 h2 => hkill j h1 (by omega)) (by rw [hnx]; omega))
            | some a =>
              cases hb : operand S r with
              | none =>
                exact .right hobj (I.temp hb hs.2 (by rw [build_next]; omega) hmono
                  (fun j h1 h2 => hkill j h1 (by rw [build_next] at h2; omega))
                  (by rw [build_next, hnx]; omega))
              | some b => simp [declared, ha, hb] at ht

theorem Inv2.step {zero : V} {H H' : HState V} {S : Names V} (I : Inv2 H S) {c : HCmd V}
    (hs : ScopedCmd S.next c) {o : Out Unit} (h : exec zero c H = (o, H')) : Inv2 H' (S.step c) := by
  have I1 := I.toInv.step c h
  have h2 : H' = (exec zero c H).2 := by rw [h]
  cases c with
  | hold src => rw [h2]; exact I.hold (by rw [← I.next]; exact hs)
  | cmd c =>
    have e : (S.step (.cmd c)).term = S.term := by cases c <;> rfl
    refine ⟨I1, fun k t hk => ?_, fun k hk ht => ?_⟩
    · rw [e] at hk; rw [h2]; exact I.vars k t hk
    · rw [e] at ht; rw [h2] at hk ⊢
      refine DeadRef.mono (H := H) ?_ (fun x hx => ?_) (fun j _ => ?_) I.fresh (I.dead k hk ht)
      · exact Nat.le_refl H.next
      · show (H.gone x || _) = true
        rw [hx]; rfl
      · exact .inl rfl
  | setNum i v =>
    refine ⟨I1, fun k t hk => ?_, fun k hk ht => ?_⟩
    · rw [h2]; exact I.vars k t hk
    · rw [h2] at hk ⊢
      refine DeadRef.mono (H := H) (H' := (exec zero (.setNum i v) H).2) (Nat.le_refl H.next)
        (fun x hx => hx) (fun j _ => ?_) I.fresh (I.dead k hk ht)
      show (if _ then _ else _) = _ ∨ (if _ then _ else _) = _ ∨ _
      by_cases hj : j = i ∧ (H.number i).isSome = true
      · right; right
        obtain ⟨rfl, hv⟩ := hj
        obtain ⟨w, hw⟩ := Option.isSome_iff_exists.mp hv
        refine ⟨w, v, ?_, ?_⟩
        · unfold number at hw
          split at hw
          · rename_i u hu; cases hw; exact hu
          · cases hw
        · show (if _ then _ else _) = _
          rw [if_pos ⟨rfl, hv⟩]
      · left; rw [if_neg hj]
  | drop i =>
    refine ⟨I1, fun k t hk => ?_, fun k hk ht => ?_⟩
    · change (if _ then _ else _) = _ at hk
      rw [h2]
      by_cases hki : k = i
      · rw [if_pos hki] at hk; cases hk
      · rw [if_neg hki] at hk; exact I.vars k t hk
    · change (if _ then _ else _) = _ at ht
      rw [h2] at hk ⊢
      by_cases hki : k = i
      · exact .none hk (by show (if _ then _ else _) = _; rw [if_pos hki])
      · rw [if_neg hki] at ht
        refine DeadRef.mono (H := H) (H' := (exec zero (.drop i) H).2) (Nat.le_refl H.next)
          (fun x hx => hx) (fun j _ => ?_) I.fresh (I.dead k hk ht)
        show (if _ then _ else _) = _ ∨ (if _ then _ else _) = _ ∨ _
        by_cases hj : j = i
        · right; left; rw [if_pos hj]
        · left; rw [if_neg hj]
  | use conv x i =>
    obtain ⟨m, hm⟩ := use_mach zero conv x i H
    refine ⟨I1, fun k t hk => ?_, fun k hk ht => ?_⟩
    · rw [h2, hm]; exact I.vars k t hk
    · rw [h2, hm] at hk ⊢
      exact DeadRef.mono (H := H) (H' := { H with mach := m }) (Nat.le_refl H.next) (fun x hx => hx)
        (fun j _ => .inl rfl) I.fresh (I.dead k hk ht)

theorem Inv2.run {zero : V} : ∀ (p : List (HCmd V)) (H H' : HState V) (S : Names V), Inv2 H S →
    ScopedAll S p → runAll zero p H = (none, H') → Inv2 H' (S.after p)
  | [], H, H', S, I, _, h => by cases h; exact I
  | c :: p, H, H', S, I, hs, h => by
    rw [runAll] at h
    rcases hm : exec zero c H with ⟨o, H1⟩
    rw [hm] at h
    have I1 := I.step hs.1 hm
    cases o with
    | ub k => simp at h
    | ok u => exact Inv2.run p H1 H' _ I1 hs.2 h
    | thr e => exact Inv2.run p H1 H' _ I1 hs.2 h

theorem Inv2.start (sched : List Bool) : Inv2 (HState.start sched) (Names.start : Names V) where
  toInv := Inv.start sched
  vars _ _ h := by cases h
  dead _ h _ := by cases h

/-! ## Using a name that stands for nothing -/

theorem bindOk {σ α β : Type} {m : M σ α} {f : α → M σ β} {s s' : σ} {b : β}
    (h : (m >>= f) s = (.ok b, s')) : ∃ a s1, m s = (.ok a, s1) ∧ f a s1 = (.ok b, s') := by
  rcases hm : m s with ⟨o, s1⟩
  cases o with
  | ok a => rw [M.bind_ok hm] at h; exact ⟨a, s1, rfl, h⟩
  | thr e => rw [M.bind_thr hm] at h; cases h
  | ub k => rw [M.bind_ub hm] at h; cases h

theorem forN_first {σ : Type} {f : Nat → M σ Unit} (hf : ∀ i s s', f i s ≠ (.ok (), s')) :
    ∀ {n : Nat} {s s' : σ}, 0 < n → M.forN n f s ≠ (.ok (), s')
  | 0, _, _, h, _ => by omega
  | n + 1, s, s', _, e => by
    rw [M.forN_succ] at e
    obtain ⟨_, s1, _, e2⟩ := bindOk e
    exact hf n s1 s' e2

theorem fillTemp_fails {zero : V} {conv : V → Out V} {t : Nat} {e : Expr V} (hb : NoValue e)
    {s s' : Mach V} : Mach.fillTemp zero conv t e s ≠ (.ok (), s') := by
  intro h
  rw [Mach.fillTemp, M.bind_ok (M.get_apply s)] at h
  obtain ⟨_, s1, e1, e2⟩ := bindOk h
  by_cases h0 : 0 < e.size s.env
  · refine forN_first (fun i s s' h => ?_) h0 e2
    obtain ⟨v, s2, e3, _⟩ := bindOk h
    rw [M.reads_apply] at e3
    exact hb s.env i v (by rw [← (Prod.mk.inj e3).1])
  · have hz : e.size s.env = 0 := by omega
    rw [hz] at e1
    simp only [Mach.onSlot, Store.resize] at e1
    rw [M.bind_thr (e := "Size has to be larger than 0") (s' := (s.heap, s.st (t, true))) (by rfl)] at e1
    cases (Prod.mk.inj e1).1

theorem assign_fails {zero : V} {conv : V → Out V} {x : Nat} {e : Expr V} (hb : NoValue e)
    {s s' : Mach V} : Mach.assign zero conv x e s ≠ (.ok (), s') := by
  intro h
  rw [Mach.assign, M.bind_ok (M.get_apply s)] at h
  split at h
  · rw [Mach.assignBorrow, M.bind_ok (M.get_apply s)] at h
    obtain ⟨_, s1, _, e2⟩ := bindOk h
    obtain ⟨_, s2, e3, _⟩ := bindOk e2
    exact fillTemp_fails hb e3
  · rw [Mach.assignBuffer] at h
    obtain ⟨_, s1, e1, _⟩ := bindOk h
    exact fillTemp_fails hb e1

theorem use_fails {zero : V} {H H' : HState V} {k : Nat} (hd : DeadRef H (.obj k)) (conv : V → Out V) (x : Nat) :
    exec zero (.use conv x k) H ≠ (.ok (), H') := by
  intro h
  rw [use_apply] at h
  rcases hd.broken (zero := zero) H.next with ⟨u, hu⟩ | ⟨e, he, hb⟩
  · rw [hu] at h; cases h
  · rw [he] at h
    simp only [onMach] at h
    rcases hm : Mach.assign zero conv x e H.mach with ⟨o, m⟩
    rw [hm] at h
    cases o with
    | ok u => exact assign_fails hb hm
    | thr m => cases h
    | ub m => cases h

/-! ## C89 -/

/-- A name is an abbreviation: a program with held expressions does exactly what the program does in
which every use is replaced by the text that the name stands for, with the values of that moment (same
results, same exceptions, same undefined behaviour, same memory). -/
theorem C89_partial (zero : V) (sched : List Bool) (p : List (HCmd V)) (cs : List (Cmd V))
    (h : inlined Names.start p = some cs) :
    (runAll zero p (HState.start sched)).1 = (Mach.runAll zero cs (Mach.start sched)).1 ∧
      (runAll zero p (HState.start sched)).2.mach = (Mach.runAll zero cs (Mach.start sched)).2 :=
  inlined_run p _ _ cs (Inv.start sched) h

theorem runAll_runOk {zero : V} : ∀ {cs : List (Cmd V)} {s s' : Mach V},
    Mach.runOk zero cs s = (.ok (), s') → Mach.runAll zero cs s = (none, s')
  | [], s, s', h => by cases h; rfl
  | c :: cs, s, s', h => by
    rw [Mach.runOk] at h
    obtain ⟨u, s1, e1, e2⟩ := bindOk h
    rw [Mach.runAll, e1]
    exact runAll_runOk e2

/-- If the program without held expressions has a meaning in lists (C18), the program with held
expressions ends normally and all vectors show these lists. -/
theorem C89_lists_partial (zero : V) (p : List (HCmd V)) (cs : List (Cmd V)) (P : PState V)
    (h : inlined Names.start p = some cs) (hr : Spec.run zero cs (PState.caller []) = some P) :
    ∃ H, runAll zero p HState.start = (none, H) ∧ ∀ x l, P.lists x = some l → Mach.ShowsVar H.mach x l := by
  obtain ⟨s, e, hs, _⟩ := Mach.C18_program_agreement_partial zero [] cs P hr
  have e' := runAll_runOk e
  obtain ⟨h1, h2⟩ := C89_partial zero [] p cs h
  rw [List.map_nil, List.nil_append] at e'
  rw [e'] at h1 h2
  refine ⟨(runAll zero p HState.start).2, Prod.ext h1 rfl, fun x l hl => ?_⟩
  have h2' : (runAll zero p HState.start).2.mach = s := h2
  rw [h2']
  exact hs x l hl

/-- What a use does in any state that a program can reach: if the name stands for an expression, it is
the assignment of this expression; otherwise it never ends normally. -/
theorem C89_characterised (zero : V) (sched : List Bool) (p : List (HCmd V)) (H : HState V)
    (hs : ScopedAll Names.start p) (h : runAll zero p (HState.start sched) = (none, H))
    (conv : V → Out V) (x k : Nat) (hk : k < (Names.start.after p).next) :
    (∀ e, (Names.start.after p).stands k = some e →
      (exec zero (.use conv x k) H).1 = (Mach.exec zero (.assign conv x e) H.mach).1 ∧
      (exec zero (.use conv x k) H).2.mach = (Mach.exec zero (.assign conv x e) H.mach).2) ∧
    ((Names.start.after p).stands k = none → ∀ H', exec zero (.use conv x k) H ≠ (.ok (), H')) := by
  have I := Inv2.run p _ _ _ (Inv2.start sched) hs h
  refine ⟨fun e he => ?_, fun hn H' => ?_⟩
  · rw [use_apply, I.toInv.stands he]; exact ⟨rfl, rfl⟩
  · exact use_fails (I.stands (by rw [← I.next]; exact hk) hn) conv x

theorem declared_temporary (S : Names V) {src : Src V} (h : onTemporary src = true) : declared S src = none := by
  have op : ∀ e : Src V, isName e = false → operand S e = none := by
    intro e he; cases e <;> first | rfl | cases he
  cases src with
  | un f e => simp only [onTemporary, Bool.not_eq_true'] at h; simp [declared, op e h]
  | sub e ind mp => simp only [onTemporary, Bool.not_eq_true'] at h; simp [declared, op e h]
  | bin f l r =>
    simp only [onTemporary, Bool.or_eq_true, Bool.not_eq_true'] at h
    rcases h with h | h
    · simp [declared, op l h]
    · simp only [declared, op r h]
      cases operand S l <;> rfl
  | _ => cases h

theorem step_next (S : Names V) (c : HCmd V) : S.next ≤ (S.step c).next := by
  cases c with
  | hold src => simp only [Names.step]; split <;> simp
  | cmd c => cases c <;> exact Nat.le_refl _
  | _ => exact Nat.le_refl _

theorem after_next : ∀ (p : List (HCmd V)) (S : Names V), S.next ≤ (S.after p).next
  | [], _ => Nat.le_refl _
  | c :: p, S => Nat.le_trans (step_next S c) (after_next p (S.step c))

theorem after_none {k : Nat} : ∀ (p : List (HCmd V)) (S : Names V), k < S.next → S.term k = none →
    (S.after p).term k = none
  | [], _, _, h => h
  | c :: p, S, hk, h => by
    refine after_none p (S.step c) (Nat.lt_of_lt_of_le hk (step_next S c)) ?_
    cases c with
    | hold src =>
      simp only [Names.step]
      split
      · exact h
      · show (if _ then _ else _) = _
        rw [if_neg (by omega)]; exact h
    | cmd c => cases c <;> exact h
    | setNum i v => exact h
    | use conv x i => exact h
    | drop i =>
      show (if _ then _ else _) = _
      by_cases hi : k = i
      · rw [if_pos hi]
      · rw [if_neg hi]; exact h

/-- An operation or subset declared on a temporary (a nested operation, a literal, the result of a
function) is unusable: whatever the program did before and does afterwards, an assignment from it never
ends normally. -/
theorem C89_temporary (zero : V) (sched : List Bool) (p q : List (HCmd V)) (src : Src V)
    (ht : onTemporary src = true) (H : HState V) (hs : ScopedAll Names.start (p ++ .hold src :: q))
    (h : runAll zero (p ++ .hold src :: q) (HState.start sched) = (none, H)) (conv : V → Out V) (x : Nat) (H' : HState V) :
    exec zero (.use conv x ((Names.start.after p).next + count src - 1)) H ≠ (.ok (), H') := by
  have hafter : Names.start.after (p ++ .hold src :: q) = ((Names.start.after p).step (.hold src)).after q := by
    simp [Names.after, List.foldl_append]
  have hc : count src ≠ 0 := by cases src <;> simp_all [onTemporary, count]
  have hlt : (Names.start.after p).next + count src - 1 < ((Names.start.after p).step (.hold src)).next := by
    rw [Names.step, if_neg hc]
    show _ < _ + _
    omega
  have hnone : ((Names.start.after p).step (.hold src)).term ((Names.start.after p).next + count src - 1) = none := by
    rw [Names.step, if_neg hc]
    show (if _ then _ else _) = _
    rw [if_pos rfl, declared_temporary _ ht]
  refine (C89_characterised zero sched _ H hs h conv x _ ?_).2 ?_ H'
  · rw [hafter]; exact Nat.lt_of_lt_of_le hlt (after_next q _)
  · rw [hafter, Names.stands, after_none q _ hlt hnone]; rfl

/-! Samples: `Vec a = c(1, 2, 3), b = c(10, 20, 30);`, vectors 1 and 3; `Vec r` is vector 4. -/

def heldSetup : List (HCmd Int) :=
  [.cmd (.declTemp [1, 2, 3] {}), .cmd (.declTemp [10, 20, 30] {}), .cmd .declDefault]

/-- `auto e = a + b; int c = 2; auto f = e * c; a = c(5, 6, 7); c = 3; r = f;`: `f` sees the new `a` and `c`. -/
def heldProgram : List (HCmd Int) := heldSetup ++
  [.hold (.bin (fun x y => .ok (x + y)) (.vec 1) (.vec 3)),
   .hold (.lit 2),
   .hold (.bin (fun x y => .ok (x * y)) (.name 0) (.var 1)),
   .cmd (.assign .ok 1 (.rvec [5, 6, 7] {})),
   .setNum 1 3,
   .use .ok 4 2]

example : ∃ cs, inlined Names.start heldProgram = some cs ∧ cs.length = 5 := ⟨_, rfl, rfl⟩
example : ScopedAll Names.start heldProgram := by
  simp [heldProgram, heldSetup, ScopedAll, ScopedCmd, Scoped, Names.step, Names.start, count]
example : (fun s : HState Int => (List.range 3).map (s.mach.env.get 4)) (runAll 0 heldProgram HState.start).2
    = [.ok 45, .ok 78, .ok 111] := by decide +kernel

/-- One would expect `auto e = (a + b) * a; r = e;` to do the same as `r = (a + b) * a;`: the sum is a
temporary. -/
theorem C89_false : (runAll (0 : Int) (heldSetup ++
      [.hold (.bin (fun x y => .ok (x * y)) (.bin (fun x y => .ok (x + y)) (.vec 1) (.vec 3)) (.vec 1)),
       .use .ok 4 1]) HState.start).1 = some .useAfterFree ∧
    (Mach.runAll (0 : Int) [.declTemp [1, 2, 3] {}, .declTemp [10, 20, 30] {}, .declDefault,
      .assign .ok 4 (.bin (fun x y => .ok (x * y)) (.bin (fun x y => .ok (x + y)) (.leaf 1) (.leaf 3)) (.leaf 1))]
      Mach.start).1 = none := by decide +kernel

/-- `auto e = a + 1; r = e;`: the literal is a temporary. -/
theorem C89_literal_false : (runAll (0 : Int) (heldSetup ++
      [.hold (.bin (fun x y => .ok (x + y)) (.vec 1) (.lit 1)), .use .ok 4 1]) HState.start).1 =
    some .useAfterFree := by decide +kernel

/-- `auto s = subset(a + b, c(1, 2)); r = s;`: the subset points to a temporary. -/
theorem C89_subset_false : (runAll (0 : Int) (heldSetup ++
      [.hold (.sub (.bin (fun x y => .ok (x + y)) (.vec 1) (.vec 3)) [0, 1] {}), .use .ok 4 1]) HState.start).1 =
    some .useAfterFree := by decide +kernel

/-- `C89_partial`, `C89_lists_partial` and `C89_characterised` applied. -/
example : ∃ cs : List (Cmd Int), (runAll 0 heldProgram HState.start).1 = (Mach.runAll 0 cs Mach.start).1 ∧ cs.length = 5 :=
  ⟨_, (C89_partial 0 [] heldProgram _ rfl).1, rfl⟩

example : ∃ H, runAll 0 heldProgram HState.start = (none, H) ∧ Mach.ShowsVar H.mach 4 [45, 78, 111] := by
  obtain ⟨H, e, h⟩ := C89_lists_partial 0 heldProgram _ _ rfl rfl
  exact ⟨H, e, h 4 _ rfl⟩

example : ∃ H, runAll 0 heldProgram HState.start = (none, H) ∧
    (exec 0 (.use .ok 4 2) H).1 = (Mach.exec 0 (.assign .ok 4 (.bin (fun x y => .ok (x * y))
      (.bin (fun x y => .ok (x + y)) (.leaf 1) (.leaf 3)) (.scal 3))) H.mach).1 := by
  have e : runAll 0 heldProgram HState.start = (none, _) := Prod.ext (by decide +kernel) rfl
  exact ⟨_, e, ((C89_characterised 0 [] heldProgram _
    (by simp [heldProgram, heldSetup, ScopedAll, ScopedCmd, Scoped, Names.step, Names.start, count]) e .ok 4 2 (by decide)).1 _ rfl).1⟩

end ETR.HState
