import Verif.Spec.Pushdown
import Verif.Lemmas.Subset
import Verif.Props.Assign
import Verif.Props.Typed

/-! Selecting elements and computing can be exchanged: C113. -/

namespace ETR
open Spec Mach
variable {V : Type}

theorem getL_lt {α : Type} {l : List α} {i : Nat} (h : i < l.length) : getL l i = .ok l[i] := by
  unfold getL
  rw [List.getElem?_eq_getElem h]

theorem modz_lt {i n : Nat} (h : i < n) : modz i n = .ok i := by
  unfold modz
  rw [if_neg (by omega), Nat.mod_eq_of_lt h]

theorem posOf_lt {i n : Nat} (h : i < n) : posOf false n i = .ok i := by
  unfold posOf
  simpa using modz_lt h

theorem Expr.isScal_scal {v : V} : (Expr.scal v).isScal = true := rfl

theorem posOf_scal {V : Type} {i n : Nat} {v : V} : posOf (Expr.scal v).isScal n i = .ok 0 := rfl

theorem subset_positions {env : Env V} {v : Expr V} {n : Nat} (hn : n < 2 ^ 31) {idx : Index} (hp : idx.Pass) {ind : List Nat}
    (hpos : positions n idx = some ind) (hs : v.size env = n) (ws : List String) :
    ∃ ws', subset env v idx ws = (.ok (.sub v ind {}), ws') := by
  obtain ⟨ws', h⟩ := calcIndVector_ok hn hp hpos ws
  refine ⟨ws', ?_⟩
  unfold subset
  rw [hs, M.bind_ok h, M.pure_apply]

theorem okBind {α β : Type} (a : α) (f : α → Out β) : ((Out.ok a : Out α) >>= f) = f a := rfl

/-- Position `i` of a selection. -/
theorem pick_lt {n : Nat} {ind : List Nat} {i : Nat} (hi : i < ind.length) : i % n < ind.length :=
  Nat.lt_of_le_of_lt (Nat.mod_le _ _) hi

theorem SelectIn.spec {env : Env V} {n : Nat} (hn : n < 2 ^ 31) {idx : Index} (hp : idx.Pass) {ind : List Nat}
    (hpos : positions n idx = some ind) (hn0 : 0 < n) {e e' : Expr V} (h : SelectIn env n idx e e') :
    e.isScal = false ∧ e'.isScal = false ∧ e.size env = n ∧ e'.size env = ind.length ∧
      ∀ i (hi : i < ind.length), e'.el env i = e.el env (ind[i % n]'(pick_lt hi)) := by
  have hlt : ∀ i (hi : i < ind.length), ind[i % n]'(pick_lt hi) < n := fun i hi => positions_lt hpos _ (List.getElem_mem _)
  induction h with
  | @vec v v' ws ws' h1 h2 h3 =>
    obtain ⟨ws2, e2⟩ := subset_positions hn hp hpos h2 ws
    rw [e2] at h3
    simp only [Prod.mk.injEq, Out.ok.injEq] at h3
    obtain ⟨rfl, _⟩ := h3
    refine ⟨h1, rfl, h2, rfl, fun i hi => ?_⟩
    rw [Expr.el, h2, modz, if_neg (by omega)]
    show (getL ind (i % n) >>= fun j => v.el env j) = _
    rw [getL_lt (pick_lt hi)]
    rfl
  | un _ ih =>
    obtain ⟨h1, h2, h3, h4, h5⟩ := ih
    refine ⟨rfl, rfl, h3, h4, fun i hi => ?_⟩
    simp only [Expr.el, h1, h2, h3, h4, posOf_lt hi, posOf_lt (hlt i hi), okBind, h5 i hi]
  | bin _ _ ihl ihr =>
    obtain ⟨h1, h2, h3, h4, h5⟩ := ihl
    obtain ⟨g1, g2, g3, g4, g5⟩ := ihr
    refine ⟨rfl, rfl, by simp [Expr.size, h1, g1, h3, g3], by simp [Expr.size, h2, g2, h4, g4], fun i hi => ?_⟩
    simp only [Expr.el, h1, h2, h3, h4, g1, g2, g3, g4, posOf_lt hi, posOf_lt (hlt i hi), okBind, h5 i hi, g5 i hi]
  | binLeft _ ihr =>
    obtain ⟨g1, g2, g3, g4, g5⟩ := ihr
    refine ⟨rfl, rfl, by rw [Expr.size]; simp [Expr.isScal_scal, g1, g3], by rw [Expr.size]; simp [Expr.isScal_scal, g2, g4], fun i hi => ?_⟩
    simp only [Expr.el, g1, g2, g3, g4, posOf_lt hi, posOf_lt (hlt i hi), okBind, posOf_scal, g5 i hi]
  | binRight _ ihl =>
    obtain ⟨h1, h2, h3, h4, h5⟩ := ihl
    refine ⟨rfl, rfl, by rw [Expr.size]; simp [Expr.isScal_scal, h1, h3], by rw [Expr.size]; simp [Expr.isScal_scal, h2, h4], fun i hi => ?_⟩
    simp only [Expr.el, h1, h2, h3, h4, posOf_lt hi, posOf_lt (hlt i hi), okBind, posOf_scal, h5 i hi]

/-- C113: selecting elements of a formula over vectors of one length is the formula of the selections: the two have the same length, and
the same outcome (value, exception or undefined behaviour) at every element. -/
theorem C113_exchange {env : Env V} {n : Nat} (hn : n < 2 ^ 31) {idx : Index} (hp : idx.Pass) {ind : List Nat}
    (hpos : positions n idx = some ind) {e e' : Expr V} (h : SelectIn env n idx e e') (ws : List String) :
    ∃ se ws', subset env e idx ws = (.ok se, ws') ∧ se.size env = ind.length ∧ e'.size env = ind.length ∧
      ∀ i < ind.length, se.el env i = e'.el env i := by
  have hn0 := positions_pos hpos
  obtain ⟨h1, h2, h3, h4, h5⟩ := SelectIn.spec hn hp hpos hn0 h
  obtain ⟨ws', e2⟩ := subset_positions hn hp hpos h3 ws
  refine ⟨_, ws', e2, rfl, h4, fun i hi => ?_⟩
  rw [h5 i hi, Expr.el, h3, modz, if_neg (by omega)]
  show (getL ind (i % n) >>= fun j => e.el env j) = _
  rw [getL_lt (pick_lt hi)]
  rfl

theorem evals_congr {s : Mach V} {conv : V → Out V} {e e' : Expr V} {n : Nat} (h1 : e.size s.env = n) (h2 : e'.size s.env = n)
    (h : ∀ i < n, e.el s.env i = e'.el s.env i) (L : List V) : Evals s conv e L ↔ Evals s conv e' L := by
  unfold Evals
  rw [h1, h2]
  constructor
  · rintro ⟨a, b⟩
    exact ⟨a, fun i hi => by rw [← h i (by omega)]; exact b i hi⟩
  · rintro ⟨a, b⟩
    exact ⟨a, fun i hi => by rw [h i (by omega)]; exact b i hi⟩

theorem evals_unique {s : Mach V} {conv : V → Out V} {e : Expr V} {L L' : List V} (h : Evals s conv e L) (h' : Evals s conv e L') :
    L = L' := by
  refine List.ext_getElem (by rw [h.1, h'.1]) fun i hi hi' => ?_
  have := (h.2 i hi).symm.trans (h'.2 i hi')
  simpa using this

/-- C113: hence `x = e(I)` and `x = e'`, where `e'` is the formula of the selections, evaluate to the same elements, and store the same. -/
theorem C113_assign {zero : V} {s : Mach V} (r : Reach zero s) (conv : V → Out V) {x : Nat} (hx : x < s.n) {n : Nat} (hn : n < 2 ^ 31)
    {idx : Index} (hp : idx.Pass) {ind : List Nat} (hpos : positions n idx = some ind) (hlim : ind.length ≤ 2 ^ 30) {e e' : Expr V}
    (h : SelectIn s.env n idx e e') (ws : List String) :
    ∃ se ws', subset s.env e idx ws = (.ok se, ws') ∧ (∀ L, Evals s conv se L ↔ Evals s conv e' L) ∧
      ∀ s1 s2, exec zero (.assign conv x se) s = (.ok (), s1) → exec zero (.assign conv x e') s = (.ok (), s2) →
        ∃ L, Evals s conv e' L ∧ ShowsVar s1 x L ∧ ShowsVar s2 x L := by
  obtain ⟨se, ws', h1, h2, h3, h4⟩ := C113_exchange hn hp hpos h ws
  have hE := evals_congr (conv := conv) h2 h3 h4
  refine ⟨se, ws', h1, hE, fun s1 s2 e1 e2 => ?_⟩
  obtain ⟨L1, a1, b1, _⟩ := C11_snapshot_partial r conv x se hx (by omega) e1
  obtain ⟨L2, a2, b2, _⟩ := C11_snapshot_partial r conv x e' hx (by omega) e2
  obtain rfl := evals_unique ((hE L1).1 a1) a2
  exact ⟨L1, a2, b1, b2⟩

/-! Element types. -/

theorem TSelectIn.spec {env : Env Scal} {n : Nat} {ind : List Nat} (hlt : ∀ j ∈ ind, j < n) {e e' : TForm}
    (h : TSelectIn env n ind e e') (ht : TypedIn env e) :
    e.toExpr.isScal = false ∧ e'.toExpr.isScal = false ∧ e.toExpr.size env = n ∧ e'.toExpr.size env = ind.length ∧
      (∀ v, e.conv v = v) ∧ ∀ i (hi : i < ind.length), e'.toExpr.el env i = e.toExpr.el env (ind[i % n]'(pick_lt hi)) ∧
        ∀ v, e'.toExpr.el env i = .ok v → e'.conv v = v := by
  have hlt' : ∀ i (hi : i < ind.length), ind[i % n]'(pick_lt hi) < n := fun i hi => hlt _ (List.getElem_mem _)
  induction h with
  | @vec t x h1 =>
    refine ⟨rfl, rfl, h1, rfl, fun _ => rfl, fun i hi => ?_⟩
    have hn : n ≠ 0 := by have := hlt' i hi; omega
    have he : (TForm.sub (.leaf t x) ind {}).toExpr.el env i = env.get x (ind[i % n]'(pick_lt hi)) := by
      show (modz i (env.size x) >>= fun k => getL ind k >>= fun j => env.get x j) = _
      rw [h1, modz, if_neg hn, okBind, getL_lt (pick_lt hi), okBind]
    refine ⟨he, fun v hv => ?_⟩
    rw [he] at hv
    obtain ⟨ht', _⟩ := ht _ _ hv
    show (if t = .double then Scal.d v.toD else v) = v
    split
    · rename_i h2
      subst h2
      cases v with
      | d x => rfl
      | i k => cases ht'
      | b w => cases ht'
    · rfl
  | @un o e e' _ ih =>
    obtain ⟨h1, h2, h3, h4, h5, h6⟩ := ih ht
    refine ⟨rfl, rfl, h3, h4, fun _ => rfl, fun i hi => ⟨?_, fun _ _ => rfl⟩⟩
    simp only [TForm.toExpr, Expr.el, h1, h2, h3, h4, posOf_lt hi, posOf_lt (hlt' i hi), okBind]
    obtain ⟨g1, g2⟩ := h6 i hi
    rw [← g1]
    rcases ho : e'.toExpr.el env i with v | m | k
    · simp only [okBind, g2 v ho, h5]
    · rfl
    · rfl
  | @bin o l l' r r' _ _ ihl ihr =>
    obtain ⟨h1, h2, h3, h4, h5, h6⟩ := ihl ht.1
    obtain ⟨k1, k2, k3, k4, k5, k6⟩ := ihr ht.2
    refine ⟨rfl, rfl, by simp [TForm.toExpr, Expr.size, h1, k1, h3, k3], by simp [TForm.toExpr, Expr.size, h2, k2, h4, k4],
      fun _ => rfl, fun i hi => ⟨?_, fun _ _ => rfl⟩⟩
    simp only [TForm.toExpr, Expr.el, h1, h2, h3, h4, k1, k2, k3, k4, posOf_lt hi, posOf_lt (hlt' i hi), okBind]
    obtain ⟨g1, g2⟩ := h6 i hi
    obtain ⟨f1, f2⟩ := k6 i hi
    rw [← g1, ← f1]
    rcases ho : l'.toExpr.el env i with v | m | k
    · simp only [okBind, g2 v ho, h5]
      rcases hr : r'.toExpr.el env i with w | m | k
      · simp only [okBind, f2 w hr, k5]
      · rfl
      · rfl
    · rfl
    · rfl
  | @binLeft o v r r' _ ihr =>
    obtain ⟨k1, k2, k3, k4, k5, k6⟩ := ihr ht.2
    refine ⟨rfl, rfl, by simp only [TForm.toExpr]; rw [Expr.size]; simp [Expr.isScal_scal, k1, k3],
      by simp only [TForm.toExpr]; rw [Expr.size]; simp [Expr.isScal_scal, k2, k4], fun _ => rfl, fun i hi => ⟨?_, fun _ _ => rfl⟩⟩
    simp only [TForm.toExpr, Expr.el, k1, k2, k3, k4, posOf_lt hi, posOf_lt (hlt' i hi), okBind, posOf_scal]
    obtain ⟨f1, f2⟩ := k6 i hi
    rw [← f1]
    rcases hr : r'.toExpr.el env i with w | m | k
    · simp only [okBind, f2 w hr, k5]
    · rfl
    · rfl
  | @binRight o v l l' _ ihl =>
    obtain ⟨h1, h2, h3, h4, h5, h6⟩ := ihl ht.1
    refine ⟨rfl, rfl, by simp only [TForm.toExpr]; rw [Expr.size]; simp [Expr.isScal_scal, h1, h3],
      by simp only [TForm.toExpr]; rw [Expr.size]; simp [Expr.isScal_scal, h2, h4], fun _ => rfl, fun i hi => ⟨?_, fun _ _ => rfl⟩⟩
    simp only [TForm.toExpr, Expr.el, h1, h2, h3, h4, posOf_lt hi, posOf_lt (hlt' i hi), okBind, posOf_scal]
    obtain ⟨g1, g2⟩ := h6 i hi
    rw [← g1]
    rcases ho : l'.toExpr.el env i with w | m | k
    · simp only [okBind, g2 w ho, h5]
    · rfl
    · rfl

theorem sub_elTo {env : Env Scal} {n : Nat} {ind : List Nat} {e : TForm} (hs : e.toExpr.size env = n) (hn : 0 < n) (t : Ty) {i : Nat}
    (hi : i < ind.length) : (TForm.sub e ind {}).elTo t env i =
      (e.toExpr.el env (ind[i % n]'(pick_lt hi)) >>= fun v => (((TForm.sub e ind {}).conv v).to .double) >>= fun w => w.to t) := by
  unfold TForm.elTo
  show (((modz i (e.toExpr.size env)) >>= fun k => getL ind k >>= fun j => e.toExpr.el env j) >>= _) = _
  rw [hs, modz, if_neg (by omega), okBind, getL_lt (pick_lt hi), okBind]
  rfl

/-- C113, with the element types: for formulas over named vectors of logicals, integers and doubles the two ways deliver the same number,
exception or undefined behaviour into a vector of any element type. -/
theorem C113_typed {env : Env Scal} {n : Nat} {idx : Index} {ind : List Nat} (hpos : positions n idx = some ind) {e e' : TForm}
    (h : TSelectIn env n ind e e') (ht : TypedIn env e) (t : Ty) :
    (TForm.sub e ind {}).toExpr.size env = ind.length ∧ e'.toExpr.size env = ind.length ∧
      ∀ i < ind.length, (TForm.sub e ind {}).elTo t env i = e'.elTo t env i := by
  obtain ⟨h1, h2, h3, h4, h5, h6⟩ := TSelectIn.spec (positions_lt hpos) h ht
  refine ⟨rfl, h4, fun i hi => ?_⟩
  have hn := positions_pos hpos
  obtain ⟨g1, g2⟩ := h6 i hi
  have key : e'.retTy = .double → (∀ v, e'.conv v = v) → (TForm.sub e ind {}).elTo t env i = e'.elTo t env i := by
    intro hd hc
    rw [sub_elTo h3 hn t hi]
    unfold TForm.elTo
    rw [g1, hd]
    rcases e.toExpr.el env (ind[i % n]'(pick_lt hi)) with v | m | k
    · simp only [okBind, hc]
      show (Scal.to .double (if e.retTy = .double then Scal.d v.toD else v) >>= _) = (Scal.to .double v >>= _)
      split <;> rfl
    · rfl
    · rfl
  cases h with
  | vec => rfl
  | un => exact key rfl (fun _ => rfl)
  | bin => exact key rfl (fun _ => rfl)
  | binLeft => exact key rfl (fun _ => rfl)
  | binRight => exact key rfl (fun _ => rfl)

/-! Examples, and why the conditions are needed. -/

/-- Three vectors of integers. -/
def pushEnv : Env Int := listEnv [[1, 2, 3], [10, 20, 30], [7]]

/-- `(a + b * 2)(c(3, 1))` and `a(c(3, 1)) + b(c(3, 1)) * 2`. -/
example : ∃ se ws', subset pushEnv (.bin (fun a b => .ok (a + b)) (.leaf 0) (.bin (fun a b => .ok (a * b)) (.leaf 1) (.scal 2)))
      (.vint [.i 3, .i 1]) [] = (.ok se, ws') ∧ se.size pushEnv = 2 ∧ (Expr.bin (fun a b => .ok (a + b)) (.sub (.leaf 0) [2, 0] {})
      (.bin (fun a b => .ok (a * b)) (.sub (.leaf 1) [2, 0] {}) (.scal 2))).size pushEnv = 2 ∧ ∀ i < 2, se.el pushEnv i =
    (Expr.bin (fun a b => .ok (a + b)) (.sub (.leaf 0) [2, 0] {})
      (.bin (fun a b => .ok (a * b)) (.sub (.leaf 1) [2, 0] {}) (.scal 2))).el pushEnv i :=
  C113_exchange (V := Int) (env := pushEnv) (n := 3) (by decide) (idx := .vint [.i 3, .i 1])
    (fun x hx => by
      simp only [List.mem_cons, List.not_mem_nil, or_false] at hx
      rcases hx with rfl | rfl <;> exact ⟨by decide, by decide⟩) (ind := [2, 0]) (by decide)
    (SelectIn.bin (SelectIn.vec (ws := []) (ws' := []) rfl rfl rfl)
      (SelectIn.binRight (SelectIn.vec (ws := []) (ws' := []) rfl rfl rfl))) []

/-- The elements are 63 and 21. -/
example : (Expr.bin (fun a b => .ok (a + b)) (.sub (.leaf 0) [2, 0] {})
    (.bin (fun a b => .ok (a * b)) (.sub (.leaf 1) [2, 0] {}) (.scal 2))).el pushEnv 0 = .ok 63 := by decide

/-- `a = (a + a)(c(2, 1))` and `a = a(c(2, 1)) + a(c(2, 1))` for `a = c(1, 2, 3, 4, 5)`. -/
example : ∃ s : Mach Int, ∃ s1 s2 L, Reach 0 s ∧
    exec 0 (.assign .ok 1 (.sub (.bin (fun a b => .ok (a + b)) (.leaf 1) (.leaf 1)) [1, 0] {})) s = (.ok (), s1) ∧
    exec 0 (.assign .ok 1 (.bin (fun a b => .ok (a + b)) (.sub (.leaf 1) [1, 0] {}) (.sub (.leaf 1) [1, 0] {}))) s = (.ok (), s2) ∧
    ShowsVar s1 1 L ∧ ShowsVar s2 1 L ∧ (List.range 2).map (s1.env.get 1) = [4, 2].map Out.ok := by
  have r : Reach (0 : Int) (runAll 0 (aliasHistory.take 1) start).2 :=
    ⟨aliasHistory.take 1, .cons aliasAllowed.1 trivial, Prod.ext (by decide +kernel) rfl⟩
  have hv : SelectIn (runAll (0 : Int) (aliasHistory.take 1) start).2.env 5 (.vint [.i 2, .i 1]) (.leaf 1) (.sub (.leaf 1) [1, 0] {}) :=
    SelectIn.vec (ws := []) (ws' := []) rfl (by decide +kernel) rfl
  obtain ⟨se, ws', h1, _, h2⟩ := C113_assign r .ok (x := 1) (by decide +kernel) (n := 5) (by decide) (idx := .vint [.i 2, .i 1])
    (fun x hx => by
      simp only [List.mem_cons, List.not_mem_nil, or_false] at hx
      rcases hx with rfl | rfl <;> exact ⟨by decide, by decide⟩) (ind := [1, 0]) (by decide) (by decide)
    (SelectIn.bin (f := fun a b => .ok (a + b)) hv hv) []
  have he : se = .sub (.bin (fun a b => .ok (a + b)) (.leaf 1) (.leaf 1)) [1, 0] {} := by
    have h3 := congrArg Prod.fst h1
    exact (Out.ok.inj h3).symm
  subst he
  have e1 : exec 0 (.assign .ok 1 (.sub (.bin (fun a b => .ok (a + b)) (.leaf 1) (.leaf 1)) [1, 0] {}))
      (runAll (0 : Int) (aliasHistory.take 1) start).2 = (.ok (), _) := Prod.ext (by decide +kernel) rfl
  have e2 : exec 0 (.assign .ok 1 (.bin (fun a b => .ok (a + b)) (.sub (.leaf 1) [1, 0] {}) (.sub (.leaf 1) [1, 0] {})))
      (runAll (0 : Int) (aliasHistory.take 1) start).2 = (.ok (), _) := Prod.ext (by decide +kernel) rfl
  obtain ⟨L, _, a, b⟩ := h2 _ _ e1 e2
  exact ⟨_, _, _, L, r, e1, e2, a, b, by decide +kernel⟩

/-- Beyond the end the two ways differ: `(a + b)(5)` is recycled to `a(2) + b(2)`, `a(5) + b(5)` throws. -/
theorem C113_needs_range : ∃ ws ws' m,
    subset pushEnv (.bin (fun a b => .ok (a + b)) (.leaf 0) (.leaf 1)) (.int 5) [] =
      (.ok (.sub (.bin (fun a b => .ok (a + b)) (.leaf 0) (.leaf 1)) [4] {}), ws) ∧
    (Expr.sub (.bin (fun a b => .ok (a + b)) (.leaf 0) (.leaf 1)) [4] {}).el pushEnv 0 = .ok 22 ∧
    subset pushEnv (.leaf 0) (.int 5) [] = (.ok (.sub (.leaf 0) [4] {}), ws') ∧
    (Expr.bin (fun a b => .ok (a + b)) (.sub (.leaf 0) [4] {}) (.sub (.leaf 1) [4] {})).el pushEnv 0 = .thr m :=
  ⟨_, _, _, rfl, rfl, rfl, rfl⟩

/-- With vectors of different lengths the two ways differ: `(a + v)(3)` recycles `v`, which has one element; `v(3)` throws. -/
theorem C113_needs_length : ∃ ws ws' m,
    subset pushEnv (.bin (fun a b => .ok (a + b)) (.leaf 0) (.leaf 2)) (.int 3) [] =
      (.ok (.sub (.bin (fun a b => .ok (a + b)) (.leaf 0) (.leaf 2)) [2] {}), ws) ∧
    (Expr.sub (.bin (fun a b => .ok (a + b)) (.leaf 0) (.leaf 2)) [2] {}).el pushEnv 0 = .ok 10 ∧
    subset pushEnv (.leaf 2) (.int 3) [] = (.ok (.sub (.leaf 2) [2] {}), ws') ∧
    (Expr.bin (fun a b => .ok (a + b)) (.sub (.leaf 0) [2] {}) (.sub (.leaf 2) [2] {})).el pushEnv 0 = .thr m :=
  ⟨_, _, _, rfl, rfl, rfl, rfl⟩

/-- Two vectors of integers; `2147483647 + 1` overflows. -/
def pushTEnv : Env Scal := listEnv [[.i 2147483647, .i 5], [.i 1, .i 2]]

/-- `(a + b)(2)` and `a(2) + b(2)`, stored into a vector of integers. -/
example : (TForm.sub (.bin .plus (.leaf .int 0) (.leaf .int 1)) [1] {}).elTo .int pushTEnv 0 =
    (TForm.bin .plus (.sub (.leaf .int 0) [1] {}) (.sub (.leaf .int 1) [1] {})).elTo .int pushTEnv 0 ∧
    (TForm.bin .plus (.sub (.leaf .int 0) [1] {}) (.sub (.leaf .int 1) [1] {})).elTo .int pushTEnv 0 = .ok (.i 7) :=
  ⟨(C113_typed (env := pushTEnv) (n := 2) (idx := .int 2) (ind := [1]) (by decide) (.bin (.vec rfl) (.vec rfl))
    ⟨fun i v h => by
      rcases i with _ | _ | i
      · cases h; exact ⟨rfl, fun n hn => by cases hn; exact ⟨by decide, by decide⟩⟩
      · cases h; exact ⟨rfl, fun n hn => by cases hn; exact ⟨by decide, by decide⟩⟩
      · simp [pushTEnv, listEnv, getL] at h,
     fun i v h => by
      rcases i with _ | _ | i
      · cases h; exact ⟨rfl, fun n hn => by cases hn; exact ⟨by decide, by decide⟩⟩
      · cases h; exact ⟨rfl, fun n hn => by cases hn; exact ⟨by decide, by decide⟩⟩
      · simp [pushTEnv, listEnv, getL] at h⟩ .int).2.2 0 (by decide), by decide +kernel⟩

/-- In formulas that contain selections already, the element type changes: with `J = c(1, 2)`, `(a(J) + b(J))(1)` is computed in `int` and
overflows; `(a(J))(1) + (b(J))(1)` is computed in `double`. -/
theorem C113_needs_named :
    (TForm.sub (.bin .plus (.sub (.leaf .int 0) [0, 1] {}) (.sub (.leaf .int 1) [0, 1] {})) [0] {}).elTo .double pushTEnv 0 =
      .ub .intOverflow ∧
    (TForm.bin .plus (.sub (.sub (.leaf .int 0) [0, 1] {}) [0] {}) (.sub (.sub (.leaf .int 1) [0, 1] {}) [0] {})).elTo .double pushTEnv 0 =
      .ok (.d (.fin 2147483648)) := by decide +kernel

end ETR
