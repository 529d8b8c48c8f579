import Verif.Model.Print
import Verif.Props.Helper

/-! Printing: C65. -/

namespace ETR
open Spec
variable {V : Type}

namespace Spec

/-- Texts one after the other. -/
def cat : List String → String
  | [] => ""
  | s :: t => s ++ cat t

/-- A line made of elements, each followed by `sep`. -/
def line (fmt : V → String) (sep : String) (l : List V) : String := cat (l.map (fun v => fmt v ++ sep)) ++ "\n"

/-- `rows` are the rows of the matrix with `r` rows and `c` columns that is stored column by column in `l`. -/
structure IsRows (rows : List (List V)) (r c : Nat) (l : List V) : Prop where
  count : rows.length = r
  len : l.length = r * c
  row : ∀ R ∈ rows, R.length = c
  cell : ∀ i (hi : i < rows.length) j, j < c → rows[i][j]? = l[j * r + i]?

end Spec

theorem cat_append (a b : List String) : cat (a ++ b) = cat a ++ cat b := by
  induction a with
  | nil => simp [cat]
  | cons s t ih => simp [cat, ih, String.append_assoc]

/-- A loop that writes the texts `g 0, g 1, …`. -/
theorem forN_text {n : Nat} {body : Nat → M OStream Unit} {g : Nat → String} {a : Bool}
    (hb : ∀ i, i < n → ∀ t, body i ⟨a, t⟩ = (.ok (), ⟨a, t ++ g i⟩)) (t : String) :
    M.forN n body ⟨a, t⟩ = (.ok (), ⟨a, t ++ cat ((List.range n).map g)⟩) := by
  induction n with
  | zero => simp [cat]
  | succ n ih =>
    rw [M.forN_succ, M.bind_ok (ih (fun i hi => hb i (by omega))), hb n (by omega), List.range_succ, List.map_append,
      cat_append]
    simp [cat, String.append_assoc]

theorem map_range_eq {α : Type} (l : List V) (f : V → α) (g : Nat → α) (h : ∀ i (hi : i < l.length), g i = f l[i]) :
    (List.range l.length).map g = l.map f := by
  apply List.ext_getElem (by simp)
  intro i h1 h2
  simp only [List.length_map, List.length_range] at h1
  simp [h i h1]

/-- C65: the output for a matrix consists of one line for each row, which shows the elements of the row in order, and nothing else; the
stream is not changed otherwise. -/
theorem C65_print {fmt : Bool → V → String} {env : Env V} {e : Expr V} {l : List V} (hr : Reads env e l) (hi : e.im env = true)
    {r c : Nat} (hnr : e.nr env = .ok r) (hnc : e.nc env = .ok c) {rows : List (List V)} (hw : IsRows rows r c l)
    (h64 : l.length < 2 ^ 64) (o : OStream) :
    printVec fmt env e o = (.ok (), ⟨o.alpha, o.text ++ cat (rows.map (line (fmt o.alpha) "\t"))⟩) := by
  obtain ⟨a, t⟩ := o
  unfold printVec
  rw [if_neg (by simp [hi]), M.bind_ok (by rw [M.lift_apply, hnr])]
  rw [← map_range_eq rows (line (fmt a) "\t") (fun i => line (fmt a) "\t" (rows.getD i [])) (fun i hi => by simp [List.getD, hi]),
    hw.count]
  refine forN_text (fun i hir t => ?_) t
  have hir' : i < rows.length := by rw [hw.count]; exact hir
  have hR : rows.getD i [] = rows[i] := by simp [List.getD, hir']
  rw [hR]
  have hRl : rows[i].length = c := hw.row _ (List.getElem_mem hir')
  rw [M.bind_ok (by rw [M.lift_apply, hnc])]
  have inner : ∀ t, M.forN c (fun j => do
        let v ← M.lift (e.el env ((j * r + i) % two64))
        putEl fmt v
        put "\t") ⟨a, t⟩ = (.ok (), ⟨a, t ++ cat (rows[i].map (fun v => fmt a v ++ "\t"))⟩) := by
    intro t
    rw [← map_range_eq rows[i] (fun v => fmt a v ++ "\t") (fun j => ((rows[i][j]?).map (fun v => fmt a v ++ "\t")).getD "")
      (fun j hj => by simp [hj]), hRl]
    refine forN_text (fun j hj t => ?_) t
    have pos : j * r + i < l.length := by
      have h1 : (j + 1) * r ≤ c * r := Nat.mul_le_mul_right r (by omega)
      have h2 : (j + 1) * r = j * r + r := by ring
      have h3 : c * r = r * c := Nat.mul_comm _ _
      rw [hw.len]; omega
    have hcell := hw.cell i hir' j hj
    have hmod : (j * r + i) % two64 = j * r + i := Nat.mod_eq_of_lt (by unfold two64; omega)
    rw [hmod, M.bind_ok (by rw [M.lift_apply, hr.2 _ pos]), hcell, List.getElem?_eq_getElem pos]
    simp [putEl, put, M.bind_apply, String.append_assoc]
  rw [M.bind_ok (inner t)]
  simp [put, line, String.append_assoc]

/-- Printing a vector that is not a matrix: the elements in order, in one line.  Afterwards logicals are printed as words. -/
theorem C65_vector {fmt : Bool → V → String} {env : Env V} {e : Expr V} {l : List V} (hr : Reads env e l) (hi : e.im env = false)
    (o : OStream) : printVec fmt env e o = (.ok (), ⟨o.alpha || decide (l ≠ []), o.text ++ line (fmt true) " " l⟩) := by
  obtain ⟨a, t⟩ := o
  unfold printVec
  rw [if_pos (by simp [hi]), hr.1]
  have loop : ∀ n, n ≤ l.length → M.forN n (fun i => do
      setAlpha
      let v ← M.lift (e.el env i)
      putEl fmt v
      put " ") ⟨a, t⟩ = (.ok (), ⟨a || decide (n ≠ 0), t ++ cat ((l.take n).map (fun v => fmt true v ++ " "))⟩) := by
    intro n
    induction n with
    | zero => intro _; simp [cat]
    | succ n ih =>
      intro hn
      rw [M.forN_succ, M.bind_ok (ih (by omega))]
      rw [List.take_succ_eq_append_getElem (by omega), List.map_append, cat_append]
      simp [setAlpha, putEl, put, M.bind_apply, hr.2 n (by omega), cat, String.append_assoc]
  rw [M.bind_ok (loop l.length (le_refl _))]
  simp [put, line, String.append_assoc, List.length_eq_zero_iff]

/-- How logicals are printed in a matrix depends on what was printed before. -/
theorem C65_history : ∃ (env : Env Bool) (fmt : Bool → Bool → String), 
    let p := printVec fmt env (.leaf 0);
    (p {}).2.text = "1\t0\t\n" ∧ (p (printVec fmt env (.leaf 1) {}).2).2.text = "true \ntrue\tfalse\t\n" := by
  refine ⟨⟨fun x => if x = 0 then 2 else 1, fun _ i => .ok (decide (i = 0)), fun x => if x = 0 then ⟨true, 1, 2⟩ else {}⟩,
    fun al b => if al then (if b then "true" else "false") else (if b then "1" else "0"), by decide +kernel, by decide +kernel⟩

/-- The matrix with the columns 1, 2 and 3, 4 and 5, 6. -/
example (env : Env Nat) : printVec (fun _ v => toString v) env (.rvec [1, 2, 3, 4, 5, 6] ⟨true, 2, 3⟩) {} =
    (.ok (), ⟨false, "1\t3\t5\t\n2\t4\t6\t\n"⟩) := by
  rw [C65_print (l := [1, 2, 3, 4, 5, 6]) (rows := [[1, 3, 5], [2, 4, 6]]) (r := 2) (c := 3) ⟨rfl, by
      intro i hi; show getL _ _ = _; unfold getL; rw [List.getElem?_eq_getElem hi]⟩ rfl rfl rfl ⟨rfl, rfl, by simp, by
      intro i hi j hj
      simp only [List.length_cons, List.length_nil] at hi
      obtain rfl | rfl : i = 0 ∨ i = 1 := by omega
      all_goals (obtain rfl | rfl | rfl : j = 0 ∨ j = 1 ∨ j = 2 := by omega) <;> rfl⟩ (by norm_num)]
  decide +kernel

/-! `operator<<` -/

/-- `std::cout << v` shows exactly the elements in order. -/
theorem C65_stream {fmt : Bool → V → String} {h : Heap V} {s : Store} {l : List V} (hs : Shows h s l) (o : OStream) :
    showVec fmt h s o = (.ok (), ⟨o.alpha, o.text ++ "Vec [ " ++ cat (l.map (fun v => fmt o.alpha v ++ " ")) ++ "]"⟩) := by
  obtain ⟨a, t⟩ := o
  unfold showVec
  rw [M.bind_ok (m := put "Vec [ ") (a := ()) (s' := ⟨a, t ++ "Vec [ "⟩) rfl, hs.1,
    ← map_range_eq l (fun v => fmt a v ++ " ") (fun j => ((l[j]?).map (fun v => fmt a v ++ " ")).getD "") (fun j hj => by simp [hj]),
    M.bind_ok (forN_text (a := a) (g := fun j => ((l[j]?).map (fun v => fmt a v ++ " ")).getD "") (fun i hi t => ?_) _)]
  · simp [put]
  · rw [M.bind_ok (by rw [M.lift_apply, load_of_shows hs hi])]
    simp [putEl, put, M.bind_apply, String.append_assoc, hi]

example (env : Env Nat) : printVec (fun _ v => toString v) env (.rvec [1, 2, 3] {}) {} = (.ok (), ⟨true, "1 2 3 \n"⟩) := by
  rw [C65_vector (l := [1, 2, 3]) ⟨rfl, by
    intro i hi; show getL _ _ = _; unfold getL; rw [List.getElem?_eq_getElem hi]⟩ rfl]
  decide +kernel

example : ∃ (h : Heap Nat) (s : Store), showVec (fun _ v => toString v) h s {} = (.ok (), ⟨false, "Vec [ 5 6 ]"⟩) := by
  refine ⟨⟨fun _ => ⟨2, fun i => some (i + 5), true, true⟩, 1, []⟩, ⟨some 0, 2, 2, true, {}⟩, ?_⟩
  rw [C65_stream (l := [5, 6]) ⟨rfl, by decide⟩]
  decide +kernel

end ETR
