import Verif.Model.Reflect
import Mathlib.Data.List.Basic
import Mathlib.Data.List.Infix
import Mathlib.Tactic.Linarith
import Mathlib.Tactic.Ring

/-! The tree printer: C72. -/

namespace ETR
namespace Spec

/-- An angle bracket. -/
def bracket (c : Char) : Prop := c = '<' ∨ c = '>'

/-- Opening minus closing brackets. -/
def depth (s : List Char) : Int := (s.count '<' : Int) - (s.count '>' : Int)

/-- `ls` is `s` cut after every angle bracket. -/
structure IsLines (ls : List (List Char)) (s : List Char) : Prop where
  join : ls.flatten = s
  cut : ∀ i (hi : i + 1 < ls.length), ∃ x b, ls[i] = x ++ [b] ∧ bracket b ∧ ∀ c ∈ x, ¬ bracket c
  last : ∃ x, ls.getLast? = some x ∧ ∀ c ∈ x, ¬ bracket c

/-- The lines one below the other, each indented by as many tabs as there are open brackets at its start; `d` brackets are
open before the first line. -/
def indented : Int → List (List Char) → List Char
  | _, [] => []
  | d, l :: ls => List.replicate d.toNat '\t' ++ l ++ ['\n'] ++ indented (d + depth l) ls

end Spec
open Spec

theorem depth_append (a b : List Char) : depth (a ++ b) = depth a + depth b := by
  unfold depth; rw [List.count_append, List.count_append]; push_cast; ring

theorem depth_plain {x : List Char} (h : ∀ c ∈ x, ¬ bracket c) : depth x = 0 := by
  unfold depth
  rw [List.count_eq_zero_of_not_mem (fun hh => h _ hh (Or.inl rfl)), List.count_eq_zero_of_not_mem (fun hh => h _ hh (Or.inr rfl))]
  rfl

/-- The lines of `s`, when `cur` has been read of the first one. -/
def linesFrom (cur : List Char) : List Char → List (List Char)
  | [] => [cur]
  | c :: s => if c = '<' ∨ c = '>' then (cur ++ [c]) :: linesFrom [] s else linesFrom (cur ++ [c]) s

theorem linesFrom_ne (s : List Char) : ∀ cur, linesFrom cur s ≠ [] := by
  induction s with
  | nil => intro cur; simp [linesFrom]
  | cons c s ih => intro cur; unfold linesFrom; split <;> simp [ih]

theorem linesFrom_spec (s : List Char) : ∀ cur, (∀ c ∈ cur, ¬ bracket c) → IsLines (linesFrom cur s) (cur ++ s) := by
  induction s with
  | nil =>
    intro cur hc
    refine ⟨by simp [linesFrom], fun i hi => by simp [linesFrom] at hi, ⟨cur, by simp [linesFrom], hc⟩⟩
  | cons c s ih =>
    intro cur hc
    unfold linesFrom
    split
    · rename_i hb
      have I := ih [] (by simp)
      refine ⟨by simp [I.join], ?_, ?_⟩
      · intro i hi
        cases i with
        | zero => exact ⟨cur, c, by simp, hb, hc⟩
        | succ i =>
          obtain ⟨x, b, h1, h2⟩ := I.cut i (by simp only [List.length_cons] at hi; omega)
          exact ⟨x, b, by simpa using h1, h2⟩
      · obtain ⟨x, h1, h2⟩ := I.last
        refine ⟨x, ?_, h2⟩
        rw [List.getLast?_cons, h1]; rfl
    · rename_i hb
      have I := ih (cur ++ [c]) (by
        intro d hd
        rcases List.mem_append.mp hd with h | h
        · exact hc d h
        · simp only [List.mem_singleton] at h; subst h; exact hb)
      simpa using I

/-- The level of each line. -/
def levelsFrom : Int → List (List Char) → List Int
  | _, [] => []
  | d, l :: ls => d :: levelsFrom (d + depth l) ls

theorem run_spec (s : List Char) : ∀ (cur : List Char) (done : List (List Char)) (lev : List Int) (k : Int), (∀ c ∈ cur, ¬ bracket c) →
    lev.length = done.length →
    ∃ n, Tree.run ⟨done ++ [cur], done.length, lev ++ [k]⟩ s = .ok ⟨done ++ linesFrom cur s, n, lev ++ levelsFrom k (linesFrom cur s)⟩ := by
  induction s with
  | nil => intro cur done lev k _ _; exact ⟨done.length, by simp [Tree.run, linesFrom, levelsFrom]⟩
  | cons c s ih =>
    intro cur done lev k hc hl
    unfold Tree.run Tree.step
    have h1 : (done ++ [cur])[done.length]? = some cur := by simp
    have h2 : (lev ++ [k])[done.length]? = some k := by rw [← hl]; simp
    have h3 : (done ++ [cur]).set done.length (cur ++ [c]) = done ++ [cur ++ [c]] := by simp
    simp only [h1, h2, h3, Out.ok_bind, Out.pure_eq]
    by_cases hb1 : c = '<'
    · obtain ⟨n, e⟩ := ih [] (done ++ [cur ++ [c]]) (lev ++ [k]) (k + 1) (by simp) (by simp [hl])
      refine ⟨n, ?_⟩
      rw [if_pos hb1]
      simp only [Out.ok_bind]
      have hd : depth (cur ++ [c]) = 1 := by rw [depth_append, depth_plain hc, hb1]; decide
      rw [show linesFrom cur (c :: s) = (cur ++ [c]) :: linesFrom [] s by rw [linesFrom, if_pos (Or.inl hb1)]]
      simp only [levelsFrom, hd]
      simpa using e
    · by_cases hb2 : c = '>'
      · obtain ⟨n, e⟩ := ih [] (done ++ [cur ++ [c]]) (lev ++ [k]) (k - 1) (by simp) (by simp [hl])
        refine ⟨n, ?_⟩
        rw [if_neg hb1, if_pos hb2]
        simp only [Out.ok_bind]
        have hd : depth (cur ++ [c]) = -1 := by rw [depth_append, depth_plain hc, hb2]; decide
        rw [show linesFrom cur (c :: s) = (cur ++ [c]) :: linesFrom [] s by rw [linesFrom, if_pos (Or.inr hb2)]]
        simp only [levelsFrom, hd]
        simpa [Int.sub_eq_add_neg] using e
      · have hcc : ∀ d ∈ cur ++ [c], ¬ bracket d := by
          intro d hd
          rcases List.mem_append.mp hd with h | h
          · exact hc d h
          · simp only [List.mem_singleton] at h; subst h; exact fun h => h.elim hb1 hb2
        obtain ⟨n, e⟩ := ih (cur ++ [c]) done lev k hcc hl
        refine ⟨n, ?_⟩
        rw [if_neg hb1, if_neg hb2]
        simp only [Out.ok_bind]
        rw [show linesFrom cur (c :: s) = linesFrom (cur ++ [c]) s by rw [linesFrom, if_neg (fun h => h.elim hb1 hb2)]]
        exact e

theorem print_spec {n0 : Nat} (ls : List (List Char)) : ∀ (done : List (List Char)) (lev : List Int) (k : Int) (out : List Char),
    lev.length = done.length → (∀ d ∈ levelsFrom k ls, 0 ≤ d) →
    Tree.print ⟨done ++ ls, n0, lev ++ levelsFrom k ls⟩ ls.length out = .ok (out ++ indented k ls) := by
  induction ls with
  | nil => intro done lev k out _ _; simp [Tree.print, indented]
  | cons l ls ih =>
    intro done lev k out hl hk
    have hk0 : 0 ≤ k := hk k (by simp [levelsFrom])
    simp only [List.length_cons, Tree.print]
    have hi : (done ++ l :: ls).length - (ls.length + 1) = done.length := by simp
    rw [hi]
    have h1 : (lev ++ levelsFrom k (l :: ls))[done.length]? = some k := by rw [← hl]; simp [levelsFrom]
    have h2 : (done ++ l :: ls)[done.length]? = some l := by simp
    simp only [h1, h2, Out.ok_bind, indentation, if_pos hk0]
    have := ih (done ++ [l]) (lev ++ [k]) (k + depth l) (out ++ List.replicate k.toNat '\t' ++ l ++ ['\n']) (by simp [hl])
      (fun d hd => hk d (by simp [levelsFrom, hd]))
    simp only [List.append_assoc, List.cons_append, List.nil_append] at this ⊢
    simp only [levelsFrom, indented, List.append_assoc, List.cons_append, List.nil_append]
    exact this

theorem levels_prefix (ls : List (List Char)) : ∀ (k : Int) d, d ∈ levelsFrom k ls → ∃ pre, pre <+: ls.flatten ∧ d = k + depth pre := by
  induction ls with
  | nil => intro k d h; simp [levelsFrom] at h
  | cons l ls ih =>
    intro k d h
    simp only [levelsFrom, List.mem_cons] at h
    rcases h with rfl | h
    · exact ⟨[], List.nil_prefix, by simp [depth]⟩
    · obtain ⟨pre, hp, hd⟩ := ih _ d h
      refine ⟨l ++ pre, ?_, by rw [hd, depth_append]; ring⟩
      simpa using (List.prefix_append_right_inj l).mpr hp

/-- C72: for a type name in which no prefix closes more brackets than it opens (in particular if the brackets are balanced), the output
is the name cut into lines after each angle bracket; each line is indented by the number of brackets open at its start. -/
theorem C72_tree {s : List Char} (hb : ∀ pre, pre <+: s → 0 ≤ depth pre) :
    ∃ ls, IsLines ls s ∧ printAST s = .ok (indented 0 ls) := by
  have I := linesFrom_spec s [] (by simp)
  refine ⟨linesFrom [] s, by simpa using I, ?_⟩
  obtain ⟨n, e⟩ := run_spec s [] [] [] 0 (by simp) rfl
  unfold printAST
  simp only [List.nil_append, List.length_nil] at e
  rw [e]
  simp only [Out.ok_bind]
  have := print_spec (n0 := n) (linesFrom [] s) [] [] 0 [] rfl (by
    intro d hd
    obtain ⟨pre, hp, rfl⟩ := levels_prefix _ _ _ hd
    rw [I.join] at hp
    have := hb pre (by simpa using hp)
    omega)
  simpa using this

theorem indented_strip (ls : List (List Char)) : ∀ d, (∀ l ∈ ls, ∀ c ∈ l, c ≠ '\t' ∧ c ≠ '\n') →
    (indented d ls).filter (fun c => c ≠ '\t' ∧ c ≠ '\n') = ls.flatten := by
  induction ls with
  | nil => intro d _; simp [indented]
  | cons l ls ih =>
    intro d h
    simp only [indented, List.filter_append, List.flatten_cons]
    rw [ih _ (fun l' h' => h l' (by simp [h']))]
    have h1 : (List.replicate d.toNat '\t').filter (fun c => c ≠ '\t' ∧ c ≠ '\n') = [] := by simp
    have h2 : l.filter (fun c => c ≠ '\t' ∧ c ≠ '\n') = l := List.filter_eq_self.mpr (fun c hc => by simpa using h l (by simp) c hc)
    rw [h1, h2]
    simp

/-- C72: without the inserted tabs and line breaks the output is the type name. -/
theorem C72_strip {s : List Char} (hb : ∀ pre, pre <+: s → 0 ≤ depth pre) (hs : ∀ c ∈ s, c ≠ '\t' ∧ c ≠ '\n') :
    ∃ out, printAST s = .ok out ∧ out.filter (fun c => c ≠ '\t' ∧ c ≠ '\n') = s := by
  obtain ⟨ls, I, e⟩ := C72_tree hb
  refine ⟨_, e, ?_⟩
  rw [indented_strip ls 0, I.join]
  intro l hl c hc
  exact hs c (by rw [← I.join]; exact List.mem_flatten.mpr ⟨l, hl, hc⟩)

theorem linesFrom_plain (x : List Char) : ∀ cur s, (∀ c ∈ x, ¬ bracket c) → linesFrom cur (x ++ s) = linesFrom (cur ++ x) s := by
  induction x with
  | nil => intro cur s _; simp
  | cons c x ih =>
    intro cur s h
    rw [List.cons_append, linesFrom, if_neg (show ¬ (c = '<' ∨ c = '>') from h c (by simp)), ih _ _ (fun d hd => h d (by simp [hd]))]
    simp

theorem lines_eq : ∀ {ls : List (List Char)} {s : List Char}, IsLines ls s → ls = linesFrom [] s := by
  intro ls
  induction ls with
  | nil => intro s I; obtain ⟨x, h, _⟩ := I.last; simp at h
  | cons l ls ih =>
    intro s I
    cases ls with
    | nil =>
      obtain ⟨x, h, hx⟩ := I.last
      simp only [List.getLast?_singleton, Option.some.injEq] at h
      subst h
      have := I.join
      simp only [List.flatten_cons, List.flatten_nil, List.append_nil] at this
      have h2 := linesFrom_plain l [] [] hx
      rw [List.append_nil] at h2
      rw [← this, h2]
      simp [linesFrom]
    | cons l2 r =>
      obtain ⟨x, b, h1, h2, h3⟩ := I.cut 0 (by simp)
      simp only [List.getElem_cons_zero] at h1
      have I2 : IsLines (l2 :: r) (l2 :: r).flatten := by
        refine ⟨rfl, fun i hi => ?_, ?_⟩
        · have := I.cut (i + 1) (by simpa using hi)
          simpa using this
        · obtain ⟨y, hy, hy'⟩ := I.last
          exact ⟨y, by simpa [List.getLast?_cons] using hy, hy'⟩
      have hs : s = x ++ (b :: (l2 :: r).flatten) := by rw [← I.join, List.flatten_cons, h1]; simp
      rw [hs, linesFrom_plain x [] _ h3, linesFrom, if_pos (show b = '<' ∨ b = '>' from h2), ← ih I2, h1]
      simp

/-- The cut into lines is unique: the output is determined by the type name. -/
theorem C72_lines_unique {ls ls' : List (List Char)} {s : List Char} (I : IsLines ls s) (I' : IsLines ls' s) : ls = ls' := by
  rw [lines_eq I, lines_eq I']

theorem print_thr {n0 : Nat} (ls : List (List Char)) : ∀ (done : List (List Char)) (lev : List Int) (k : Int) (out : List Char),
    lev.length = done.length → (∃ d ∈ levelsFrom k ls, d < 0) →
    Tree.print ⟨done ++ ls, n0, lev ++ levelsFrom k ls⟩ ls.length out = .thr "std::length_error" := by
  induction ls with
  | nil => intro done lev k out _ h; simp [levelsFrom] at h
  | cons l ls ih =>
    intro done lev k out hl hk
    simp only [List.length_cons, Tree.print]
    have hi : (done ++ l :: ls).length - (ls.length + 1) = done.length := by simp
    rw [hi]
    have h1 : (lev ++ levelsFrom k (l :: ls))[done.length]? = some k := by rw [← hl]; simp [levelsFrom]
    have h2 : (done ++ l :: ls)[done.length]? = some l := by simp
    by_cases hk0 : 0 ≤ k
    · simp only [h1, h2, Out.ok_bind, indentation, if_pos hk0]
      have := ih (done ++ [l]) (lev ++ [k]) (k + depth l) (out ++ List.replicate k.toNat '\t' ++ l ++ ['\n']) (by simp [hl]) (by
        obtain ⟨d, hd, hd'⟩ := hk
        simp only [levelsFrom, List.mem_cons] at hd
        rcases hd with rfl | hd
        · omega
        · exact ⟨d, hd, hd'⟩)
      simp only [List.append_assoc, List.cons_append, List.nil_append] at this ⊢
      simp only [levelsFrom, List.append_assoc]
      exact this
    · simp only [h1, Out.ok_bind, indentation, if_neg hk0]
      rfl

theorem neg_level (ls : List (List Char)) : ∀ (k : Int) (s pre : List Char), IsLines ls s → pre <+: s → k + depth pre < 0 →
    ∃ d ∈ levelsFrom k ls, d < 0 := by
  induction ls with
  | nil => intro k s pre I; obtain ⟨x, h, _⟩ := I.last; simp at h
  | cons l ls ih =>
    intro k s pre I hp hk
    by_cases hk0 : k < 0
    · exact ⟨k, by simp [levelsFrom], hk0⟩
    cases ls with
    | nil =>
      obtain ⟨x, h, hx⟩ := I.last
      simp only [List.getLast?_singleton, Option.some.injEq] at h
      subst h
      have hj := I.join
      simp only [List.flatten_cons, List.flatten_nil, List.append_nil] at hj
      have : depth pre = 0 := depth_plain (fun c hc => hx c (by rw [hj]; exact hp.subset hc))
      omega
    | cons l2 r =>
      obtain ⟨x, b, h1, h2, h3⟩ := I.cut 0 (by simp)
      simp only [List.getElem_cons_zero] at h1
      have I2 : IsLines (l2 :: r) (l2 :: r).flatten := by
        refine ⟨rfl, fun i hi => ?_, ?_⟩
        · have := I.cut (i + 1) (by simpa using hi)
          simpa using this
        · obtain ⟨y, hy, hy'⟩ := I.last
          exact ⟨y, by simpa [List.getLast?_cons] using hy, hy'⟩
      have hs : s = l ++ (l2 :: r).flatten := by rw [← I.join, List.flatten_cons]
      rw [hs] at hp
      by_cases hlen : l.length ≤ pre.length
      · obtain ⟨q, rfl⟩ : ∃ q, pre = l ++ q := by
          have := List.prefix_of_prefix_length_le (List.prefix_append l (l2 :: r).flatten) hp hlen
          obtain ⟨q, hq⟩ := this
          exact ⟨q, hq.symm⟩
        have hq : q <+: (l2 :: r).flatten := (List.prefix_append_right_inj l).mp hp
        rw [depth_append] at hk
        obtain ⟨d, hd, hd'⟩ := ih (k + depth l) _ q I2 hq (by omega)
        exact ⟨d, by rw [levelsFrom]; exact List.mem_cons_of_mem _ hd, hd'⟩
      · have h5 : pre <+: x := by
          have h6 : pre <+: l := List.prefix_of_prefix_length_le hp (List.prefix_append l _) (by omega)
          rw [h1] at h6 hlen
          simp only [List.length_append, List.length_singleton] at hlen
          exact List.prefix_of_prefix_length_le h6 (List.prefix_append x [b]) (by omega)
        have : depth pre = 0 := depth_plain (fun c hc => h3 c (h5.subset hc))
        omega

/-- Which names can be printed: exactly those in which no prefix closes more brackets than it opens; for the others the indentation
becomes negative and the program fails. -/
theorem C72_characterised (s : List Char) :
    ((∃ out, printAST s = .ok out) ↔ ∀ pre, pre <+: s → 0 ≤ depth pre) ∧
    ((∃ pre, pre <+: s ∧ depth pre < 0) → printAST s = .thr "std::length_error") := by
  have bad : (∃ pre, pre <+: s ∧ depth pre < 0) → printAST s = .thr "std::length_error" := by
    rintro ⟨pre, hp, hd⟩
    have I := linesFrom_spec s [] (by simp)
    obtain ⟨n, e⟩ := run_spec s [] [] [] 0 (by simp) rfl
    unfold printAST
    simp only [List.nil_append, List.length_nil] at e
    rw [e]
    simp only [Out.ok_bind]
    have := print_thr (n0 := n) (linesFrom [] s) [] [] 0 [] rfl (neg_level _ 0 s pre (by simpa using I) hp (by omega))
    simpa using this
  refine ⟨⟨fun ⟨out, ho⟩ pre hp => ?_, fun h => ?_⟩, bad⟩
  · by_contra hn
    rw [bad ⟨pre, hp, by omega⟩] at ho
    cases ho
  · obtain ⟨ls, _, e⟩ := C72_tree h
    exact ⟨_, e⟩

/-- `Vec<A<int>, B>` -/
example : printAST "Vec<A<int>, B>".toList = .ok "Vec<\n\tA<\n\t\tint>\n\t, B>\n\n".toList := by decide +kernel

example : ∀ pre, pre <+: "V<A<i>>".toList → 0 ≤ depth pre := by
  intro pre h
  rw [← List.mem_inits] at h
  revert pre
  decide +kernel

/-- A name that closes a bracket it has not opened cannot be printed. -/
example : printAST "a>b".toList = .thr "std::length_error" := by decide +kernel

theorem sampleType_balanced : ∀ pre, pre <+: "V<A<i>>".toList → 0 ≤ depth pre := by
  intro pre h
  rw [← List.mem_inits] at h
  revert pre
  decide +kernel

example : ∃ ls, IsLines ls "V<A<i>>".toList ∧ printAST "V<A<i>>".toList = .ok (indented 0 ls) := C72_tree sampleType_balanced

example : ∃ out, printAST "V<A<i>>".toList = .ok out ∧ out.filter (fun c => c ≠ '\t' ∧ c ≠ '\n') = "V<A<i>>".toList :=
  C72_strip sampleType_balanced (by decide +kernel)

/-- There is one division into lines: the one that is printed is `V<`, `A<`, `i>`, `>` and the empty rest. -/
example (ls : List (List Char)) (h : IsLines ls "V<A<i>>".toList) : ls = ["V<".toList, "A<".toList, "i>".toList, ">".toList, []] := by
  refine C72_lines_unique h ⟨by decide, ?_, ⟨[], by decide, by simp⟩⟩
  intro i hi
  match i, hi with
  | 0, _ => exact ⟨['V'], '<', rfl, by simp [bracket], by simp [bracket]⟩
  | 1, _ => exact ⟨['A'], '<', rfl, by simp [bracket], by simp [bracket]⟩
  | 2, _ => exact ⟨['i'], '>', rfl, by simp [bracket], by simp [bracket]⟩
  | 3, _ => exact ⟨[], '>', rfl, by simp [bracket], by simp [bracket]⟩

end ETR
