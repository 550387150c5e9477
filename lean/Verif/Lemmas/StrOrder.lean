import Verif.Model.Message
import Verif.Lemmas.Sort
/-!
# The order of strings, sorted lists, merging
-/
namespace Commsdsl.Msg
open Commsdsl Fld

theorem strLt_iff (a b : Str) : strLt a b = true ↔ a < b := by
  unfold strLt
  induction a generalizing b with
  | nil => cases b <;> simp [lexLt]
  | cons x xs ih =>
    cases b with
    | nil => simp [lexLt]
    | cons y ys =>
      rw [List.cons_lt_cons_iff, lexLt]
      split
      · rename_i h; simp only [decide_eq_true_eq] at h; simp [h]
      · rename_i h
        simp only [decide_eq_true_eq] at h
        split
        · rename_i h2
          simp only [decide_eq_true_eq] at h2
          simp only [Bool.false_eq_true, h, false_or, false_iff, not_and]
          intro e; subst e; exact absurd h2 h
        · rename_i h2
          simp only [decide_eq_true_eq] at h2
          have : x = y := by
            have h3 := Char.not_lt.1 h
            have h4 := Char.not_lt.1 h2
            exact Char.le_antisymm h4 h3
          subst this
          simp [ih]

theorem strLt_false (a b : Str) : strLt a b = false ↔ ¬ a < b := by
  rw [← strLt_iff]; simp

theorem str_irrefl (a : Str) : ¬ a < a := List.lt_irrefl a
theorem str_trans {a b c : Str} (h : a < b) (h' : b < c) : a < c := List.lt_trans h h'
theorem str_total {a b : Str} (h : ¬ a < b) (h' : ¬ b < a) : a = b :=
  List.le_antisymm (List.not_lt.1 h') (List.not_lt.1 h)

theorem sorted_strs (l : List Str) : (sortBy strLt l).Pairwise (fun a b => ¬ b < a) := by
  apply sortBy_pairwise strLt (fun _ => True)
  · intro a b c _ _ _ h1 h2 h3
    by_cases h : a < b
    · exact h2 (str_trans h3 h)
    · rw [str_total h h1] at h3; exact h2 h3
  · intro a b _ _ h h'; exact str_irrefl a (str_trans ((strLt_iff a b).1 h) h')
  · intro a b _ _ h h'; exact (strLt_false a b).1 h h'
  · simp

theorem uniqueAdj_mem (l : List Str) (x : Str) : x ∈ uniqueAdj l ↔ x ∈ l := by
  induction l using uniqueAdj.induct with
  | case1 => simp [uniqueAdj]
  | case2 => simp [uniqueAdj]
  | case3 b r ih => rw [uniqueAdj, if_pos rfl, ih]; simp
  | case4 a b r h ih => rw [uniqueAdj, if_neg h]; simp only [List.mem_cons, ih]

theorem uniqueAdj_sorted (l : List Str) (h : l.Pairwise (fun a b => ¬ b < a)) : (uniqueAdj l).Pairwise (· < ·) := by
  induction l using uniqueAdj.induct with
  | case1 => simp [uniqueAdj]
  | case2 => simp [uniqueAdj]
  | case3 b r ih => rw [uniqueAdj, if_pos rfl]; exact ih (List.pairwise_cons.1 h).2
  | case4 a b r e ih =>
    rw [uniqueAdj, if_neg e]
    obtain ⟨h1, h2⟩ := List.pairwise_cons.1 h
    refine List.pairwise_cons.2 ⟨?_, ih h2⟩
    intro x hx
    rw [uniqueAdj_mem] at hx
    have hab : a < b := by
      by_cases hh : a < b
      · exact hh
      · exact absurd (str_total hh (h1 b (by simp))) e
    rcases List.mem_cons.1 hx with rfl | hx
    · exact hab
    · by_cases hh : b < x
      · exact str_trans hab hh
      · have := str_total hh ((List.pairwise_cons.1 h2).1 x hx)
        rw [← this]; exact hab

/-- `std::set_difference` of strictly sorted lists: the elements of the first that are not in the second, still sorted. -/
theorem setDiff_spec (l r : List Str) (hl : l.Pairwise (· < ·)) (hr : r.Pairwise (· < ·)) :
    (setDiff l r).Pairwise (· < ·) ∧ ∀ x, x ∈ setDiff l r ↔ x ∈ l ∧ x ∉ r := by
  induction l, r using setDiff.induct with
  | case1 => simp [setDiff]
  | case2 a as => rw [setDiff]; exact ⟨hl, by simp⟩
  | case3 a as b bs h ih =>
    rw [setDiff, if_pos h]
    rw [strLt_iff] at h
    obtain ⟨h1, h2⟩ := List.pairwise_cons.1 hl
    obtain ⟨h3, h4⟩ := ih h2 hr
    have hb := List.pairwise_cons.1 hr
    refine ⟨List.pairwise_cons.2 ⟨fun x hx => h1 x ((h4 x).1 hx).1, h3⟩, ?_⟩
    intro x
    simp only [List.mem_cons, h4]
    constructor
    · rintro (rfl | ⟨h5, h6⟩)
      · refine ⟨.inl rfl, ?_⟩
        rintro (rfl | h7)
        · exact str_irrefl _ h
        · exact str_irrefl _ (str_trans h (hb.1 _ h7))
      · exact ⟨.inr h5, by simpa using h6⟩
    · rintro ⟨rfl | h5, h6⟩
      · exact .inl rfl
      · exact .inr ⟨h5, by simpa using h6⟩
  | case4 a as b bs h h' ih =>
    rw [setDiff, if_neg h, if_pos h']
    rw [strLt_iff] at h'
    obtain ⟨h3, h4⟩ := ih hl (List.pairwise_cons.1 hr).2
    refine ⟨h3, ?_⟩
    intro x
    rw [h4]
    constructor
    · rintro ⟨h5, h6⟩
      refine ⟨h5, ?_⟩
      simp only [List.mem_cons, not_or]
      refine ⟨?_, h6⟩
      rintro rfl
      rcases List.mem_cons.1 h5 with rfl | h7
      · exact str_irrefl _ h'
      · exact str_irrefl _ (str_trans h' ((List.pairwise_cons.1 hl).1 _ h7))
    · rintro ⟨h5, h6⟩
      exact ⟨h5, fun h7 => h6 (List.mem_cons_of_mem _ h7)⟩
  | case5 a as b bs h h' ih =>
    rw [setDiff, if_neg h, if_neg h']
    rw [strLt_iff] at h h'
    have e := str_total h h'
    subst e
    obtain ⟨h1, h2⟩ := List.pairwise_cons.1 hl
    obtain ⟨h5, h6⟩ := List.pairwise_cons.1 hr
    obtain ⟨h3, h4⟩ := ih h2 h6
    refine ⟨h3, ?_⟩
    intro x
    rw [h4]
    simp only [List.mem_cons, not_or]
    constructor
    · rintro ⟨h7, h8⟩
      exact ⟨.inr h7, fun e => str_irrefl _ (e ▸ h1 x h7), h8⟩
    · rintro ⟨rfl | h7, h8, h9⟩
      · exact absurd rfl h8
      · exact ⟨h7, h9⟩

theorem knownPlatform_mem {l : List Str} {p : Str} (h : knownPlatform l p = true) : p ∈ l := by
  unfold knownPlatform at h
  simp only [beq_iff_eq] at h
  exact List.mem_of_find?_eq_some h

theorem knownPlatform_of_mem {l : List Str} {p : Str} (hl : l.Pairwise (· < ·)) (h : p ∈ l) : knownPlatform l p = true := by
  unfold knownPlatform
  simp only [beq_iff_eq]
  induction l with
  | nil => simp at h
  | cons a l ih =>
    obtain ⟨h1, h2⟩ := List.pairwise_cons.1 hl
    rw [List.find?_cons]
    rcases List.mem_cons.1 h with rfl | h
    · have : strLt p p = false := (strLt_false p p).2 (str_irrefl p)
      simp [this]
    · have : strLt a p = true := (strLt_iff a p).2 (h1 p h)
      simp only [this, Bool.not_true]
      exact ih h2 h

end Commsdsl.Msg
