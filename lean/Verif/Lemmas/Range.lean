import Verif.Lemmas.Find
/-!
# Lemmas for `parseRange`
-/
namespace Commsdsl.Text
open Commsdsl Commsdsl.Spec

/-- blank characters of the range literal -/
theorem isBlank_iff (c : Char) : isBlank c = true ↔ (c = ' ' ∨ c = '\t') := by
  simp [isBlank]

theorem getLast_cons_append {α : Type} (x : α) (a : List α) :
    ∃ pre z, x :: a = pre ++ [z] ∧ pre.length = a.length ∧ (a = [] ∧ z = x ∨ a.getLast? = some z) := by
  induction a generalizing x with
  | nil => exact ⟨[], x, rfl, rfl, Or.inl ⟨rfl, rfl⟩⟩
  | cons y ys ih =>
    obtain ⟨pre, z, h1, h2, h3⟩ := ih y
    refine ⟨x :: pre, z, by rw [h1]; rfl, by simp [h2], Or.inr ?_⟩
    rw [h1]; simp

theorem parseRange_form (a w1 w2 b : Str)
    (hw1 : ∀ c ∈ w1, isBlank c = true) (hw2 : ∀ c ∈ w2, isBlank c = true)
    (ha : ∀ c, a.getLast? = some c → isBlank c = false) (hb : ∀ c, b.head? = some c → isBlank c = false)
    (hca : ',' ∉ a) (hcb : ',' ∉ b) (heb : ']' ∉ b)
    (hne : a ++ w1 ++ (w2 ++ b) ≠ []) :
    parseRange ('[' :: (a ++ w1) ++ ',' :: (w2 ++ b) ++ [']']) = .ok (a, b) := by
  have hcw1 : ',' ∉ w1 := fun h => by have := hw1 _ h; revert this; decide
  have hcw2 : ',' ∉ w2 := fun h => by have := hw2 _ h; revert this; decide
  have hew2 : ']' ∉ w2 := fun h => by have := hw2 _ h; revert this; decide
  generalize hs : '[' :: (a ++ w1) ++ ',' :: (w2 ++ b) ++ [']'] = s
  have hlen : s.length = a.length + w1.length + w2.length + b.length + 3 := by
    rw [← hs]; simp; omega
  have hpos : 0 < a.length + w1.length + w2.length + b.length := by
    have := List.length_pos_iff.2 hne
    simp at this; omega
  have e0 : findFrom '[' s 0 = some 0 :=
    findFrom_split.2 ⟨[], (a ++ w1) ++ ',' :: (w2 ++ b) ++ [']'], by rw [← hs]; simp, rfl, by simp⟩
  have e1 : findFrom ',' s (0 + 1) = some (1 + (a ++ w1).length) :=
    findFrom_split.2 ⟨a ++ w1, (w2 ++ b) ++ [']'], by rw [← hs]; simp, rfl, by simp [hca, hcw1]⟩
  have hdrop : s.drop (1 + (a ++ w1).length + 1) = w2 ++ b ++ [']'] := by
    rw [← hs]
    have : '[' :: (a ++ w1) ++ ',' :: (w2 ++ b) ++ [']'] = ('[' :: (a ++ w1) ++ [',']) ++ (w2 ++ b ++ [']']) := by simp
    rw [this, List.drop_left' (by simp; omega)]
  have htake : s.take (1 + (a ++ w1).length) = '[' :: (a ++ w1) := by
    rw [← hs, List.append_assoc, List.take_left' (by simp; omega)]
  have e2 : findFrom ',' s (1 + (a ++ w1).length + 1) = none := by
    rw [findFrom_none, hdrop]; simp [hcw2, hcb]
  have e3 : findFrom ']' s (1 + (a ++ w1).length + 1) = some (1 + (a ++ w1).length + 1 + (w2 ++ b).length) :=
    findFrom_split.2 ⟨w2 ++ b, [], by
      have : s = s.take (1 + (a ++ w1).length + 1) ++ s.drop (1 + (a ++ w1).length + 1) := (List.take_append_drop _ _).symm
      rw [hdrop] at this
      rw [List.append_assoc]; exact this, rfl, by simp [hew2, heb]⟩
  have e4 : findLastNotUpTo isBlank s (1 + (a ++ w1).length - 1) = some a.length := by
    unfold findLastNotUpTo
    rw [show 1 + (a ++ w1).length - 1 + 1 = 1 + (a ++ w1).length by omega, htake]
    obtain ⟨pre, z, h1, h2, h3⟩ := getLast_cons_append '[' a
    refine findLastNot_split.2 ⟨pre, z, w1, ?_, h2, hw1, ?_⟩
    · rw [← List.cons_append, h1]; simp
    · rcases h3 with ⟨_, rfl⟩ | h3
      · decide
      · exact ha z h3
  have e5 : findFirstNotFrom isBlank s (1 + (a ++ w1).length + 1) = some (w2.length + (1 + (a ++ w1).length + 1)) := by
    unfold findFirstNotFrom
    rw [hdrop]
    have : findFirstNot isBlank (w2 ++ b ++ [']']) = some w2.length := by
      cases b with
      | nil => exact findFirstNot_split.2 ⟨w2, ']', [], by simp, rfl, hw2, by decide⟩
      | cons c cs => exact findFirstNot_split.2 ⟨w2, c, cs ++ [']'], by simp, rfl, hw2, hb c rfl⟩
    rw [this]; rfl
  unfold parseRange
  rw [if_neg (by omega), e0]
  simp only [ne_eq, not_true_eq_false, if_false, e1, e2, Option.isSome_none, Bool.false_eq_true, e3]
  rw [if_neg (by simp [hlen]; omega)]
  simp only [e4, e5]
  have r1 : assignRange s (0 + 1) (a.length + 1) = .ok a := by
    unfold assignRange
    rw [if_pos (by omega), ← hs]
    have : '[' :: (a ++ w1) ++ ',' :: (w2 ++ b) ++ [']'] = ('[' :: a) ++ (w1 ++ ',' :: (w2 ++ b) ++ [']']) := by simp
    rw [this, List.take_left' (by simp)]
    rfl
  have r2 : assignRange s (w2.length + (1 + (a ++ w1).length + 1)) (1 + (a ++ w1).length + 1 + (w2 ++ b).length) = .ok b := by
    unfold assignRange
    rw [if_pos (by simp [hlen]; omega), ← hs]
    have h1 : '[' :: (a ++ w1) ++ ',' :: (w2 ++ b) ++ [']'] = ('[' :: (a ++ w1) ++ ',' :: w2 ++ b) ++ [']'] := by simp
    rw [h1, List.take_left' (by simp; omega), List.drop_left' (by simp; omega)]
  rw [r1, r2]
  rfl

/-- Splitting off trailing blanks. -/
theorem split_trailing (p : Char → Bool) (s : Str) :
    ∃ a w, s = a ++ w ∧ (∀ c ∈ w, p c = true) ∧ (∀ c, a.getLast? = some c → p c = false) := by
  cases h : findLastNot p s with
  | none => exact ⟨[], s, rfl, findLastNot_none.1 h, by simp⟩
  | some i =>
    obtain ⟨pre, c, post, h1, h2, h3, h4⟩ := findLastNot_split.1 h
    refine ⟨pre ++ [c], post, by simp [h1], h3, ?_⟩
    intro d hd
    have : c = d := by simpa using hd
    rw [← this]; exact h4

/-- Splitting off leading blanks. -/
theorem split_leading (p : Char → Bool) (s : Str) :
    ∃ w b, s = w ++ b ∧ (∀ c ∈ w, p c = true) ∧ (∀ c, b.head? = some c → p c = false) := by
  cases h : findFirstNot p s with
  | none => exact ⟨s, [], by simp, findFirstNot_none.1 h, by simp⟩
  | some i =>
    obtain ⟨pre, c, post, h1, h2, h3, h4⟩ := findFirstNot_split.1 h
    refine ⟨pre, c :: post, h1, h3, ?_⟩
    intro d hd
    have : c = d := by simpa using hd
    rw [← this]; exact h4

/-- Whatever is not rejected has the bracket form. -/
theorem parseRange_not_err {s : Str} (h : parseRange s ≠ .err) :
    ∃ lo hi, s = '[' :: lo ++ ',' :: hi ++ [']'] ∧ ',' ∉ lo ∧ ',' ∉ hi ∧ ']' ∉ hi ∧ lo ++ hi ≠ [] := by
  unfold parseRange at h
  split at h
  · exact absurd rfl h
  · rename_i hlen
    split at h
    · exact absurd rfl h
    · rename_i begPos hbeg
      split at h
      · exact absurd rfl h
      · rename_i hb0
        have hb0 : begPos = 0 := by simpa using hb0
        subst hb0
        split at h
        · exact absurd rfl h
        · rename_i sepPos hsep
          split at h
          · exact absurd rfl h
          · rename_i hsep2
            split at h
            · exact absurd rfl h
            · rename_i endPos hend
              split at h
              · exact absurd rfl h
              · rename_i hlast
                obtain ⟨m0, p0, g1, g2, _⟩ := findFrom_split.1 hbeg
                have hm0 : m0 = [] := by
                  have : m0.length = 0 := by omega
                  simpa using this
                subst hm0
                simp only [List.take_zero, List.nil_append] at g1
                subst g1
                obtain ⟨lo, p1, k1, k2, k3⟩ := findFrom_split.1 hsep
                simp only [Nat.zero_add, List.take_succ_cons, List.take_zero, List.cons_append,
                  List.nil_append, List.cons.injEq, true_and] at k1
                subst k1
                have hdrop : ('[' :: (lo ++ ',' :: p1)).drop (sepPos + 1) = p1 := by
                  have : '[' :: (lo ++ ',' :: p1) = ('[' :: lo ++ [',']) ++ p1 := by simp
                  rw [this, List.drop_left' (by simp; omega)]
                obtain ⟨hi, p2, q1, q2, q3⟩ := findFrom_split.1 hend
                have q1' : p1 = hi ++ ']' :: p2 := by
                  have e := congrArg (List.drop (sepPos + 1)) q1
                  rw [hdrop, List.append_assoc, List.drop_left' (by simp; omega)] at e
                  exact e
                have hp2 : p2 = [] := by
                  have hlast : endPos = ('[' :: (lo ++ ',' :: p1)).length - 1 := by simpa using hlast
                  rw [q1'] at hlast
                  simp at hlast
                  have : p2.length = 0 := by omega
                  simpa using this
                subst hp2
                have hc : ',' ∉ p1 := by
                  have : findFrom ',' ('[' :: (lo ++ ',' :: p1)) (sepPos + 1) = none := by simpa using hsep2
                  rw [findFrom_none, hdrop] at this
                  exact this
                refine ⟨lo, hi, by rw [q1']; simp, k3, ?_, q3, ?_⟩
                · intro hm; apply hc; rw [q1']; simp [hm]
                · intro hnil
                  rw [q1'] at hlen
                  have : (lo ++ hi).length = 0 := by rw [hnil]; rfl
                  simp at hlen this
                  rw [this.1, this.2] at hlen
                  simp at hlen

end Commsdsl.Text
