import Verif.Model.MultiMap
/-! Facts about the reverse tables. -/
namespace Commsdsl.MultiMap
variable {κ : Type} [LT κ] [DecidableLT κ] [BEq κ] [LawfulBEq κ] [LE κ] [Std.IsLinearOrder κ] [Std.LawfulOrderLT κ]

omit [BEq κ] [LawfulBEq κ] [LE κ] [Std.IsLinearOrder κ] [Std.LawfulOrderLT κ] in
theorem insert_perm (k : κ) (v : Str) (l : List (κ × Str)) : (insert k v l).Perm ((k, v) :: l) := by
  induction l with
  | nil => exact .refl _
  | cons e r ih =>
    unfold insert
    split
    · exact .refl _
    · exact (ih.cons e).trans (.swap _ _ _)

omit [BEq κ] [LawfulBEq κ] in
theorem insert_sorted (k : κ) (v : Str) (l : List (κ × Str)) (h : (l.map Prod.fst).Pairwise (· ≤ ·)) :
    ((insert k v l).map Prod.fst).Pairwise (· ≤ ·) := by
  induction l with
  | nil => simp [insert]
  | cons e r ih =>
    simp only [List.map_cons, List.pairwise_cons] at h
    unfold insert
    split
    · rename_i hlt
      have hle : k ≤ e.1 := Std.le_of_lt hlt
      simp only [List.map_cons, List.pairwise_cons, List.mem_cons]
      refine ⟨?_, h⟩
      rintro a (rfl | ha)
      · exact hle
      · exact Std.le_trans hle (h.1 a ha)
    · rename_i hlt
      have hle : e.1 ≤ k := Std.not_lt.1 hlt
      simp only [List.map_cons, List.pairwise_cons]
      refine ⟨?_, ih h.2⟩
      intro a ha
      have : a ∈ ((k, v) :: r).map Prod.fst := ((insert_perm k v r).map Prod.fst).mem_iff.1 ha
      simp only [List.map_cons, List.mem_cons] at this
      rcases this with rfl | hm
      · exact hle
      · exact h.1 a hm

omit [LT κ] [DecidableLT κ] [Std.LawfulOrderLT κ] in
theorem uniqueLoop_iff (prev : κ) (l : List (κ × Str)) (h : (prev :: l.map Prod.fst).Pairwise (· ≤ ·)) :
    uniqueLoop prev l = true ↔ (prev :: l.map Prod.fst).Nodup := by
  induction l generalizing prev with
  | nil => simp [uniqueLoop]
  | cons e r ih =>
    unfold uniqueLoop
    simp only [List.map_cons] at h ⊢
    rw [List.pairwise_cons] at h
    split
    · rename_i he
      have he : prev = e.1 := by simpa using he
      simp [he]
    · rename_i he
      have he : prev ≠ e.1 := by simpa using he
      rw [ih e.1 h.2, List.nodup_cons (a := prev)]
      constructor
      · intro hn
        refine ⟨?_, hn⟩
        intro hm
        rcases List.mem_cons.1 hm with hm | hm
        · exact he hm
        · have h1 := h.1 e.1 (by simp)
          have h2 := (List.pairwise_cons.1 h.2).1 prev hm
          exact he (Std.le_antisymm h1 h2)
      · exact fun hn => hn.2

omit [LT κ] [DecidableLT κ] [Std.LawfulOrderLT κ] in
theorem isUnique_iff (l : List (κ × Str)) (h : (l.map Prod.fst).Pairwise (· ≤ ·)) :
    isUnique l = true ↔ (l.map Prod.fst).Nodup := by
  cases l with
  | nil => simp [isUnique]
  | cons e r => exact uniqueLoop_iff e.1 r h

omit [LT κ] [DecidableLT κ] [LE κ] [Std.IsLinearOrder κ] [Std.LawfulOrderLT κ] in
theorem has_iff (k : κ) (l : List (κ × Str)) : has k l = true ↔ k ∈ l.map Prod.fst := by
  unfold has
  simp only [List.any_eq_true, List.mem_map, beq_iff_eq]

end Commsdsl.MultiMap
