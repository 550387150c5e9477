import Verif.Model.Sort
/-! Lemmas on insertion sort. -/
namespace Commsdsl
variable {α : Type}

theorem insertBy_perm (lt : α → α → Bool) (x : α) (l : List α) : (insertBy lt x l).Perm (x :: l) := by
  induction l with
  | nil => exact List.Perm.refl _
  | cons y ys ih =>
    unfold insertBy
    split
    · exact List.Perm.refl _
    · exact (List.Perm.cons y ih).trans (List.Perm.swap x y ys)

theorem sortBy_perm (lt : α → α → Bool) (l : List α) : (sortBy lt l).Perm l := by
  induction l with
  | nil => exact List.Perm.refl _
  | cons x xs ih => exact (insertBy_perm lt x _).trans (List.Perm.cons x ih)

theorem mem_sortBy (lt : α → α → Bool) (l : List α) (a : α) : a ∈ sortBy lt l ↔ a ∈ l := (sortBy_perm lt l).mem_iff

/-- If on the elements satisfying `P` the relation `r` is transitive and follows from the comparator, the result is sorted by `r`. -/
theorem sortBy_pairwise (lt : α → α → Bool) (P : α → Prop) (r : α → α → Prop)
    (htrans : ∀ a b c, P a → P b → P c → r a b → r b c → r a c)
    (h1 : ∀ a b, P a → P b → lt a b = true → r a b)
    (h2 : ∀ a b, P a → P b → lt a b = false → r b a)
    (l : List α) (hl : ∀ a ∈ l, P a) : (sortBy lt l).Pairwise r := by
  have ins : ∀ x (l : List α), P x → (∀ a ∈ l, P a) → l.Pairwise r → (insertBy lt x l).Pairwise r := by
    intro x l hx
    induction l with
    | nil => intro _ _; simp [insertBy]
    | cons y ys ih =>
      intro hl hp
      have hy : P y := hl y (by simp)
      have hys : ∀ a ∈ ys, P a := fun a ha => hl a (by simp [ha])
      rw [List.pairwise_cons] at hp
      unfold insertBy
      split
      · rename_i hlt
        rw [List.pairwise_cons]
        refine ⟨?_, List.pairwise_cons.2 hp⟩
        intro a ha
        rcases List.mem_cons.1 ha with rfl | ha
        · exact h1 _ _ hx hy hlt
        · exact htrans x y a hx hy (hys a ha) (h1 _ _ hx hy hlt) (hp.1 a ha)
      · rename_i hlt
        rw [List.pairwise_cons]
        refine ⟨?_, ih hys hp.2⟩
        intro a ha
        rcases List.mem_cons.1 ((insertBy_perm lt x ys).mem_iff.1 ha) with rfl | ha
        · exact h2 _ _ hx hy (by simpa using hlt)
        · exact hp.1 a ha
  induction l with
  | nil => simp [sortBy]
  | cons x xs ih =>
    have hxs : ∀ a ∈ xs, P a := fun a ha => hl a (by simp [ha])
    exact ins x _ (hl x (by simp)) (fun a ha => hxs a ((mem_sortBy lt xs a).1 ha)) (ih hxs)

/-- A list sorted by an antisymmetric relation is determined by its elements. -/
theorem pairwise_perm_unique (r : α → α → Prop) (hanti : ∀ a b, r a b → r b a → a = b) (l l' : List α) (hp : l.Perm l')
    (h : l.Pairwise r) (h' : l'.Pairwise r) : l = l' := by
  induction l generalizing l' with
  | nil => exact (List.Perm.nil_eq hp)
  | cons a l ih =>
    cases l' with
    | nil => exact absurd hp.symm.nil_eq (by simp)
    | cons b l' =>
      rw [List.pairwise_cons] at h h'
      have hab : a = b := by
        have ha : a ∈ b :: l' := hp.mem_iff.1 (by simp)
        have hb : b ∈ a :: l := hp.mem_iff.2 (by simp)
        rcases List.mem_cons.1 ha with e | ha
        · exact e
        · rcases List.mem_cons.1 hb with e | hb
          · exact e.symm
          · exact hanti _ _ (h.1 b hb) (h'.1 a ha)
      subst hab
      rw [ih l' (List.Perm.cons_inv hp) h.2 h'.2]

end Commsdsl
