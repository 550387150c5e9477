import Verif.Spec.Sort
import Verif.Lemmas.Sort
import Verif.Lemmas.StrOrder
/-!
# Lemmas about sorting with arbitrary algorithms
-/
namespace Commsdsl.Sorting
open Commsdsl Spec Msg

/-- A strict weak order in which only equal elements are equivalent. -/
structure Total {α : Type} (S : α → Prop) (lt : α → α → Bool) : Prop where
  irrefl : ∀ a, S a → lt a a = false
  trans : ∀ a b c, S a → S b → S c → lt a b = true → lt b c = true → lt a c = true
  tie : ∀ a b, S a → S b → lt a b = false → lt b a = false → a = b

theorem Total.weak {α : Type} {S : α → Prop} {lt : α → α → Bool} (h : Total S lt) : StrictWeak S lt where
  irrefl := h.irrefl
  trans := h.trans
  incomparable a b c ha hb hc h1 h2 h3 h4 := by
    obtain rfl := h.tie a b ha hb h1 h2
    exact ⟨h3, h4⟩

theorem StrictWeak.mono {α : Type} {S T : α → Prop} {lt : α → α → Bool} (h : StrictWeak S lt) (hs : ∀ a, T a → S a) : StrictWeak T lt where
  irrefl a ha := h.irrefl a (hs a ha)
  trans a b c ha hb hc := h.trans a b c (hs a ha) (hs b hb) (hs c hc)
  incomparable a b c ha hb hc := h.incomparable a b c (hs a ha) (hs b hb) (hs c hc)

theorem nlt_trans {α : Type} {S : α → Prop} {lt : α → α → Bool} (h : StrictWeak S lt) {a b c : α} (ha : S a) (hb : S b) (hc : S c) (h1 : lt b a = false)
    (h2 : lt c b = false) : lt c a = false := by
  cases hca : lt c a with
  | false => rfl
  | true =>
    exfalso
    cases hab : lt a b with
    | true =>
      have := h.trans c a b hc ha hb hca hab
      rw [h2] at this
      cases this
    | false =>
      cases hbc : lt b c with
      | true =>
        have := h.trans b c a hb hc ha hbc hca
        rw [h1] at this
        cases this
      | false =>
        have := (h.incomparable a b c ha hb hc hab h1 hbc h2).2
        rw [hca] at this
        cases this

theorem sorts {α : Type} {lt : α → α → Bool} {l : List α} (h : StrictWeak (· ∈ l) lt) : SortsTo lt l (sortBy lt l) := by
  refine ⟨sortBy_perm lt l, ?_⟩
  refine sortBy_pairwise lt (· ∈ l) (fun a b => lt b a = false) ?_ ?_ ?_ l (fun _ h => h)
  · intro a b c ha hb hc h1 h2
    exact nlt_trans h ha hb hc h1 h2
  · intro a b ha hb hab
    cases hba : lt b a with
    | false => rfl
    | true =>
      have := h.trans a b a ha hb ha hab hba
      rw [h.irrefl a ha] at this
      cases this
  · intro a b _ _ hab
    exact hab

/-- With no two different equivalent elements there is one result. -/
theorem unique {α : Type} {lt : α → α → Bool} {l r : List α} (h : Total (· ∈ l) lt) (hr : SortsTo lt l r) : r = sortBy lt l := by
  have hs := sorts h.weak
  have aux : ∀ r r' : List α, r.Perm r' → (∀ a ∈ r, a ∈ l) → (∀ a ∈ r', a ∈ l) → r.Pairwise (fun a b => lt b a = false) → r'.Pairwise (fun a b => lt b a = false) → r = r' := by
    intro r
    induction r with
    | nil => intro r' hp _ _ _ _; exact (List.Perm.nil_eq hp)
    | cons a r ih =>
      intro r' hp m m' p p'
      cases r' with
      | nil => exact absurd hp.symm.nil_eq (by simp)
      | cons b r' =>
        rw [List.pairwise_cons] at p p'
        have hab : a = b := by
          have ha : a ∈ b :: r' := hp.mem_iff.1 (by simp)
          have hb : b ∈ a :: r := hp.mem_iff.2 (by simp)
          rcases List.mem_cons.1 ha with e | ha
          · exact e
          · rcases List.mem_cons.1 hb with e | hb
            · exact e.symm
            · exact h.tie a b (m a (by simp)) (m' b (by simp)) (p'.1 a ha) (p.1 b hb)
        subst hab
        rw [ih r' (List.Perm.cons_inv hp) (fun x hx => m x (by simp [hx])) (fun x hx => m' x (by simp [hx])) p.2 p'.2]
  exact aux r _ (hr.1.trans hs.1.symm) (fun a ha => hr.1.mem_iff.1 ha) (fun a ha => hs.1.mem_iff.1 ha) hr.2 hs.2

theorem Total.mono {α : Type} {S T : α → Prop} {lt : α → α → Bool} (h : Total S lt) (hs : ∀ a, T a → S a) : Total T lt where
  irrefl a ha := h.irrefl a (hs a ha)
  trans a b c ha hb hc := h.trans a b c (hs a ha) (hs b hb) (hs c hc)
  tie a b ha hb := h.tie a b (hs a ha) (hs b hb)

theorem nodup_inj {α β : Type} {f : α → β} : ∀ {l : List α}, (l.map f).Nodup → ∀ a ∈ l, ∀ b ∈ l, f a = f b → a = b
  | [], _ => by simp
  | x :: l, h => by
    intro a ha b hb e
    simp only [List.map_cons, List.nodup_cons] at h
    rcases List.mem_cons.1 ha with h1 | h1 <;> rcases List.mem_cons.1 hb with h2 | h2
    · rw [h1, h2]
    · exact absurd (List.mem_map.2 ⟨b, h2, by rw [← e, h1]⟩) h.1
    · exact absurd (List.mem_map.2 ⟨a, h1, by rw [e, h2]⟩) h.1
    · exact nodup_inj h.2 a h1 b h2 e

/-- An order by a key. -/
theorem total_key {α β : Type} {S : α → Prop} {lt : β → β → Bool} (f : α → β) (h : Total (fun _ => True) lt) (hi : ∀ a b, S a → S b → f a = f b → a = b) :
    Total S (fun a b => lt (f a) (f b)) where
  irrefl _ _ := h.irrefl _ trivial
  trans _ _ _ _ _ _ := h.trans _ _ _ trivial trivial trivial
  tie a b ha hb h1 h2 := hi a b ha hb (h.tie _ _ trivial trivial h1 h2)

theorem weak_key {α β : Type} {S : α → Prop} {lt : β → β → Bool} (f : α → β) (h : StrictWeak (fun _ => True) lt) : StrictWeak S (fun a b => lt (f a) (f b)) where
  irrefl _ _ := h.irrefl _ trivial
  trans _ _ _ _ _ _ := h.trans _ _ _ trivial trivial trivial
  incomparable _ _ _ _ _ _ := h.incomparable _ _ _ trivial trivial trivial

theorem str_total' : Total (fun _ => True) strLt where
  irrefl a _ := by rw [strLt_false]; exact str_irrefl a
  trans a b c _ _ _ h h' := by rw [strLt_iff] at *; exact str_trans h h'
  tie a b _ _ h h' := by rw [strLt_false] at *; exact str_total h h'

end Commsdsl.Sorting
