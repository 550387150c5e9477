import Verif.Model.Latex
import Verif.Spec.GenText
import Verif.Lemmas.Sample
/-!
# Property C112: labels in the LaTeX documents
-/
namespace Commsdsl.Props
open Commsdsl Gen Spec

namespace LabelProofs

theorem last_sep {a b s t : Str} (hs : ':' ∉ s) (ht : ':' ∉ t) (h : a ++ ':' :: s = b ++ ':' :: t) : a = b ∧ s = t := by
  induction a generalizing b with
  | nil =>
    cases b with
    | nil => injection h with _ h; exact ⟨rfl, h⟩
    | cons c cs =>
      injection h with _ h
      exact absurd (by rw [h]; simp) hs
  | cons c cs ih =>
    cases b with
    | nil =>
      injection h with _ h
      exact absurd (by rw [← h]; simp) ht
    | cons d ds =>
      injection h with e h
      obtain ⟨h1, h2⟩ := ih h
      exact ⟨by rw [e, h1], h2⟩

/-- The prefix tells the kind, what follows is the name. -/
theorem prefix_inj {k l : ElemKind} {n m : Str} (h : labelPrefix k ++ n = labelPrefix l ++ m) : k = l ∧ n = m := by
  have hk : k = l := by
    cases k <;> cases l <;> first | rfl | (exfalso; simp [labelPrefix] at h)
  subst hk
  exact ⟨rfl, List.append_cancel_left h⟩

theorem prefix_sep (k : ElemKind) : ':' ∉ labelPrefix k ∧ labelPrefix k ≠ [] := by cases k <;> decide

/-- Elements with names, and no colon in them. -/
def Named (p : ElemKind × Str) : Prop := p.2 ≠ [] ∧ ':' ∉ p.2

theorem seg_eq {p : ElemKind × Str} (h : Named p) : labelSeg p.1 p.2 = labelPrefix p.1 ++ p.2 := by
  unfold labelSeg
  rw [if_neg (by simpa using h.1)]

theorem seg_ne {p : ElemKind × Str} (h : Named p) : labelSeg p.1 p.2 ≠ [] ∧ ':' ∉ labelSeg p.1 p.2 := by
  rw [seg_eq h]
  constructor
  · intro e
    exact (prefix_sep p.1).2 (List.append_eq_nil_iff.1 e).1
  · intro hm
    rcases List.mem_append.1 hm with hm | hm
    · exact (prefix_sep p.1).1 hm
    · exact h.2 hm

theorem label_one {p : ElemKind × Str} : labelId [p] = labelSeg p.1 p.2 := by
  show (if !([] : Str).isEmpty && !(labelSeg p.1 p.2).isEmpty then ([] : Str) ++ ":".toList else []) ++ labelSeg p.1 p.2 = _
  simp

theorem label_ne {p : ElemKind × Str} (h : Named p) (ps : List (ElemKind × Str)) : labelId (p :: ps) ≠ [] := by
  show (if _ then _ else _) ++ labelSeg p.1 p.2 ≠ []
  intro e
  exact (seg_ne h).1 (List.append_eq_nil_iff.1 e).2

theorem label_more {p q : ElemKind × Str} (hp : Named p) (hq : Named q) (ps : List (ElemKind × Str)) :
    labelId (p :: q :: ps) = labelId (q :: ps) ++ ':' :: labelSeg p.1 p.2 := by
  have h1 : (labelId (q :: ps)).isEmpty = false := by simpa using label_ne hq ps
  have h2 : (labelSeg p.1 p.2).isEmpty = false := by simpa using (seg_ne hp).1
  show (if !(labelId (q :: ps)).isEmpty && !(labelSeg p.1 p.2).isEmpty then labelId (q :: ps) ++ ":".toList else labelId (q :: ps)) ++ labelSeg p.1 p.2 = _
  rw [h1, h2]
  simp

/-- The label with a suffix added: what comes before the innermost element, and its name with the suffix. -/
theorem suffix_inj {p q : ElemKind × Str} {ps qs : List (ElemKind × Str)} {x y : Str} (hp : Named p) (hq : Named q) (hps : ∀ e ∈ ps, Named e)
    (hqs : ∀ e ∈ qs, Named e) (hx : ':' ∉ x) (hy : ':' ∉ y) (h : labelId (p :: ps) ++ x = labelId (q :: qs) ++ y) :
    labelId ps = labelId qs ∧ (ps = [] ↔ qs = []) ∧ p.1 = q.1 ∧ p.2 ++ x = q.2 ++ y := by
  have hsp : ':' ∉ labelSeg p.1 p.2 ++ x := by
    intro hm; rcases List.mem_append.1 hm with hm | hm
    · exact (seg_ne hp).2 hm
    · exact hx hm
  have hsq : ':' ∉ labelSeg q.1 q.2 ++ y := by
    intro hm; rcases List.mem_append.1 hm with hm | hm
    · exact (seg_ne hq).2 hm
    · exact hy hm
  have fin : labelSeg p.1 p.2 ++ x = labelSeg q.1 q.2 ++ y → p.1 = q.1 ∧ p.2 ++ x = q.2 ++ y := by
    intro h
    rw [seg_eq hp, seg_eq hq, List.append_assoc, List.append_assoc] at h
    exact prefix_inj h
  cases ps with
  | nil =>
    cases qs with
    | nil =>
      rw [label_one, label_one] at h
      exact ⟨rfl, Iff.rfl, fin h⟩
    | cons b bs =>
      rw [label_one, label_more hq (hqs b (List.mem_cons_self ..))] at h
      exact absurd (by rw [h]; simp) hsp
  | cons a as =>
    cases qs with
    | nil =>
      rw [label_one, label_more hp (hps a (List.mem_cons_self ..))] at h
      exact absurd (by rw [← h]; simp) hsq
    | cons b bs =>
      rw [label_more hq (hqs b (List.mem_cons_self ..)), label_more hp (hps a (List.mem_cons_self ..)), List.append_assoc, List.append_assoc] at h
      obtain ⟨h1, h2⟩ := last_sep hsp hsq h
      exact ⟨h1, by simp, fin h2⟩

theorem label_inj : ∀ {ps qs : List (ElemKind × Str)}, (∀ e ∈ ps, Named e) → (∀ e ∈ qs, Named e) → labelId ps = labelId qs → ps = qs
  | [], [], _, _, _ => rfl
  | [], q :: qs, _, hq, h => absurd h.symm (label_ne (hq q (List.mem_cons_self ..)) qs)
  | p :: ps, [], hp, _, h => absurd h (label_ne (hp p (List.mem_cons_self ..)) ps)
  | p :: ps, q :: qs, hp, hq, h => by
    obtain ⟨h1, _, h2, h3⟩ := suffix_inj (x := []) (y := []) (hp p (List.mem_cons_self ..)) (hq q (List.mem_cons_self ..))
      (fun e he => hp e (List.mem_cons_of_mem _ he)) (fun e he => hq e (List.mem_cons_of_mem _ he)) (by simp) (by simp) (by rw [h])
    rw [List.append_nil, List.append_nil] at h3
    rw [label_inj (fun e he => hp e (List.mem_cons_of_mem _ he)) (fun e he => hq e (List.mem_cons_of_mem _ he)) h1, Prod.ext h2 h3]

theorem label_filter : ∀ ps : List (ElemKind × Str), labelId ps = labelId (ps.filter fun p => !p.2.isEmpty)
  | [] => rfl
  | (k, n) :: ps => by
    by_cases h : n.isEmpty = true
    · rw [List.filter_cons_of_neg (by simp [h]), ← label_filter ps]
      have hs : labelSeg k n = [] := by unfold labelSeg; rw [if_pos h]
      show (if !(labelId ps).isEmpty && !(labelSeg k n).isEmpty then _ else labelId ps) ++ labelSeg k n = _
      rw [hs]; simp
    · rw [List.filter_cons_of_pos (by simp [h])]
      show (if !(labelId ps).isEmpty && !(labelSeg k n).isEmpty then labelId ps ++ ":".toList else labelId ps) ++ labelSeg k n =
        (if !(labelId (ps.filter fun p => !p.2.isEmpty)).isEmpty && !(labelSeg k n).isEmpty then labelId (ps.filter fun p => !p.2.isEmpty) ++ ":".toList
          else labelId (ps.filter fun p => !p.2.isEmpty)) ++ labelSeg k n
      rw [← label_filter ps]

/-- What is added to a label for the parts of the description of an element. -/
def partNames : List Str := ["".toList, "_details".toList, "_fields".toList, "_members".toList, "_values".toList, "_specials".toList, "_bits".toList]

end LabelProofs
open LabelProofs

/-! ## C112 -/

/-- Two elements have the same label only if they are reached by the same path (elements without a name, such as the root namespace, do not
    count). Paths have the innermost element first. -/
theorem C112_labels (p q : List (ElemKind × Str)) (hp : ∀ e ∈ p, ':' ∉ e.2) (hq : ∀ e ∈ q, ':' ∉ e.2) :
    labelId p = labelId q ↔ p.filter (fun e => !e.2.isEmpty) = q.filter (fun e => !e.2.isEmpty) := by
  rw [label_filter p, label_filter q]
  constructor
  · refine label_inj ?_ ?_
    · intro e he
      obtain ⟨h1, h2⟩ := List.mem_filter.1 he
      exact ⟨by simpa using h2, hp e h1⟩
    · intro e he
      obtain ⟨h1, h2⟩ := List.mem_filter.1 he
      exact ⟨by simpa using h2, hq e h1⟩
  · intro h; rw [h]

/-- The labels of the parts of two descriptions agree only for the same part of the same element, unless a name ends like one of the parts.
    Missing from the full claim: such names, see `C112_part_witness`. -/
theorem C112_parts_partial (p q : ElemKind × Str) (ps qs : List (ElemKind × Str)) (x y : Str) (hx : x ∈ partNames) (hy : y ∈ partNames)
    (hp : ∀ e ∈ p :: ps, e.2 ≠ [] ∧ ':' ∉ e.2) (hq : ∀ e ∈ q :: qs, e.2 ≠ [] ∧ ':' ∉ e.2)
    (hn : ∀ z ∈ partNames, z ≠ [] → ¬ z <:+ p.2 ∧ ¬ z <:+ q.2) (h : labelId (p :: ps) ++ x = labelId (q :: qs) ++ y) : p :: ps = q :: qs ∧ x = y := by
  have hc : ∀ z ∈ partNames, ':' ∉ z := by decide
  obtain ⟨h1, _, h2, h3⟩ := suffix_inj (hp p (List.mem_cons_self ..)) (hq q (List.mem_cons_self ..)) (fun e he => hp e (List.mem_cons_of_mem _ he))
    (fun e he => hq e (List.mem_cons_of_mem _ he)) (hc x hx) (hc y hy) h
  have hps : ps = qs := label_inj (fun e he => hp e (List.mem_cons_of_mem _ he)) (fun e he => hq e (List.mem_cons_of_mem _ he)) h1
  have hsuf : ∀ a ∈ partNames, ∀ b ∈ partNames, a ≠ [] → a <:+ b → a = b := by decide +kernel
  have key : ∀ (a b u v : Str), a ∈ partNames → b ∈ partNames → u ++ a = v ++ b → a.length ≤ b.length → (∀ z ∈ partNames, z ≠ [] → ¬ z <:+ u) → a = b := by
    intro a b u v ha hb e hl hz
    by_cases hae : a = []
    · subst hae
      by_cases hbe : b = []
      · exact hbe.symm
      · rw [List.append_nil] at e
        exact absurd ⟨v, e.symm⟩ (hz b hb hbe)
    · refine hsuf a ha b hb hae ?_
      have h1 : a <:+ v ++ b := ⟨u, e⟩
      exact List.suffix_of_suffix_length_le h1 (List.suffix_append v b) hl
  have hxy : x = y := by
    rcases Nat.le_total x.length y.length with hl | hl
    · exact key x y p.2 q.2 hx hy h3 hl fun z hz hz' => (hn z hz hz').1
    · exact (key y x q.2 p.2 hy hx h3.symm hl fun z hz hz' => (hn z hz hz').2).symm
  subst hxy
  exact ⟨by rw [hps, Prod.ext h2 (List.append_cancel_right h3)], rfl⟩

open Sample in
/-- An accepted bundle has a field called like the part of another one: that label is defined twice. -/
theorem C112_part_witness : (∃ f, Spec.Accepted f ∧ f.members.map Fld.Field.name = ["a".toList, "a_details".toList]) ∧
    ∀ parents : List (ElemKind × Str), labelId ((.field, "a".toList) :: parents) ++ "_details".toList = labelId ((.field, "a_details".toList) :: parents) := by
  constructor
  · obtain ⟨f, h1, h2⟩ := accepted env0_ok (parent := .top)
      (x := el "bundle" [("name", "b")] [el "int" [("name", "a"), ("type", "uint8")], el "int" [("name", "a_details"), ("type", "uint8")]])
      (p := fun f => decide (f.members.map Fld.Field.name = ["a".toList, "a_details".toList])) (by decide +kernel)
    exact ⟨f, h1, of_decide_eq_true h2⟩
  · intro parents
    show ((if !(labelId parents).isEmpty && true then labelId parents ++ ":".toList else labelId parents) ++ "field_a".toList) ++ "_details".toList =
      (if !(labelId parents).isEmpty && true then labelId parents ++ ":".toList else labelId parents) ++ ("field_a".toList ++ "_details".toList)
    rw [List.append_assoc]

example : labelId [(.field, "a".toList), (.msg, "M".toList), (.ns, "n".toList), (.ns, []), (.schema, "s".toList)] =
    "schema_s:ns_n:msg_M:field_a".toList := by decide +kernel
example : ("_details".toList ∈ partNames) ∧ (∀ z ∈ partNames, z ≠ [] → ¬ z <:+ "a".toList ∧ ¬ z <:+ "b".toList) := by decide +kernel

end Commsdsl.Props
