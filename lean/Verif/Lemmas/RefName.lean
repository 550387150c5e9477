import Verif.Lemmas.Find
import Mathlib.Tactic.Tauto
/-!
# Lemmas for names and dotted references
-/
namespace Commsdsl.Text
open Commsdsl Commsdsl.Spec

theorem nameRest_not_dot {c : Char} (h : NameRest c) : c ≠ '.' := by
  rintro rfl; revert h; unfold NameRest; decide

theorem noSeq_dot (rest : Str) (h : rest.head? ≠ some '.') :
    noSequentialDots ('.' :: rest) = noSequentialDots rest := by
  cases rest with
  | nil => rfl
  | cons c cs =>
    have hc : c ≠ '.' := by simpa using h
    simp [noSequentialDots, hc]

theorem noSeq_nondot (c : Char) (rest : Str) (h : c ≠ '.') :
    noSequentialDots (c :: rest) = noSequentialDots rest := by
  conv => { lhs; unfold noSequentialDots }
  split
  · rename_i heq; simp at heq
  · rename_i heq; simp at heq; exact absurd heq.1 h
  · rename_i heq; simp at heq; rw [heq.2]

theorem noSeq_append (w rest : Str) (h : ∀ c ∈ w, c ≠ '.') :
    noSequentialDots (w ++ rest) = noSequentialDots rest := by
  induction w with
  | nil => rfl
  | cons c cs ih =>
    rw [List.cons_append, noSeq_nondot _ _ (h c (by simp)), ih (fun d hd => h d (by simp [hd]))]

theorem split_dots : ∀ (n : Nat) (s : Str), s.length ≤ n → s ≠ [] → (∀ c ∈ s, NameRest c ∨ c = '.') →
    s.getLast? ≠ some '.' → noSequentialDots s = true → s.head? ≠ some '.' →
    ∃ w ws, s = joinDots (w :: ws) ∧ ∀ x ∈ w :: ws, x ≠ [] ∧ ∀ c ∈ x, NameRest c := by
  intro n
  induction n with
  | zero => intro s hl hne; exact absurd (by simpa using hl) hne
  | succ n ih =>
    intro s hl hne hall hlast hseq hhead
    match s, hl, hne, hall, hlast, hseq, hhead with
    | c :: rest, hl, _, hall, hlast, hseq, hhead =>
      have hc : c ≠ '.' := by simpa using hhead
      have hcr : NameRest c := (hall c (by simp)).resolve_right hc
      rw [noSeq_nondot _ _ hc] at hseq
      match rest, hl, hall, hlast, hseq with
      | [], _, _, _, _ =>
        refine ⟨[c], [], rfl, ?_⟩
        intro x hx
        have : x = [c] := by simpa using hx
        subst this
        exact ⟨by simp, by simpa using hcr⟩
      | d :: rest', hl, hall, hlast, hseq =>
        by_cases hd : d = '.'
        · subst hd
          have hne' : rest' ≠ [] := by rintro rfl; simp at hlast
          have hh' : rest'.head? ≠ some '.' := by
            intro h
            cases rest' with
            | nil => exact hne' rfl
            | cons e es =>
              have : e = '.' := by simpa using h
              subst this
              simp [noSequentialDots] at hseq
          rw [noSeq_dot _ hh'] at hseq
          have hlast' : rest'.getLast? ≠ some '.' := by
            cases rest' with
            | nil => exact absurd rfl hne'
            | cons e es => simpa [List.getLast?_cons_cons] using hlast
          obtain ⟨w, ws, h1, h2⟩ := ih rest' (by simp at hl; omega) hne' (fun x hx => hall x (by simp [hx])) hlast' hseq hh'
          refine ⟨[c], w :: ws, by rw [h1]; rfl, ?_⟩
          intro x hx
          rcases List.mem_cons.1 hx with rfl | hx
          · exact ⟨by simp, by simpa using hcr⟩
          · exact h2 x hx
        · have hlast' : (d :: rest').getLast? ≠ some '.' := by
            simpa [List.getLast?_cons_cons] using hlast
          obtain ⟨w, ws, h1, h2⟩ := ih (d :: rest') (by simp at hl ⊢; omega) (by simp)
            (fun x hx => hall x (by simp at hx ⊢; tauto)) hlast' hseq (by simpa using hd)
          have hw := h2 w (by simp)
          refine ⟨c :: w, ws, ?_, ?_⟩
          · rw [h1]; cases ws <;> rfl
          · intro x hx
            rcases List.mem_cons.1 hx with rfl | hx
            · refine ⟨by simp, ?_⟩
              intro y hy
              rcases List.mem_cons.1 hy with rfl | hy
              · exact hcr
              · exact hw.2 y hy
            · exact h2 x (by simp [hx])

theorem joinDots_props (w : Str) (ws : List Str) (h : ∀ x ∈ w :: ws, x ≠ [] ∧ ∀ c ∈ x, NameRest c) :
    joinDots (w :: ws) ≠ [] ∧ (∀ c ∈ joinDots (w :: ws), NameRest c ∨ c = '.') ∧
      (joinDots (w :: ws)).getLast? ≠ some '.' ∧ noSequentialDots (joinDots (w :: ws)) = true ∧
      (joinDots (w :: ws)).head? = w.head? ∧ (joinDots (w :: ws)).head? ≠ some '.' := by
  induction ws generalizing w with
  | nil =>
    have hw := h w (by simp)
    refine ⟨hw.1, fun c hc => Or.inl (hw.2 c hc), ?_, ?_, rfl, ?_⟩
    · intro hl
      exact nameRest_not_dot (hw.2 '.' (List.mem_of_getLast? hl)) rfl
    · have := noSeq_append w [] (fun c hc => nameRest_not_dot (hw.2 c hc))
      simp only [List.append_nil] at this
      rw [show joinDots [w] = w from rfl, this]; rfl
    · intro hl
      exact nameRest_not_dot (hw.2 '.' (List.mem_of_head? hl)) rfl
  | cons v vs ih =>
    have hw := h w (by simp)
    obtain ⟨i1, i2, i3, i4, i5, i6⟩ := ih v (fun x hx => h x (by simp at hx ⊢; tauto))
    have e : joinDots (w :: v :: vs) = w ++ '.' :: joinDots (v :: vs) := rfl
    rw [e]
    have hh : (w ++ '.' :: joinDots (v :: vs)).head? = w.head? := by
      cases w with
      | nil => exact absurd rfl hw.1
      | cons => rfl
    refine ⟨by simp, ?_, ?_, ?_, hh, ?_⟩
    · intro c hc
      simp only [List.mem_append, List.mem_cons] at hc
      rcases hc with hc | hc | hc
      · exact Or.inl (hw.2 c hc)
      · exact Or.inr hc
      · exact i2 c hc
    · cases hj : joinDots (v :: vs) with
      | nil => exact absurd hj i1
      | cons y ys =>
        rw [hj] at i3
        simpa [List.getLast?_append, List.getLast?_cons_cons] using i3
    · rw [noSeq_append _ _ (fun c hc => nameRest_not_dot (hw.2 c hc)), noSeq_dot _ i6, i4]
    · rw [hh]
      intro hl
      exact nameRest_not_dot (hw.2 '.' (List.mem_of_head? hl)) rfl

/-- The reference check without the optional `@`. -/
def refBody (s : Str) : Bool :=
  match s with
  | [] => false
  | c :: _ =>
    if !isAlpha c && c != '_' then false
    else if !(s.all fun ch => isAlnum ch || ch == '_' || ch == '.') then false
    else if s.getLast? == some '.' then false
    else noSequentialDots s

theorem isValidRefName_at (rest : Str) : isValidRefName ('@' :: rest) = refBody rest := rfl

theorem isValidRefName_noat (s : Str) (h : s.head? ≠ some '@') : isValidRefName s = refBody s := by
  unfold isValidRefName
  split
  · simp at h
  · rfl

theorem refChar_iff (c : Char) : (isAlnum c || c == '_' || c == '.') = true ↔ (NameRest c ∨ c = '.') := by
  rw [nameRest_iff, isNameChar]; simp

theorem refBody_iff (s : Str) : refBody s = true ↔
    ∃ w ws, s = joinDots (w :: ws) ∧ (∀ x ∈ w :: ws, x ≠ [] ∧ ∀ c ∈ x, NameRest c) ∧
      ∃ c, w.head? = some c ∧ NameStart c := by
  constructor
  · intro h
    unfold refBody at h
    split at h
    · exact absurd h (by simp)
    · rename_i c rest
      split at h
      · exact absurd h (by simp)
      · rename_i hc
        split at h
        · exact absurd h (by simp)
        · rename_i hall
          split at h
          · exact absurd h (by simp)
          · rename_i hlast
            have hns : NameStart c := by
              rw [nameStart_iff]
              simp only [Bool.and_eq_true, Bool.not_eq_true', bne_iff_ne, ne_eq, not_and, Decidable.not_not] at hc
              by_cases ha : isAlpha c = true
              · exact Or.inl ha
              · exact Or.inr (hc (by simpa using ha))
            have hall' : ∀ d ∈ c :: rest, NameRest d ∨ d = '.' := by
              intro d hd
              have : (c :: rest).all (fun ch => isAlnum ch || ch == '_' || ch == '.') = true := by
                rwa [Bool.not_eq_true', Bool.not_eq_false] at hall
              exact (refChar_iff d).1 (List.all_eq_true.1 this d hd)
            obtain ⟨w, ws, h1, h2⟩ := split_dots (c :: rest).length (c :: rest) (Nat.le_refl _) (by simp) hall'
              (by simpa using hlast) h (by
                have := nameRest_not_dot (nameStart_rest hns)
                simpa using this)
            refine ⟨w, ws, h1, h2, c, ?_, hns⟩
            have := (joinDots_props w ws h2).2.2.2.2.1
            rw [← h1] at this
            simpa using this.symm
  · rintro ⟨w, ws, rfl, h2, c, hc, hns⟩
    obtain ⟨i1, i2, i3, i4, i5, i6⟩ := joinDots_props w ws h2
    unfold refBody
    split
    · rename_i heq; exact absurd heq i1
    · rename_i d rest heq
      have hd : d = c := by
        rw [heq, hc] at i5; simpa using i5
      subst hd
      have hnc : (!isAlpha d && d != '_') = false := by
        have := (nameStart_iff d).1 hns
        rcases this with h | h
        · simp [h]
        · simp [h]
      have hall : (!(joinDots (w :: ws)).all fun ch => isAlnum ch || ch == '_' || ch == '.') = false := by
        have : (joinDots (w :: ws)).all (fun ch => isAlnum ch || ch == '_' || ch == '.') = true :=
          List.all_eq_true.2 fun x hx => (refChar_iff x).2 (i2 x hx)
        simp only [this, Bool.not_true]
      have hl : ((joinDots (w :: ws)).getLast? == some '.') = false := by simpa using i3
      simp only [hnc, hall, hl, Bool.false_eq_true, if_false, i4]

end Commsdsl.Text
