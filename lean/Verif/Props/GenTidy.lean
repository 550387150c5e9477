import Verif.Model.GenText
import Verif.Spec.GenText
/-!
# Theorems about tidying generated code (C54)
-/
namespace Commsdsl.Props
open Commsdsl Commsdsl.Gen Commsdsl.Spec

namespace GenTidyProofs

theorem linesOf_ne (s : Str) : linesOf s ≠ [] := by
  cases s with
  | nil => simp [linesOf]
  | cons c cs =>
    rw [linesOf]
    split
    · simp
    · split <;> simp

/-- A character in front of a stripped line. -/
def ext (c : Char) (l : Str) : Str := if l = [] then if c == ' ' || c == '\t' then [] else [c] else c :: l

theorem rstrip_cons (c : Char) (l : Str) : rstrip (c :: l) = ext c (rstrip l) := by
  unfold rstrip ext
  rw [List.reverse_cons, List.dropWhile_append]
  by_cases h : List.dropWhile (fun c => c == ' ' || c == '\t') l.reverse = []
  · simp only [h, List.isEmpty_nil, if_true, List.reverse_nil]
    rw [List.dropWhile_cons]
    split <;> simp
  · have h2 : (List.dropWhile (fun c => c == ' ' || c == '\t') l.reverse).isEmpty = false := by
      simpa [List.isEmpty_iff] using h
    rw [h2]
    simp [h]

/-- The first line and the others. -/
def sig (s : Str) : Str × List Str := (rstrip ((linesOf s).headD []), ((linesOf s).tail.map rstrip).filter fun l => l ≠ [])

/-- Everything but the empty ones. -/
def push (p : Str × List Str) : List Str := if p.1 = [] then p.2 else p.1 :: p.2

theorem codeLines_eq (s : Str) : codeLines s = push (sig s) := by
  unfold codeLines push sig
  cases h : linesOf s with
  | nil => exact absurd h (linesOf_ne s)
  | cons l ls =>
    simp only [List.map_cons, List.headD_cons, List.tail_cons]
    rw [List.filter_cons]
    by_cases h2 : rstrip l = [] <;> simp [h2]

theorem sig_nl (s : Str) : sig ('\n' :: s) = ([], push (sig s)) := by
  rw [← codeLines_eq]
  unfold sig codeLines
  rw [linesOf, if_pos rfl]
  rfl

theorem sig_cons {c : Char} (s : Str) (h : c ≠ '\n') : sig (c :: s) = (ext c (sig s).1, (sig s).2) := by
  unfold sig
  rw [linesOf, if_neg h]
  cases h2 : linesOf s with
  | nil => exact absurd h2 (linesOf_ne s)
  | cons l ls => simp only [List.headD_cons, List.tail_cons, rstrip_cons]

theorem sig_congr (c : Char) {s r : Str} (h : sig s = sig r) : sig (c :: s) = sig (c :: r) := by
  by_cases hc : c = '\n'
  · subst hc; rw [sig_nl, sig_nl, h]
  · rw [sig_cons _ hc, sig_cons _ hc, h]

theorem sig_nlnl (s : Str) : sig ('\n' :: '\n' :: s) = sig ('\n' :: s) := by
  rw [sig_nl, sig_nl]; rfl

theorem sig_blank {c : Char} {s : Str} (hc : c = ' ' ∨ c = '\t') (h : (sig s).1 = []) : sig (c :: s) = sig s := by
  rw [sig_cons _ (by rintro rfl; rcases hc with h | h <;> revert h <;> decide)]
  unfold ext
  rw [h]
  rcases hc with rfl | rfl
  · rw [if_pos rfl]; exact Prod.ext (by rw [h]; rfl) rfl
  · rw [if_pos rfl]; exact Prod.ext (by rw [h]; rfl) rfl

/-- In the middle of removing: `n` blanks and a newline follow. -/
theorem cleanSpaces_sig : ∀ (s : Str) (n : Nat) (b : Bool),
    (b = true → n = 0 ∨ ∃ p t, s = p ++ '\n' :: t ∧ p.length = n ∧ ∀ c ∈ p, c = ' ' ∨ c = '\t') →
    sig (cleanSpaces n b s) = sig s ∧ (cleanSpaces n b s).Sublist s ∧
      (b = true → 0 < n → (sig s).1 = []) := by
  intro s
  induction s with
  | nil =>
    intro n b h
    refine ⟨by simp [cleanSpaces], by simp [cleanSpaces], fun _ _ => rfl⟩
  | cons c cs ih =>
    intro n b h
    cases n with
    | succ n =>
      rw [cleanSpaces]
      cases b with
      | false =>
        obtain ⟨h1, h2, _⟩ := ih n false (by simp)
        exact ⟨sig_congr c h1, h2.cons_cons c, fun h => by cases h⟩
      | true =>
        rcases h rfl with h0 | ⟨p, t, e, hl, hp⟩
        · cases h0
        cases p with
        | nil => cases hl
        | cons d p =>
          rw [List.cons_append] at e
          have e1 : c = d := by injection e
          have e2 : cs = p ++ '\n' :: t := by injection e
          have hb := hp d (by simp)
          have hrest : ∀ c ∈ p, c = ' ' ∨ c = '\t' := fun c hc => hp c (by simp [hc])
          have hlen : p.length = n := by simpa using hl
          obtain ⟨h1, h2, h3⟩ := ih n true (fun _ => Or.inr ⟨p, t, e2, hlen, hrest⟩)
          have h4 : (sig cs).1 = [] := by
            cases n with
            | succ n => exact h3 rfl (by omega)
            | zero =>
              have : p = [] := List.length_eq_zero_iff.1 hlen
              rw [e2, this, List.nil_append, sig_nl]
          rw [if_pos rfl]
          subst e1
          refine ⟨by rw [h1, sig_blank hb h4], h2.cons c, fun _ _ => by rw [sig_blank hb h4]; exact h4⟩
    | zero =>
      rw [cleanSpaces]
      by_cases hc : c ≠ ' '
      · rw [if_pos hc]
        obtain ⟨h1, h2, _⟩ := ih 0 false (by simp)
        exact ⟨sig_congr c h1, h2.cons_cons c, fun _ h => by cases h⟩
      · rw [if_neg hc]
        cases hf : cs.findIdx? (· == '\n') with
        | none =>
          simp only []
          obtain ⟨h1, h2, _⟩ := ih cs.length false (by simp)
          exact ⟨sig_congr c h1, h2.cons_cons c, fun _ h => by cases h⟩
        | some e =>
          simp only []
          obtain ⟨hel, hep, hem⟩ := List.findIdx?_eq_some_iff_getElem.1 hf
          have hkeep : ∀ (x : Bool), x = false → sig (if x = true then cleanSpaces e true cs else c :: cleanSpaces e false cs) = sig (c :: cs) ∧
              (if x = true then cleanSpaces e true cs else c :: cleanSpaces e false cs).Sublist (c :: cs) := by
            intro x hx
            rw [hx]
            obtain ⟨h1, h2, _⟩ := ih e false (by simp)
            exact ⟨sig_congr c h1, h2.cons_cons c⟩
          have hsplit : cs = cs.take e ++ '\n' :: cs.drop (e + 1) := by
            have : cs.drop e = '\n' :: cs.drop (e + 1) := by
              rw [List.drop_eq_getElem_cons hel]
              simp only [beq_iff_eq] at hep
              rw [hep]
            rw [← this, List.take_append_drop]
          have hdrop : (∀ d ∈ cs.take e, isBlankC d = true) → sig (cleanSpaces e true cs) = sig (c :: cs) ∧ (cleanSpaces e true cs).Sublist (c :: cs) := by
            intro hd
            have hd' : ∀ d ∈ cs.take e, d = ' ' ∨ d = '\t' := by
              intro d hdm
              have := hd d hdm
              unfold isBlankC at this
              simpa using this
            have hlen : (cs.take e).length = e := by rw [List.length_take]; omega
            obtain ⟨h1, h2, h3⟩ := ih e true (fun _ => Or.inr ⟨_, _, hsplit, hlen, hd'⟩)
            have h4 : (sig cs).1 = [] := by
              cases e with
              | succ n => exact h3 rfl (by omega)
              | zero => rw [hsplit, List.take_zero, List.nil_append, sig_nl]
            refine ⟨by rw [h1, sig_blank (Or.inl (by simpa using hc)) h4], h2.cons c⟩
          cases hg : cs.findIdx? (fun d => !isBlankC d) with
          | none =>
            simp only [if_true]
            rw [List.findIdx?_eq_none_iff] at hg
            obtain ⟨h1, h2⟩ := hdrop (fun d hd => by simpa using hg d (List.mem_of_mem_take hd))
            exact ⟨h1, h2, fun _ h => by cases h⟩
          | some ns =>
            simp only []
            obtain ⟨hgl, hgp, hgm⟩ := List.findIdx?_eq_some_iff_getElem.1 hg
            by_cases hle : e ≤ ns
            · rw [if_pos (decide_eq_true hle)]
              obtain ⟨h1, h2⟩ := hdrop (by
                intro d hd
                obtain ⟨i, hi, rfl⟩ := List.mem_iff_getElem.1 hd
                rw [List.length_take] at hi
                rw [List.getElem_take]
                simpa using hgm i (by omega))
              exact ⟨h1, h2, fun _ h => by cases h⟩
            · obtain ⟨h1, h2⟩ := hkeep (decide (e ≤ ns)) (by simpa using hle)
              exact ⟨h1, h2, fun _ h => by cases h⟩

theorem cleanExtra_next {cs : Str} {n : Nat} (h : ('\n' :: cs).findIdx? (· != '\n') = some n) (hn : 1 < n) : ∃ t, cs = '\n' :: t := by
  obtain ⟨hl, hp, hm⟩ := List.findIdx?_eq_some_iff_getElem.1 h
  cases cs with
  | nil => simp at hl; omega
  | cons d t =>
    have := hm 1 hn
    simp only [List.getElem_cons_succ, List.getElem_cons_zero, bne_iff_ne, ne_eq, Decidable.not_not] at this
    exact ⟨t, by rw [this]⟩

theorem cleanExtra_sig : ∀ s : Str, sig (cleanExtraNewLines s) = sig s ∧ (cleanExtraNewLines s).Sublist s := by
  intro s
  induction s with
  | nil => exact ⟨rfl, List.Sublist.refl _⟩
  | cons c cs ih =>
    obtain ⟨h1, h2⟩ := ih
    rw [cleanExtraNewLines]
    have keep : sig (c :: cleanExtraNewLines cs) = sig (c :: cs) ∧ (c :: cleanExtraNewLines cs).Sublist (c :: cs) := ⟨sig_congr c h1, h2.cons_cons c⟩
    have drop : (∃ t, cs = '\n' :: t) → c = '\n' → sig (cleanExtraNewLines cs) = sig (c :: cs) ∧ (cleanExtraNewLines cs).Sublist (c :: cs) := by
      rintro ⟨t, rfl⟩ rfl
      exact ⟨by rw [h1, sig_nlnl], h2.cons _⟩
    by_cases hc : c ≠ '\n'
    · rw [if_pos hc]; exact keep
    · rw [if_neg hc]
      have hc : c = '\n' := by simpa using hc
      cases hf : (c :: cs).findIdx? (· != '\n') with
      | none =>
        simp only []
        cases cs with
        | nil => exact keep
        | cons d t =>
          rw [if_neg (by simp)]
          rw [List.findIdx?_eq_none_iff] at hf
          have := hf d (by simp)
          refine drop ⟨t, ?_⟩ hc
          simp only [bne_eq_false_iff_eq] at this
          rw [this]
      | some n =>
        simp only []
        split
        · rename_i hn
          subst hc
          exact drop (cleanExtra_next hf (by omega)) rfl
        · exact keep

theorem cleanBracket_sig : ∀ (s : Str) (n : Nat), sig (cleanBeforeBracket n s) = sig s ∧ (cleanBeforeBracket n s).Sublist s := by
  intro s
  induction s with
  | nil => intro n; simp [cleanBeforeBracket]
  | cons c cs ih =>
    intro n
    have keep : ∀ m, sig (c :: cleanBeforeBracket m cs) = sig (c :: cs) ∧ (c :: cleanBeforeBracket m cs).Sublist (c :: cs) :=
      fun m => ⟨sig_congr c (ih m).1, (ih m).2.cons_cons c⟩
    cases n with
    | succ n => rw [cleanBeforeBracket]; exact keep n
    | zero =>
      rw [cleanBeforeBracket]
      by_cases hc : c ≠ '\n'
      · rw [if_pos hc]; exact keep 0
      · rw [if_neg hc]
        have hc : c = '\n' := by simpa using hc
        cases hf : cs.findIdx? (· != '\n') with
        | none => exact keep _
        | some n =>
          simp only []
          split
          · exact keep _
          · rename_i hn
            have hnext : ∃ t, cs = '\n' :: t := by
              obtain ⟨hl, hp, hm⟩ := List.findIdx?_eq_some_iff_getElem.1 hf
              cases cs with
              | nil => simp at hl
              | cons d t =>
                have := hm 0 (by omega)
                simp only [List.getElem_cons_zero, bne_iff_ne, ne_eq, Decidable.not_not] at this
                exact ⟨t, by rw [this]⟩
            have drop : ∀ m, sig (cleanBeforeBracket m cs) = sig (c :: cs) ∧ (cleanBeforeBracket m cs).Sublist (c :: cs) := by
              intro m
              obtain ⟨t, ht⟩ := hnext
              obtain ⟨h1, h2⟩ := ih m
              refine ⟨?_, h2.cons c⟩
              rw [h1, hc, ht, sig_nlnl]
            cases hg : (cs.drop n).findIdx? (fun d => !isBlankC d) with
            | none => exact keep _
            | some k =>
              simp only []
              split
              · exact keep _
              · split
                · exact keep _
                · exact drop _

/-- The number of newlines a text begins with. -/
def lead (s : Str) : Nat := (s.takeWhile (· == '\n')).length

/-- Nowhere more than two newlines. -/
def Few : Str → Prop
  | [] => True
  | c :: cs => lead (c :: cs) ≤ 2 ∧ Few cs

theorem lead_cons (c : Char) (s : Str) : lead (c :: s) = if c = '\n' then lead s + 1 else 0 := by
  unfold lead
  rw [List.takeWhile_cons]
  by_cases h : c = '\n' <;> simp [h]

theorem lead_findIdx (s : Str) : lead s = (s.findIdx? (· != '\n')).getD s.length := by
  induction s with
  | nil => rfl
  | cons c cs ih =>
    rw [lead_cons, List.findIdx?_cons]
    by_cases h : c = '\n'
    · simp only [h, if_true, bne_self_eq_false, Bool.false_eq_true, if_false, ih]
      cases cs.findIdx? (· != '\n') <;> simp
    · simp [h]

theorem few_cons {c : Char} {s : Str} (h : Few s) (hl : lead (c :: s) ≤ 2) : Few (c :: s) := ⟨hl, h⟩

theorem cleanExtra_few : ∀ s : Str, Few (cleanExtraNewLines s) ∧ lead (cleanExtraNewLines s) ≤ lead s ∧
    (s.findIdx? (· != '\n') = none → lead (cleanExtraNewLines s) ≤ 1) ∧ lead (cleanExtraNewLines s) ≤ 2 := by
  intro s
  induction s with
  | nil => exact ⟨trivial, Nat.le_refl _, fun _ => by decide, by decide⟩
  | cons c cs ih =>
    obtain ⟨h1, h2, h3, h4⟩ := ih
    rw [cleanExtraNewLines]
    by_cases hc : c ≠ '\n'
    · rw [if_pos hc]
      have : ∀ s, lead (c :: s) = 0 := fun s => by rw [lead_cons, if_neg hc]
      exact ⟨few_cons h1 (by rw [this]; omega), by rw [this]; omega, fun _ => by rw [this]; omega, by rw [this]; omega⟩
    · rw [if_neg hc]
      have hc : c = '\n' := by simpa using hc
      subst hc
      have hl : ∀ s, lead ('\n' :: s) = lead s + 1 := fun s => by rw [lead_cons, if_pos rfl]
      cases hf : ('\n' :: cs).findIdx? (· != '\n') with
      | none =>
        simp only []
        cases cs with
        | nil => exact ⟨⟨by decide, trivial⟩, by decide, fun _ => by decide, by decide⟩
        | cons d t =>
          rw [if_neg (by simp)]
          have hn : (d :: t).findIdx? (· != '\n') = none := by
            rw [List.findIdx?_eq_none_iff] at hf ⊢
            exact fun x hx => hf x (List.mem_cons_of_mem _ hx)
          have := h3 hn
          exact ⟨h1, by rw [hl]; omega, fun _ => this, by omega⟩
      | some n =>
        simp only []
        have hn := lead_findIdx ('\n' :: cs)
        rw [hf, hl] at hn
        simp only [Option.getD_some] at hn
        split
        · exact ⟨h1, by rw [hl]; omega, ⟨fun h => (nomatch h), h4⟩⟩
        · exact ⟨few_cons h1 (by rw [hl]; omega), by rw [hl, hl]; omega, ⟨fun h => (nomatch h), by rw [hl]; omega⟩⟩

theorem cleanBracket_few : ∀ (s : Str) (n : Nat), Few s → Few (cleanBeforeBracket n s) ∧ lead (cleanBeforeBracket n s) ≤ lead s := by
  intro s
  induction s with
  | nil => intro n _; simp [cleanBeforeBracket, Few]
  | cons c cs ih =>
    intro n hf
    have keep : ∀ m, Few (c :: cleanBeforeBracket m cs) ∧ lead (c :: cleanBeforeBracket m cs) ≤ lead (c :: cs) := by
      intro m
      obtain ⟨h1, h2⟩ := ih m hf.2
      have : lead (c :: cleanBeforeBracket m cs) ≤ lead (c :: cs) := by
        rw [lead_cons, lead_cons]; split <;> omega
      exact ⟨few_cons h1 (by have := hf.1; omega), this⟩
    cases n with
    | succ n => rw [cleanBeforeBracket]; exact keep n
    | zero =>
      rw [cleanBeforeBracket]
      by_cases hc : c ≠ '\n'
      · rw [if_pos hc]; exact keep 0
      · rw [if_neg hc]
        have hc : c = '\n' := by simpa using hc
        have drop : ∀ m, Few (cleanBeforeBracket m cs) ∧ lead (cleanBeforeBracket m cs) ≤ lead (c :: cs) := by
          intro m
          obtain ⟨h1, h2⟩ := ih m hf.2
          exact ⟨h1, by rw [lead_cons, if_pos hc]; omega⟩
        cases hf : cs.findIdx? (· != '\n') with
        | none => exact keep _
        | some n =>
          simp only []
          split
          · exact keep _
          · cases hg : (cs.drop n).findIdx? (fun d => !isBlankC d) with
            | none => exact keep _
            | some k =>
              simp only []
              split
              · exact keep _
              · split
                · exact keep _
                · exact drop _

theorem few_no {s : Str} (h : Few s) : ∀ a b, s ≠ a ++ ("\n\n\n".toList ++ b) := by
  intro a
  induction a generalizing s with
  | nil =>
    intro b e
    rw [List.nil_append] at e
    have e : s = '\n' :: '\n' :: '\n' :: b := e
    rw [e] at h
    have := h.1
    rw [lead_cons, lead_cons, lead_cons] at this
    simp at this
  | cons c a ih =>
    intro b e
    rw [e] at h
    exact ih h.2 b rfl

end GenTidyProofs
open GenTidyProofs

/-- C54: the lines of the code, without blanks at their ends and without empty ones, are the same before and after. -/
theorem C54_lines (s : Str) : codeLines (tidyCode s) = codeLines s := by
  rw [codeLines_eq, codeLines_eq]
  unfold tidyCode
  rw [(cleanBracket_sig _ 0).1, (cleanExtra_sig _).1, (cleanSpaces_sig s 0 false (by simp)).1]

/-- C54: nothing is added or reordered. -/
theorem C54_only_removes (s : Str) : (tidyCode s).Sublist s := by
  unfold tidyCode
  exact ((cleanBracket_sig _ 0).2.trans (cleanExtra_sig _).2).trans (cleanSpaces_sig s 0 false (by simp)).2.1

/-- C54: there is nowhere more than one empty line. -/
theorem C54_no_triple (s a b : Str) : tidyCode s ≠ a ++ ("\n\n\n".toList ++ b) :=
  few_no (cleanBracket_few _ 0 (cleanExtra_few _).1).1 a b

/-- C54: so the assertion `newLinesCount <= 2` in the last pass (util.cpp:148) cannot fail: behind every newline of the text it is given there is at most one other. -/
theorem C54_assertion (s a t : Str) (n : Nat) (h : cleanExtraNewLines s = a ++ '\n' :: t) (hn : t.findIdx? (· != '\n') = some n) : n + 1 ≤ 2 := by
  rcases Nat.lt_or_ge 1 n with h1 | h1
  · exfalso
    obtain ⟨hl, hp, hm⟩ := List.findIdx?_eq_some_iff_getElem.1 hn
    have h0 := hm 0 (by omega)
    have h1 := hm 1 h1
    match t, hl, h0, h1, h with
    | x :: y :: t, hl, h0, h1, h =>
      simp only [List.getElem_cons_zero, List.getElem_cons_succ, bne_iff_ne, ne_eq, Decidable.not_not] at h0 h1
      rw [h0, h1] at h
      exact few_no (cleanExtra_few s).1 a t h
    | [x], hl, _, _, _ => simp at hl; omega
  · omega

/-- C54 at work: an indented block with trailing blanks, a surplus of empty lines and one before the bracket. -/
example : tidyCode "{\n    \n\n\n    a  b \n\n}\n\n\n".toList = "{\n\n    a  b \n}\n".toList := by decide +kernel

end Commsdsl.Props
