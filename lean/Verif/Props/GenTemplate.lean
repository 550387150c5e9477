import Verif.Props.GenText
import Verif.Props.GenLines
/-!
# Theorems about templates (C53)
-/
namespace Commsdsl.Props
open Commsdsl Commsdsl.Gen Commsdsl.Spec GenTextProofs GenLinesProofs

namespace GenTemplateProofs

theorem lastLine_unique {s l l' : Str} (h : LastLine s l) (h' : LastLine s l') : l = l' := by
  obtain ⟨d, e, hl, hd⟩ := h
  obtain ⟨d', e', hl', hd'⟩ := h'
  rw [e] at e'
  have key : ∀ (d d' l l' : Str), d ++ l = d' ++ l' → '\n' ∉ l' → (d = [] ∨ ∃ x, d = x ++ ['\n']) → d.length ≤ d'.length := by
    intro d d' l l' e hl' hd
    rcases Nat.lt_or_ge d'.length d.length with h | h
    · exfalso
      rcases hd with rfl | ⟨x, rfl⟩
      · simp at h
      · apply hl'
        have h1 : l' = (x ++ ['\n'] ++ l).drop d'.length := by rw [e, List.drop_left]
        rw [h1, List.append_assoc, List.drop_append_of_le_length (by simp at h; omega)]
        simp
    · exact h
  have h1 := key d d' l l' e' hl' hd
  have h2 := key d' d l' l e'.symm hl hd'
  exact (List.append_inj e' (by omega)).2

theorem lineStart_le (s : Str) : lineStartOf s ≤ s.length := by
  unfold lineStartOf
  cases h : findLastOf (· == '\n') s s.length with
  | none => simp
  | some i =>
    obtain ⟨_, c, hc, _⟩ := findLastOf_some h
    have := lt_of_get hc
    simp only []; omega

theorem lineStart_spec (s : Str) : LastLine s (s.drop (lineStartOf s)) := by
  unfold lineStartOf
  cases h : findLastOf (· == '\n') s s.length with
  | none =>
    refine ⟨[], rfl, ?_, Or.inl rfl⟩
    intro hm
    obtain ⟨i, hi, e⟩ := List.mem_iff_getElem.1 hm
    have hi' : i < s.length := by simpa using hi
    have := findLastOf_none h (i := i) (c := s[i]) (by omega) (List.getElem?_eq_getElem hi')
    simp only [List.drop_zero] at e
    rw [e] at this
    exact absurd this (by decide)
  | some i =>
    obtain ⟨h1, c, hc, hn⟩ := findLastOf_some h
    have hl := lt_of_get hc
    refine ⟨s.take (i + 1), (List.take_append_drop _ _).symm, ?_, Or.inr ⟨s.take i, ?_⟩⟩
    · intro hm
      obtain ⟨j, hj, e⟩ := List.mem_iff_getElem.1 hm
      have hj2 : i + 1 + j < s.length := by simp at hj; omega
      rw [List.getElem_drop] at e
      have := findLastOf_last h (j := i + 1 + j) (c := s[i + 1 + j]) (by omega) (by omega) (List.getElem?_eq_getElem hj2)
      rw [e] at this
      exact absurd this (by decide)
    · rw [List.take_add_one, hc]
      simp only [beq_iff_eq] at hn
      rw [hn]; rfl

theorem tplBlank_iff (s : Str) : (s.any fun c => !isTplBlank c) = false ↔ AllBlank s := by
  unfold AllBlank isTplBlank
  simp only [List.any_eq_false, Bool.not_eq_true', Bool.not_eq_false, Bool.or_eq_true, beq_iff_eq, or_assoc]

theorem nl_not_blank {w : Str} (h : AllBlank w) : '\n' ∉ w := by
  intro hm
  rcases h _ hm with h | h | h <;> revert h <;> decide

theorem findIdx_nl {w b : Str} (h : '\n' ∉ w) : (w ++ '\n' :: b).findIdx? (· == '\n') = some w.length := by
  induction w with
  | nil => rfl
  | cons c w ih =>
    have hc : (c == '\n') = false := by
      rw [beq_eq_false_iff_ne]; rintro rfl; exact h (by simp)
    rw [List.cons_append, List.findIdx?_cons, hc]
    simp [ih (fun hm => h (by simp [hm]))]

theorem emptyRow_some {value l after row next : Str} (h : emptyRow value l after = some (row, next)) :
    value = [] ∧ AllBlank l ∧ ∃ w, row = w ++ ['\n'] ∧ after = w ++ '\n' :: next ∧ AllBlank w := by
  unfold emptyRow at h
  split at h
  · cases h
  · rename_i hv
    split at h
    · cases h
    · rename_i hl
      cases hf : after.findIdx? (· == '\n') with
      | none => rw [hf] at h; cases h
      | some i =>
        rw [hf] at h
        simp only [] at h
        split at h
        · cases h
        · rename_i hw
          obtain ⟨hil, hip, _⟩ := List.findIdx?_eq_some_iff_getElem.1 hf
          simp only [beq_iff_eq] at hip
          simp only [Option.some.injEq, Prod.mk.injEq] at h
          refine ⟨by simpa using hv, (tplBlank_iff l).1 (by simpa using hl), after.take i, ?_, ?_, (tplBlank_iff _).1 (by simpa using hw)⟩
          · rw [← h.1, List.take_add_one, List.getElem?_eq_getElem hil, hip]; rfl
          · rw [← h.2, ← hip, ← List.drop_eq_getElem_cons hil, List.take_append_drop]

theorem emptyRow_none {value l after : Str} (h : emptyRow value l after = none) : ¬ AloneInRow value l after := by
  rintro ⟨hv, hl, w, b, e, hw⟩
  unfold emptyRow at h
  rw [if_neg (by simp [hv]), if_neg (by rw [(tplBlank_iff l).2 hl]; decide), e, findIdx_nl (nl_not_blank hw)] at h
  simp only [List.take_left] at h
  rw [if_neg (by rw [(tplBlank_iff w).2 hw]; decide)] at h
  cases h

theorem replaced_same (s : Str) : Replaced ['\n'] ['\n'] s s := by
  generalize hn : s.length = n
  induction n using Nat.strongRecOn generalizing s with
  | ind n ih =>
    by_cases hm : '\n' ∈ s
    · cases hf : findSub ['\n'] s with
      | none =>
        obtain ⟨a, b, e⟩ := List.append_of_mem hm
        exact absurd e (findSub_none hf a b)
      | some p =>
        obtain ⟨a, b⟩ := p
        obtain ⟨hfa, hb⟩ := findSub_split hf
        rw [show ['\n'].length = 1 from rfl] at hfa
        have := ih (b.drop 1).length (by
          have := hfa.1
          rw [← hn, this]; simp; omega) (b.drop 1) rfl
        have h2 := Replaced.step hfa this
        rw [← hfa.1] at h2
        exact h2
    · exact Replaced.none fun a b e => hm (by rw [e]; simp)

theorem indentValue_spec (n : Nat) (v : Str) : Replaced ['\n'] ('\n' :: List.replicate n ' ') v (indentValue n v) := by
  unfold indentValue
  split
  · rename_i h
    rw [List.isEmpty_iff] at h
    subst h
    exact Replaced.none fun a b e => by simp at e
  · split
    · rename_i h
      rw [h]; exact replaced_same v
    · exact (C49_strReplace v ['\n'] _ (by decide)).1

/-- The last line of what was processed is empty or has a `#`. -/
def Hash (pre : Str) : Prop := ∀ l, LastLine pre l → l = [] ∨ '#' ∈ l

theorem hash_suffix (s t : Str) : Hash (s ++ ("#^#".toList ++ (t ++ tplSuffix))) := by
  rintro l ⟨d, e, hl, hd⟩
  right
  have hx : (s ++ ("#^#".toList ++ (t ++ tplSuffix))).getLast? = some '#' := by
    rw [show s ++ ("#^#".toList ++ (t ++ tplSuffix)) = (s ++ ("#^#".toList ++ (t ++ ['#', '$']))) ++ ['#'] by
      rw [show tplSuffix = ['#', '$'] ++ ['#'] from rfl]; simp only [List.append_assoc]]
    exact List.getLast?_concat
  cases hlz : l.getLast? with
  | none =>
    exfalso
    rw [List.getLast?_eq_none_iff] at hlz
    subst hlz
    rw [e, List.append_nil] at hx
    rcases hd with rfl | ⟨x, rfl⟩
    · cases hx
    · rw [List.getLast?_concat] at hx; revert hx; decide
  | some c =>
    rw [e, List.getLast?_append, hlz] at hx
    simp only [Option.some_or, Option.some.injEq] at hx
    subst hx
    exact List.mem_of_getLast? hlz

theorem hash_row (s w : Str) : Hash (s ++ (w ++ ['\n'])) := by
  intro l h
  left
  refine lastLine_unique h ⟨s ++ (w ++ ['\n']), by simp, by simp, Or.inr ⟨s ++ w, by simp⟩⟩

theorem hash_nil : Hash [] := by
  rintro l ⟨d, e, _, _⟩
  left
  have := List.append_eq_nil_iff.1 e.symm
  exact this.2

theorem lastLine_append {pre a l0 : Str} (h : LastLine pre l0) (ha : '\n' ∉ a) : LastLine (pre ++ a) (l0 ++ a) := by
  obtain ⟨d, e, hl, hd⟩ := h
  refine ⟨d, by rw [e, List.append_assoc], ?_, hd⟩
  rw [List.mem_append]
  rintro (h | h)
  · exact hl h
  · exact ha h

/-- Removing a row never goes back behind `pre`. -/
theorem lineStart_ge {pre a : Str} (h : Hash pre) (hb : AllBlank ((pre ++ a).drop (lineStartOf (pre ++ a)))) : pre.length ≤ lineStartOf (pre ++ a) := by
  rcases Nat.lt_or_ge (lineStartOf (pre ++ a)) pre.length with hlt | hge
  · exfalso
    have h1 := lineStart_spec (pre ++ a)
    have e : (pre ++ a).drop (lineStartOf (pre ++ a)) = pre.drop (lineStartOf (pre ++ a)) ++ a := List.drop_append_of_le_length (by omega)
    have hna : '\n' ∉ a := by
      obtain ⟨_, _, h2, _⟩ := h1
      rw [e] at h2
      intro hm; exact h2 (by simp [hm])
    have h3 := lastLine_append (lineStart_spec pre) hna
    have h4 := lastLine_unique h1 h3
    have hne : pre.drop (lineStartOf (pre ++ a)) = pre.drop (lineStartOf pre) := by
      rw [e] at h4
      exact List.append_cancel_right h4
    rcases h _ (lineStart_spec pre) with h5 | h5
    · rw [h5] at hne
      have := congrArg List.length hne
      rw [List.length_drop, List.length_nil] at this; omega
    · rw [← hne] at h5
      have := hb '#' (by rw [e]; simp [h5])
      revert this; decide
  · exact hge

theorem templateLoop_spec (repl : Str → Option Str) : ∀ (fuel : Nat) (pre rest : Str), rest.length < fuel → Hash pre →
    ∃ out, templateLoop repl fuel pre rest = .ok out ∧ Expanded (fun k => (repl k).getD []) pre rest out := by
  intro fuel
  induction fuel with
  | zero => intro _ _ h; omega
  | succ fuel ih =>
    intro pre rest hlen hh
    rw [templateLoop]
    cases hf : findSub tplPrefix rest with
    | none => exact ⟨rest, rfl, .text (findSub_none hf)⟩
    | some p =>
      obtain ⟨a, b⟩ := p
      obtain ⟨hfa, hb⟩ := findSub_split hf
      simp only []
      cases hf2 : findSub tplSuffix (b.drop tplPrefix.length) with
      | none => exact ⟨[], rfl, .broken hfa (findSub_none hf2)⟩
      | some q =>
        obtain ⟨key, c⟩ := q
        obtain ⟨hfb, hc⟩ := findSub_split hf2
        simp only []
        have hlen2 : (c.drop tplSuffix.length).length < fuel := by
          have h1 := congrArg List.length hfa.1
          have h2 := congrArg List.length hfb.1
          simp only [List.length_append] at h1 h2
          have h3 : tplPrefix.length = 3 := by decide
          omega
        have hls := lineStart_spec (pre ++ a)
        cases he : emptyRow ((repl key).getD []) ((pre ++ a).drop (lineStartOf (pre ++ a))) (c.drop tplSuffix.length) with
        | none =>
          simp only []
          obtain ⟨out, h1, h2⟩ := ih (pre ++ a ++ (tplPrefix ++ (key ++ tplSuffix))) (c.drop tplSuffix.length) hlen2 (hash_suffix _ _)
          rw [h1]
          refine ⟨_, rfl, .value hfa hfb hls (emptyRow_none he) ?_ h2⟩
          rw [show (pre ++ a).length - lineStartOf (pre ++ a) = ((pre ++ a).drop (lineStartOf (pre ++ a))).length by rw [List.length_drop]]
          exact indentValue_spec _ _
        | some r =>
          obtain ⟨row, next⟩ := r
          simp only []
          obtain ⟨hv, hl, w, hrow, hafter, hw⟩ := emptyRow_some he
          have hge := lineStart_ge hh hl
          rw [if_neg (by omega)]
          have hnl : next.length < fuel := by
            have := congrArg List.length hafter
            simp only [List.length_append, List.length_cons] at this
            omega
          obtain ⟨out, h1, h2⟩ := ih (pre ++ a ++ (tplPrefix ++ (key ++ tplSuffix)) ++ row) next hnl (by rw [hrow]; exact hash_row _ _)
          rw [h1]
          refine ⟨_, rfl, ?_⟩
          -- split `a` at the start of the row
          have htd : a = ((pre ++ a).take (lineStartOf (pre ++ a))).drop pre.length ++ (pre ++ a).drop (lineStartOf (pre ++ a)) := by
            have e1 : pre ++ a = (pre ++ a).take (lineStartOf (pre ++ a)) ++ (pre ++ a).drop (lineStartOf (pre ++ a)) := (List.take_append_drop _ _).symm
            have e2 : (pre ++ a).drop pre.length = a := by rw [List.drop_left]
            rw [e1] at e2
            rw [List.drop_append_of_le_length (by have := lineStart_le (pre ++ a); rw [List.length_take]; omega)] at e2
            exact e2.symm
          generalize ha1 : ((pre ++ a).take (lineStartOf (pre ++ a))).drop pre.length = a1 at htd ⊢
          generalize hw1 : (pre ++ a).drop (lineStartOf (pre ++ a)) = w1 at htd hl hls
          rw [hafter] at hfb
          rw [hrow] at h2
          subst htd
          refine .row hfa hfb hv ?_ hl hw h2
          obtain ⟨d, e, hnd, hd⟩ := hls
          rw [← List.append_assoc] at e
          have : pre ++ a1 = d := List.append_cancel_right e
          exact ⟨d, by rw [this, List.append_nil], by simp, hd⟩

theorem firstAt_unique {w s a b a' b' : Str} (h : FirstAt w s a b) (h' : FirstAt w s a' b') : a = a' ∧ b = b' := by
  have h1 := h.2 a' b' h'.1
  have h2 := h'.2 a b h.1
  have e := h.1.symm.trans h'.1
  have := List.append_inj e (by omega)
  exact ⟨this.1, List.append_cancel_left this.2⟩

theorem row_alone {done a w w' b : Str} {v l : Str} (hv : v = []) (h1 : LastLine (done ++ a) []) (hw : AllBlank w) (hw' : AllBlank w')
    (hl : LastLine (done ++ (a ++ w)) l) : AloneInRow v l (w' ++ '\n' :: b) := by
  refine ⟨hv, ?_, w', b, rfl, hw'⟩
  have := lastLine_append h1 (nl_not_blank hw)
  rw [← List.append_assoc] at hl
  rw [lastLine_unique hl this, List.nil_append]
  exact hw

theorem expanded_unique {value : Str → Str} {done rest out out' : Str} (h : Expanded value done rest out) (h' : Expanded value done rest out') : out = out' := by
  induction h generalizing out' with
  | text hn =>
    cases h' with
    | text => rfl
    | broken hf _ => exact absurd hf.1 (hn _ _)
    | row hf => exact absurd hf.1 (hn _ _)
    | value hf => exact absurd hf.1 (hn _ _)
  | broken hf hn =>
    cases h' with
    | text hn' => exact absurd hf.1 (hn' _ _)
    | broken => rfl
    | row hf' hk' => rw [← (firstAt_unique hf hf').2] at hk'; exact absurd hk'.1 (hn _ _)
    | value hf' hk' => rw [← (firstAt_unique hf hf').2] at hk'; exact absurd hk'.1 (hn _ _)
  | @row done rest a w r key w' b out hf hk hv hl hw hw' _ ih =>
    cases h' with
    | text hn' => exact absurd hf.1 (hn' _ _)
    | broken hf' hn' => rw [(firstAt_unique hf hf').2] at hk; exact absurd hk.1 (hn' _ _)
    | @row _ _ a1 w1 r1 key1 w1' b1 out1 hf' hk' hv' hl' hw1 hw1' he' =>
      obtain ⟨e1, e2⟩ := firstAt_unique hf hf'
      subst e2
      obtain ⟨e3, e4⟩ := firstAt_unique hk hk'
      subst e3
      have hww : w = w1 := by
        have h1 := lastLine_append hl (nl_not_blank hw)
        have h2 := lastLine_append hl' (nl_not_blank hw1)
        rw [List.append_assoc] at h1 h2
        rw [← e1] at h2
        exact lastLine_unique h1 h2
      subst hww
      have haa : a = a1 := List.append_cancel_right e1
      subst haa
      have hlen : w'.length = w1'.length := by
        have h1 := findIdx_nl (b := b) (nl_not_blank hw')
        have h2 := findIdx_nl (b := b1) (nl_not_blank hw1')
        rw [e4, h2] at h1
        exact (Option.some.inj h1).symm
      obtain ⟨e5, e6⟩ := List.append_inj e4 hlen
      subst e5
      have e7 : b = b1 := by injection e6
      subst e7
      rw [ih he']
    | value hf' hk' hl' hna =>
      obtain ⟨e1, e2⟩ := firstAt_unique hf hf'
      subst e2
      obtain ⟨e3, e4⟩ := firstAt_unique hk hk'
      rw [← e3, ← e4] at hna
      rw [← e1] at hl'
      exact absurd (row_alone hv hl hw hw' hl') hna
  | @value done rest a r key b l v out hf hk hl hna hr _ ih =>
    cases h' with
    | text hn' => exact absurd hf.1 (hn' _ _)
    | broken hf' hn' => rw [(firstAt_unique hf hf').2] at hk; exact absurd hk.1 (hn' _ _)
    | row hf' hk' hv' hl' hw1 hw1' he' =>
      obtain ⟨e1, e2⟩ := firstAt_unique hf hf'
      subst e2
      obtain ⟨e3, e4⟩ := firstAt_unique hk hk'
      rw [e3, e4] at hna
      rw [e1] at hl
      exact absurd (row_alone hv' hl' hw1 hw1' hl) hna
    | value hf' hk' hl' hna' hr' he' =>
      obtain ⟨e1, e2⟩ := firstAt_unique hf hf'
      subst e1 e2
      obtain ⟨e3, e4⟩ := firstAt_unique hk hk'
      subst e3 e4
      have := lastLine_unique hl hl'
      subst this
      rw [replaced_unique hr hr', ih he']

end GenTemplateProofs
open GenTemplateProofs

/-- C53. Every template is expanded, without undefined behaviour, in finitely many steps, to exactly the text given by `Expanded`. -/
theorem C53_template_exact (templ : Str) (repl : Str → Option Str) (out : Str) :
    processTemplate templ repl false = .ok out ↔ Expanded (fun k => (repl k).getD []) [] templ out := by
  obtain ⟨o, h1, h2⟩ := templateLoop_spec repl (templ.length + 1) [] templ (by omega) hash_nil
  unfold processTemplate
  rw [h1]
  simp only [Res.bind_ok, Res.pure_eq, Bool.false_eq_true, if_false]
  constructor
  · intro h
    have : o = out := by injection h
    rw [← this]; exact h2
  · intro h
    rw [expanded_unique h2 h]

/-- C53: with tidying, the expansion tidied. -/
theorem C53_template_total (templ : Str) (repl : Str → Option Str) : ∃ out, Expanded (fun k => (repl k).getD []) [] templ out ∧
    processTemplate templ repl false = .ok out ∧ processTemplate templ repl true = .ok (tidyCode out) := by
  obtain ⟨o, h1, h2⟩ := templateLoop_spec repl (templ.length + 1) [] templ (by omega) hash_nil
  refine ⟨o, h2, ?_, ?_⟩ <;> (unfold processTemplate; rw [h1]; rfl)

/-- C53: a text without placeholders is not changed. -/
theorem C53_no_placeholder (templ : Str) (repl : Str → Option Str) (h : ∀ a b, templ ≠ a ++ ("#^#".toList ++ b)) :
    processTemplate templ repl false = .ok templ := (C53_template_exact templ repl templ).2 (.text h)

/-- C53 at work: an indented value, and a row that vanishes. -/
example : processTemplate "a {\n    #^#B#$#\n  #^#C#$# \n}\n".toList (fun k => if k = "B".toList then some "x\ny".toList else none) false =
    .ok "a {\n    x\n    y\n}\n".toList := by decide +kernel

end Commsdsl.Props
