import Verif.Model.GenText
import Verif.Spec.GenText
/-!
# Theorems about breaking descriptions in lines (C52)
-/
namespace Commsdsl.Props
open Commsdsl Commsdsl.Gen Commsdsl.Spec

namespace GenLinesProofs

theorem findLastOf_some {p : Char → Bool} {s : Str} {pos i : Nat} (h : findLastOf p s pos = some i) :
    i ≤ pos ∧ ∃ c, s[i]? = some c ∧ p c = true := by
  unfold findLastOf at h
  obtain ⟨k, hk, he⟩ := Option.map_eq_some_iff.1 h
  obtain ⟨hl, hp, _⟩ := List.findIdx?_eq_some_iff_getElem.1 hk
  have hlen : (s.take (pos + 1)).length ≤ pos + 1 := by simp; omega
  rw [List.length_reverse] at hl
  refine ⟨by omega, (s.take (pos + 1)).reverse[k], ?_, hp⟩
  have : (s.take (pos + 1)).reverse[k]? = some ((s.take (pos + 1)).reverse[k]) := List.getElem?_eq_getElem _
  rw [← this, List.getElem?_reverse hl]
  subst he
  rw [List.getElem?_take_of_lt (by omega)]

theorem findLastOf_none {p : Char → Bool} {s : Str} {pos i : Nat} {c : Char} (h : findLastOf p s pos = none) (hi : i ≤ pos)
    (hc : s[i]? = some c) : p c = false := by
  unfold findLastOf at h
  rw [Option.map_eq_none_iff, List.findIdx?_eq_none_iff] at h
  refine h c ?_
  rw [List.mem_reverse]
  exact List.mem_of_getElem? (i := i) (by rw [List.getElem?_take_of_lt (by omega)]; exact hc)

theorem findLastOf_last {p : Char → Bool} {s : Str} {pos i j : Nat} {c : Char} (h : findLastOf p s pos = some i) (hj : i < j) (hj2 : j ≤ pos)
    (hc : s[j]? = some c) : p c = false := by
  unfold findLastOf at h
  obtain ⟨k, hk, he⟩ := Option.map_eq_some_iff.1 h
  obtain ⟨hl, hp, hm⟩ := List.findIdx?_eq_some_iff_getElem.1 hk
  rw [List.length_reverse] at hl
  have hjl : j < s.length := by
    rcases Nat.lt_or_ge j s.length with h | h
    · exact h
    · rw [List.getElem?_eq_none h] at hc; cases hc
  have hlen : j < (s.take (pos + 1)).length := by rw [List.length_take]; omega
  have := hm ((s.take (pos + 1)).length - 1 - j) (by omega)
  rw [List.getElem_reverse] at this
  have e : (s.take (pos + 1)).length - 1 - ((s.take (pos + 1)).length - 1 - j) = j := by omega
  simp only [e, List.getElem_take] at this
  rw [List.getElem?_eq_getElem hjl, Option.some.injEq] at hc
  rw [hc] at this
  simpa using this

theorem findFirstOf_some {p : Char → Bool} {s : Str} {pos i : Nat} (h : findFirstOf p s pos = some i) :
    pos ≤ i ∧ (∃ c, s[i]? = some c ∧ p c = true) ∧ ∀ j c, pos ≤ j → j < i → s[j]? = some c → p c = false := by
  unfold findFirstOf at h
  obtain ⟨k, hk, he⟩ := Option.map_eq_some_iff.1 h
  obtain ⟨hl, hp, hm⟩ := List.findIdx?_eq_some_iff_getElem.1 hk
  subst he
  refine ⟨by omega, ⟨_, ?_, hp⟩, ?_⟩
  · rw [← List.getElem?_eq_getElem, List.getElem?_drop, Nat.add_comm]
  · intro j c h1 h2 hc
    have := hm (j - pos) (by omega)
    have e : (s.drop pos)[j - pos]? = some c := by rw [List.getElem?_drop, show pos + (j - pos) = j by omega]; exact hc
    rw [List.getElem?_eq_getElem (by omega)] at e
    rw [Option.some.inj e] at this
    simpa using this

theorem findFirstOf_none {p : Char → Bool} {s : Str} {pos j : Nat} {c : Char} (h : findFirstOf p s pos = none) (h1 : pos ≤ j) (hc : s[j]? = some c) : p c = false := by
  unfold findFirstOf at h
  rw [Option.map_eq_none_iff, List.findIdx?_eq_none_iff] at h
  refine h c (List.mem_of_getElem? (i := j - pos) ?_)
  rw [List.getElem?_drop, show pos + (j - pos) = j by omega]; exact hc

theorem lt_of_get {s : Str} {i : Nat} {c : Char} (h : s[i]? = some c) : i < s.length := by
  rcases Nat.lt_or_ge i s.length with h1 | h1
  · exact h1
  · rw [List.getElem?_eq_none h1] at h; cases h

/-- What `breakPos` finds. -/
theorem breakPos_spec (value : Str) (len pos : Nat) (hlen : 0 < len) :
    match breakPos value len pos with
    | none => ∀ j c, pos + len ≤ j → value[j]? = some c → isBlankC c = false
    | some np => pos ≤ np ∧ (∃ c, value[np]? = some c ∧ Blank3 c) ∧ ∀ j c, pos + len ≤ j → j < np → value[j]? = some c → isBlankC c = false := by
  have hb : ∀ c, isBlankC c = true → Blank3 c := by
    intro c h; unfold isBlankC at h; unfold Blank3
    simp only [Bool.or_eq_true, beq_iff_eq] at h
    rcases h with h | h
    · exact Or.inl h
    · exact Or.inr (Or.inl h)
  unfold breakPos
  simp only []
  by_cases h0 : value.length ≤ pos + len
  · rw [if_pos h0]
    intro j c h1 h2
    have := lt_of_get h2; omega
  rw [if_neg h0]
  by_cases hnl : (findLastOf (· == '\n') value (pos + len)).any fun i => decide (pos ≤ i)
  · rw [if_pos hnl]
    obtain ⟨i, hi, hp⟩ := (Option.any_eq_true _ _).1 hnl
    rw [hi]
    obtain ⟨h1, c, hc, hcn⟩ := findLastOf_some hi
    refine ⟨by simpa using hp, ⟨c, hc, Or.inr (Or.inr (by simpa using hcn))⟩, ?_⟩
    intro j c h2 h3; omega
  rw [if_neg hnl]
  -- the blank before
  generalize hpre : prePosOf (findLastOf isBlankC value (pos + len)) pos = pre
  have hpreq : pre = pos ∧ (∀ c, value[pos + len]? = some c → isBlankC c = false) ∨ (pos < pre ∧ pre ≤ pos + len ∧ ∃ c, value[pre]? = some c ∧ Blank3 c) ∧
      ∀ c, pre < pos + len → value[pos + len]? = some c → isBlankC c = false := by
    revert hpre
    unfold prePosOf
    cases hf : findLastOf isBlankC value (pos + len) with
    | none =>
      intro hpre
      exact Or.inl ⟨hpre.symm, fun c hc => findLastOf_none hf (Nat.le_refl _) hc⟩
    | some i =>
      simp only []
      obtain ⟨h1, c, hc, hcn⟩ := findLastOf_some hf
      intro hpre
      by_cases hlt : i ≤ pos
      · refine Or.inl ⟨by split at hpre <;> omega, fun c hc => findLastOf_last hf (by omega) (Nat.le_refl _) hc⟩
      · rw [if_neg (by omega)] at hpre
        subst hpre
        exact Or.inr ⟨⟨by omega, h1, c, hc, hb c hcn⟩, fun c h2 hc => findLastOf_last hf h2 (Nat.le_refl _) hc⟩
  clear hpre
  cases hpost : findFirstOf isBlankC value (pos + len + 1) with
  | none =>
    simp only [Option.getD_none]
    have hno : ∀ j c, pos + len + 1 ≤ j → value[j]? = some c → isBlankC c = false := fun j c h1 h2 => findFirstOf_none hpost h1 h2
    rcases hpreq with ⟨rfl, hn⟩ | ⟨⟨h1, h2, hc⟩, hn⟩
    · rw [if_pos ⟨Nat.le_refl _, Nat.le_refl _⟩]
      intro j c h1 h2
      rcases Nat.lt_or_ge (pre + len) j with h3 | h3
      · exact hno j c h3 h2
      · exact hn c (by rw [show pre + len = j by omega]; exact h2)
    · rw [if_neg (by omega), if_neg (by omega), if_pos (Nat.le_refl _)]
      exact ⟨by omega, hc, fun j c h3 h4 => by omega⟩
  | some post =>
    obtain ⟨h5, ⟨d, hd, hdb⟩, hmin⟩ := findFirstOf_some hpost
    have hpl := lt_of_get hd
    simp only [Option.getD_some]
    rcases hpreq with ⟨rfl, hn⟩ | ⟨⟨h1, h2, hc⟩, hn⟩
    · rw [if_neg (by omega), if_pos (Nat.le_refl _)]
      refine ⟨by omega, ⟨d, hd, hb d hdb⟩, ?_⟩
      intro j c h1 h3 h2
      rcases Nat.lt_or_ge (pre + len) j with h4 | h4
      · exact hmin j c h4 h3 h2
      · exact hn c (by rw [show pre + len = j by omega]; exact h2)
    · rw [if_neg (by omega), if_neg (by omega), if_neg (by omega)]
      by_cases hdiff : pos + len - pre ≤ post - (pos + len)
      · rw [if_pos hdiff]
        exact ⟨by omega, hc, fun j c h3 h4 => by omega⟩
      · rw [if_neg hdiff]
        refine ⟨by omega, ⟨d, hd, hb d hdb⟩, ?_⟩
        intro j c h6 h3 h7
        rcases Nat.lt_or_ge (pos + len) j with h4 | h4
        · exact hmin j c h4 h3 h7
        · exact hn c (by omega) (by rw [show pos + len = j by omega]; exact h7)

/-- The loop, from a position on. -/
theorem multilineLoop_spec (value : Str) (len : Nat) (drop : Bool) (hlen : 0 < len) : ∀ (fuel pos : Nat), value.length + 1 ≤ fuel + pos →
    ∃ segs seps, segs.length = seps.length + 1 ∧ (∀ s ∈ seps, ∃ c, s = [c] ∧ Blank3 c) ∧ value.drop pos = interleave segs seps ∧
      multilineLoop value len drop fuel pos = interleave segs (seps.map fun s => (if drop then [] else s) ++ ['\n']) ∧
      ∀ t ∈ segs, ∀ i c, len ≤ i → t[i]? = some c → isBlankC c = false := by
  intro fuel
  induction fuel with
  | zero =>
    intro pos h
    refine ⟨[[]], [], rfl, by simp, ?_, ?_, ?_⟩
    · rw [List.drop_eq_nil_of_le (by omega)]; rfl
    · rw [multilineLoop, List.drop_eq_nil_of_le (by omega)]; rfl
    · simp
  | succ fuel ih =>
    intro pos h
    rw [multilineLoop]
    by_cases h0 : value.length ≤ pos
    · rw [if_pos h0]
      refine ⟨[[]], [], rfl, by simp, ?_, rfl, by simp⟩
      rw [List.drop_eq_nil_of_le h0]; rfl
    rw [if_neg h0]
    have hspec := breakPos_spec value len pos hlen
    cases hb : breakPos value len pos with
    | none =>
      rw [hb] at hspec
      refine ⟨[value.drop pos], [], rfl, by simp, rfl, rfl, ?_⟩
      intro t ht i c hi hc
      rw [List.mem_singleton] at ht
      subst ht
      rw [List.getElem?_drop] at hc
      exact hspec (pos + i) c (by omega) hc
    | some np =>
      rw [hb] at hspec
      obtain ⟨hp, ⟨c, hc, hcb⟩, hno⟩ := hspec
      have hnl := lt_of_get hc
      obtain ⟨segs, seps, e1, e2, e3, e4, e5⟩ := ih (np + 1) (by omega)
      have hne : segs ≠ [] := by intro h; rw [h] at e1; simp at e1
      have hil : ∀ (t : Str) (u : Str) (v : List Str), interleave (t :: segs) (u :: v) = t ++ (u ++ interleave segs v) := by
        intro t u v
        cases segs with
        | nil => exact absurd rfl hne
        | cons a b => rfl
      refine ⟨(value.take np).drop pos :: segs, [c] :: seps, by simp [e1], ?_, ?_, ?_, ?_⟩
      · intro s hs
        rcases List.mem_cons.1 hs with rfl | hs
        · exact ⟨c, rfl, hcb⟩
        · exact e2 s hs
      · rw [hil, ← e3]
        have hd1 : value.drop np = c :: value.drop (np + 1) := by
          rw [List.getElem?_eq_getElem hnl] at hc
          rw [List.drop_eq_getElem_cons hnl, Option.some.inj hc]
        rw [List.cons_append, List.nil_append, ← hd1]
        have hsplit : value = value.take np ++ value.drop np := (List.take_append_drop np value).symm
        have hl2 : pos ≤ (value.take np).length := by rw [List.length_take]; omega
        rw (config := {occs := .pos [1]}) [hsplit]
        rw [List.drop_append_of_le_length hl2]
      · rw [List.map_cons, hil, ← e4]
        simp only [lineAt]
        have hd1 : (value.drop np).take 1 = [c] := by
          rw [List.getElem?_eq_getElem hnl] at hc
          rw [List.drop_eq_getElem_cons hnl, Option.some.inj hc]; rfl
        rw [hd1]
        cases drop <;> simp [hnl]
      · intro t ht i d hi hd
        rcases List.mem_cons.1 ht with rfl | ht
        · rw [List.getElem?_drop] at hd
          have hlt := lt_of_get hd
          rw [List.length_take] at hlt
          rw [List.getElem?_take_of_lt (by omega)] at hd
          exact hno (pos + i) d (by omega) (by omega) hd
        · exact e5 t ht i d hi hd

end GenLinesProofs
open GenLinesProofs

/-- C52. The text is cut at single blanks, tabulators or newlines; these become newlines (or a newline is added behind them, if they are to be kept), and nothing else changes.
    No line goes on with a blank or tabulator after the wanted length. -/
theorem C52_multiline (value : Str) (len : Nat) (drop : Bool) (hlen : 0 < len) :
    ∃ segs seps, segs.length = seps.length + 1 ∧ (∀ s ∈ seps, ∃ c, s = [c] ∧ Blank3 c) ∧ value = interleave segs seps ∧
      makeMultiline value len drop = interleave segs (seps.map fun s => (if drop then [] else s) ++ ['\n']) ∧
      ∀ t ∈ segs, ∀ i c, len ≤ i → t[i]? = some c → c ≠ ' ' ∧ c ≠ '\t' := by
  have hb : ∀ c, isBlankC c = false → c ≠ ' ' ∧ c ≠ '\t' := by
    intro c h; unfold isBlankC at h
    simpa using h
  unfold makeMultiline
  by_cases h : value.length ≤ len
  · rw [if_pos h]
    refine ⟨[value], [], rfl, by simp, rfl, rfl, ?_⟩
    intro t ht i c hi hc
    rw [List.mem_singleton] at ht; subst ht
    have := lt_of_get hc; omega
  · rw [if_neg h]
    obtain ⟨segs, seps, e1, e2, e3, e4, e5⟩ := multilineLoop_spec value len drop hlen (value.length + 1) 0 (by omega)
    exact ⟨segs, seps, e1, e2, by simpa using e3, e4, fun t ht i c hi hc => hb c (e5 t ht i c hi hc)⟩

/-- C52: what does not need to be broken is left alone. -/
theorem C52_short (value : Str) (len : Nat) (drop : Bool) (h : value.length ≤ len) : makeMultiline value len drop = value := by
  unfold makeMultiline; rw [if_pos h]

/-- C52: the loop ends by itself: the bound on its iterations in the model is never reached. -/
theorem C52_terminates (value : Str) (len : Nat) (drop : Bool) (hlen : 0 < len) : ∀ (fuel fuel' pos : Nat), value.length + 1 ≤ fuel + pos →
    value.length + 1 ≤ fuel' + pos → multilineLoop value len drop fuel pos = multilineLoop value len drop fuel' pos := by
  intro fuel
  induction fuel with
  | zero =>
    intro fuel' pos h h'
    rw [multilineLoop, List.drop_eq_nil_of_le (by omega)]
    cases fuel' with
    | zero => rw [multilineLoop, List.drop_eq_nil_of_le (by omega)]
    | succ n => rw [multilineLoop, if_pos (by omega)]
  | succ fuel ih =>
    intro fuel' pos h h'
    cases fuel' with
    | zero =>
      rw [multilineLoop.eq_2, if_pos (by omega), multilineLoop, List.drop_eq_nil_of_le (by omega)]
    | succ n =>
      rw [multilineLoop, multilineLoop]
      split
      · rfl
      · have hspec := breakPos_spec value len pos hlen
        cases hb : breakPos value len pos with
        | none => rfl
        | some np =>
          rw [hb] at hspec
          simp only []
          rw [ih n (np + 1) (by omega) (by omega)]

example : makeMultiline "The length of the list".toList 8 true = "The length\nof the\nlist".toList := by decide +kernel

end Commsdsl.Props
