import Verif.Model.GenText
import Verif.Spec.GenText
/-!
# C49 (substitution), C50 (splitting)
-/
namespace Commsdsl.Props
open Commsdsl Text Spec Gen

namespace GenTextProofs

theorem findSub_some {w s a b : Str} (h : findSub w s = some (a, b)) : s = a ++ b ∧ w <+: b ∧ ∀ a' b', s = a' ++ (w ++ b') → a.length ≤ a'.length := by
  induction s generalizing a b with
  | nil =>
    unfold findSub at h
    split at h
    · rename_i hw
      simp only [Option.some.injEq, Prod.mk.injEq] at h
      obtain ⟨rfl, rfl⟩ := h
      simp only [List.isEmpty_iff] at hw
      subst hw
      simp
    · simp at h
  | cons c cs ih =>
    unfold findSub at h
    split at h
    · rename_i hw
      simp only [Option.some.injEq, Prod.mk.injEq] at h
      obtain ⟨rfl, rfl⟩ := h
      exact ⟨rfl, List.isPrefixOf_iff_prefix.1 hw, by simp⟩
    · rename_i hw
      simp only [Option.map_eq_some_iff] at h
      obtain ⟨⟨a1, b1⟩, h1, h2⟩ := h
      simp only [Prod.mk.injEq] at h2
      obtain ⟨rfl, rfl⟩ := h2
      obtain ⟨e1, e2, e3⟩ := ih h1
      refine ⟨by rw [e1]; rfl, e2, ?_⟩
      intro a' b' e
      cases a' with
      | nil =>
        exfalso
        apply hw
        rw [List.isPrefixOf_iff_prefix]
        exact ⟨b', by simpa using e.symm⟩
      | cons d ds =>
        simp only [List.cons_append, List.cons.injEq] at e
        have := e3 ds b' e.2
        simp only [List.length_cons]
        omega

theorem findSub_none {w s : Str} (h : findSub w s = none) : ∀ a b, s ≠ a ++ (w ++ b) := by
  induction s with
  | nil =>
    unfold findSub at h
    split at h
    · simp at h
    · rename_i hw
      intro a b e
      have : a = [] ∧ w = [] ∧ b = [] := by simpa using e.symm
      simp [this.2.1] at hw
  | cons c cs ih =>
    unfold findSub at h
    split at h
    · simp at h
    · rename_i hw
      simp only [Option.map_eq_none_iff] at h
      intro a b e
      cases a with
      | nil =>
        apply hw
        rw [List.isPrefixOf_iff_prefix]
        exact ⟨b, by simpa using e.symm⟩
      | cons d ds =>
        simp only [List.cons_append, List.cons.injEq] at e
        exact ih h ds b e.2

theorem firstAt_iff {w s a b : Str} : FirstAt w s a b ↔ findSub w s = some (a, w ++ b) := by
  constructor
  · rintro ⟨e, hmin⟩
    cases hf : findSub w s with
    | none => exact absurd e (findSub_none hf a b)
    | some p =>
      obtain ⟨a1, b1⟩ := p
      obtain ⟨e1, ⟨b2, e2⟩, e3⟩ := findSub_some hf
      have h1 := e3 a b e
      subst e2
      have h2 := hmin a1 b2 e1
      have hl : a.length = a1.length := by omega
      have : a = a1 ∧ w ++ b = w ++ b2 := List.append_inj (e.symm.trans e1) hl
      rw [this.1, this.2]
  · intro h
    obtain ⟨e1, ⟨b2, e2⟩, e3⟩ := findSub_some h
    exact ⟨e1, fun a' b' => e3 a' b'⟩

theorem findSub_split {w s a b : Str} (h : findSub w s = some (a, b)) : FirstAt w s a (b.drop w.length) ∧ b = w ++ b.drop w.length := by
  obtain ⟨e1, ⟨b2, e2⟩, e3⟩ := findSub_some h
  subst e2
  simp only [List.drop_left]
  exact ⟨firstAt_iff.2 h, trivial⟩

theorem replaceLoop_spec {w n : Str} (hw : w ≠ []) : ∀ (fuel : Nat) (s : Str), s.length < fuel →
    ∃ r, replaceLoop w n fuel s = some r ∧ Replaced w n s r := by
  intro fuel
  induction fuel with
  | zero => intro s h; omega
  | succ fuel ih =>
    intro s h
    unfold replaceLoop
    split
    · rename_i he
      simp only [List.isEmpty_iff] at he
      subst he
      refine ⟨[], rfl, .none ?_⟩
      intro a b e
      have : a = [] ∧ w = [] ∧ b = [] := by simpa using e.symm
      exact hw this.2.1
    · split
      · rename_i hf
        exact ⟨s, rfl, .none (findSub_none hf)⟩
      · rename_i a b hf
        obtain ⟨h1, h2⟩ := findSub_split hf
        have hwl : 0 < w.length := List.length_pos_iff.2 hw
        have hbl : b.length = w.length + (b.drop w.length).length := by
          have := congrArg List.length h2
          simpa using this
        rw [if_neg (by simp only [List.isEmpty_iff]; intro e; rw [e] at hbl; simp at hbl; omega)]
        have hs : s.length = a.length + b.length := by rw [(findSub_some hf).1]; simp
        obtain ⟨r, hr1, hr2⟩ := ih (b.drop w.length) (by omega)
        exact ⟨_, by rw [hr1]; rfl, .step h1 hr2⟩

theorem replaced_unique {w n : Str} {s r r' : Str} (h : Replaced w n s r) (h' : Replaced w n s r') : r = r' := by
  induction h generalizing r' with
  | none hn =>
    cases h' with
    | none => rfl
    | step hf _ => exact absurd hf.1 (hn _ _)
  | @step s a b r hf _ ih =>
    cases h' with
    | none hn => exact absurd hf.1 (hn _ _)
    | @step _ a' b' r1 hf' h2 =>
      have e1 := firstAt_iff.1 hf
      rw [firstAt_iff.1 hf'] at e1
      simp only [Option.some.injEq, Prod.mk.injEq, List.append_cancel_left_eq] at e1
      obtain ⟨rfl, rfl⟩ := e1
      rw [ih h2]

end GenTextProofs
open GenTextProofs

/-- C49. For every pattern that is not empty, substitution ends (in at most one step per character of the text), and its result is the text
    with exactly the non-overlapping occurrences, from left to right, replaced. -/
theorem C49_replace_exact (s what new : Str) (hw : what ≠ []) (r : Str) :
    (∃ fuel, replaceLoop what new fuel s = some r) ↔ Replaced what new s r := by
  obtain ⟨r0, h1, h2⟩ := replaceLoop_spec (n := new) hw (s.length + 1) s (by omega)
  have mono : ∀ (f : Nat) (s r : Str), replaceLoop what new f s = some r → replaceLoop what new (f + 1) s = some r := by
    intro f
    induction f with
    | zero => intro s r h; simp [replaceLoop] at h
    | succ f ih =>
      intro s r h
      unfold replaceLoop at h ⊢
      split
      · rename_i he; rw [if_pos he] at h; exact h
      · rename_i he
        rw [if_neg he] at h
        cases hf : findSub what s with
        | none => rw [hf] at h; exact h
        | some p =>
          rw [hf] at h
          simp only at h ⊢
          split
          · rename_i hb; rw [if_pos hb] at h; exact h
          · rename_i hb
            rw [if_neg hb] at h
            simp only [Option.map_eq_some_iff] at h
            obtain ⟨x, hx, rfl⟩ := h
            rw [ih _ _ hx]; rfl
  have mono' : ∀ (k f : Nat) (s r : Str), replaceLoop what new f s = some r → replaceLoop what new (f + k) s = some r := by
    intro k
    induction k with
    | zero => intro f s r h; exact h
    | succ k ih => intro f s r h; exact mono _ _ _ (ih f s r h)
  constructor
  · rintro ⟨f, hf⟩
    have a := mono' (s.length + 1) f s r hf
    have b := mono' f (s.length + 1) s r0 h1
    rw [Nat.add_comm, b] at a
    cases a; exact h2
  · intro h
    exact ⟨_, by rw [replaced_unique h h2]; exact h1⟩

/-- What the functions built on substitution use. -/
theorem C49_strReplace (s what new : Str) (hw : what ≠ []) : Replaced what new s (strReplace s what new) ∧
    ∀ r, Replaced what new s r → r = strReplace s what new := by
  obtain ⟨r0, h1, h2⟩ := replaceLoop_spec (n := new) hw (s.length + 1) s (by omega)
  have : strReplace s what new = r0 := by unfold strReplace; rw [h1]; rfl
  rw [this]
  exact ⟨h2, fun r h => replaced_unique h h2⟩

/-- An empty pattern makes it loop forever, on every text that is not empty. -/
theorem C49_empty_pattern_diverges (s new : Str) (hs : s ≠ []) (fuel : Nat) : replaceLoop [] new fuel s = none := by
  induction fuel with
  | zero => rfl
  | succ fuel ih =>
    cases s with
    | nil => exact absurd rfl hs
    | cons c cs =>
      unfold replaceLoop
      simp only [List.isEmpty_cons, Bool.false_eq_true, if_false, findSub, List.isPrefixOf, if_true, List.length_nil, List.drop_zero]
      rw [ih]; rfl

example : strReplace "a::b::::c".toList "::".toList "/".toList = "a/b//c".toList ∧
    strReplace "aaa".toList "aa".toList "b".toList = "ba".toList := by decide +kernel

/-! ## C50 -/

namespace GenTextProofs

theorem findAny_some {cs s a b : Str} (h : findAny cs s = some (a, b)) :
    ∃ c b', b = c :: b' ∧ s = a ++ c :: b' ∧ c ∈ cs ∧ ∀ d ∈ a, d ∉ cs := by
  induction s generalizing a b with
  | nil => simp [findAny] at h
  | cons x xs ih =>
    unfold findAny at h
    split at h
    · rename_i hx
      simp only [Option.some.injEq, Prod.mk.injEq] at h
      obtain ⟨rfl, rfl⟩ := h
      exact ⟨x, xs, rfl, rfl, by simpa using hx, by simp⟩
    · rename_i hx
      simp only [Option.map_eq_some_iff] at h
      obtain ⟨⟨a1, b1⟩, h1, h2⟩ := h
      simp only [Prod.mk.injEq] at h2
      obtain ⟨rfl, rfl⟩ := h2
      obtain ⟨c, b', e1, e2, e3, e4⟩ := ih h1
      refine ⟨c, b', e1, by rw [e2]; rfl, e3, ?_⟩
      intro d hd
      rcases List.mem_cons.1 hd with rfl | hd
      · simpa using hx
      · exact e4 d hd

theorem findAny_none {cs s : Str} (h : findAny cs s = none) : ∀ d ∈ s, d ∉ cs := by
  induction s with
  | nil => simp
  | cons x xs ih =>
    unfold findAny at h
    split at h
    · simp at h
    · rename_i hx
      simp only [Option.map_eq_none_iff] at h
      intro d hd
      rcases List.mem_cons.1 hd with rfl | hd
      · simpa using hx
      · exact ih h d hd

theorem dropEmptyLast_cons {p : Str} {ps : List Str} (h : ps ≠ []) : dropEmptyLast (p :: ps) = p :: dropEmptyLast ps := by
  unfold dropEmptyLast
  cases ps with
  | nil => exact absurd rfl h
  | cons q qs =>
    rw [show (p :: q :: qs).getLast? = (q :: qs).getLast? by simp [List.getLast?_cons_cons]]
    split <;> simp [List.dropLast]

/-- The specification, generically in the notion of pieces. -/
structure PieceRel (next : Str → Option (Str × Str)) (len : Nat) (R : Str → List Str → Prop) : Prop where
  pos : 0 < len
  stop : ∀ s, next s = none → R s [s]
  cut : ∀ s a b ps, next s = some (a, b) → R (b.drop len) ps → R s (a :: ps)
  len_le : ∀ s a b, next s = some (a, b) → s = a ++ b ∧ len ≤ b.length
  nil : next [] = none

theorem splitLoop_spec {next : Str → Option (Str × Str)} {len : Nat} {R : Str → List Str → Prop} (h : PieceRel next len R) (compressed : Bool) :
    ∀ (fuel : Nat) (s : Str), s.length < fuel → ∃ ps, R s ps ∧ ps ≠ [] ∧
      splitLoop next len compressed fuel s = some (if compressed then ps.filter (fun p => !p.isEmpty) else dropEmptyLast ps) := by
  intro fuel
  induction fuel with
  | zero => intro s hs; omega
  | succ fuel ih =>
    intro s hs
    unfold splitLoop
    split
    · rename_i he
      simp only [List.isEmpty_iff] at he
      subst he
      refine ⟨[[]], h.stop _ h.nil, by simp, ?_⟩
      cases compressed <;> simp [dropEmptyLast]
    · rename_i he
      split
      · rename_i hn
        refine ⟨[s], h.stop _ hn, by simp, ?_⟩
        cases compressed
        · simp only [dropEmptyLast, List.getLast?_singleton, Option.some.injEq]
          simp only [List.isEmpty_iff] at he
          rw [if_neg he]; rfl
        · simp [he]
      · rename_i a b hn
        obtain ⟨e, hl⟩ := h.len_le _ _ _ hn
        have hp := h.pos
        have hsl : s.length = a.length + b.length := by rw [e]; simp
        obtain ⟨ps, h1, h2, h3⟩ := ih (b.drop len) (by simp only [List.length_drop]; omega)
        refine ⟨a :: ps, h.cut _ _ _ _ hn h1, by simp, ?_⟩
        by_cases hc : compressed = true ∧ a = []
        · obtain ⟨hc1, hc2⟩ := hc
          subst hc2
          rw [if_pos (by simp [hc1])]
          have : s = b := by simpa using e
          rw [this, h3]
          simp [hc1]
        · rw [if_neg (by simpa using hc)]
          rw [if_neg (by simp only [List.isEmpty_iff]; intro e'; rw [e'] at hl; simp at hl; omega), h3]
          cases hcc : compressed with
          | false => simp [dropEmptyLast_cons h2]
          | true =>
            have : a ≠ [] := fun e => hc ⟨hcc, e⟩
            simp [this]

theorem any_rel (chars : Str) : PieceRel (findAny chars) 1 (PiecesAny (· ∈ chars)) where
  pos := by omega
  stop s h := .last (findAny_none h)
  cut s a b ps h hr := by
    obtain ⟨c, b', rfl, rfl, hc, ha⟩ := findAny_some h
    exact .cons ha hc hr
  len_le s a b h := by
    obtain ⟨c, b', rfl, rfl, hc, ha⟩ := findAny_some h
    exact ⟨rfl, by simp⟩
  nil := rfl

theorem str_rel {w : Str} (hw : w ≠ []) : PieceRel (findSub w) w.length (PiecesStr w) where
  pos := List.length_pos_iff.2 hw
  stop s h := .last (findSub_none h)
  cut s a b ps h hr := .cons (findSub_split h).1 hr
  len_le s a b h := by
    refine ⟨(findSub_some h).1, ?_⟩
    have := congrArg List.length (findSub_split h).2
    simp only [List.length_append] at this
    omega
  nil := by
    cases w with
    | nil => exact absurd rfl hw
    | cons => rfl

end GenTextProofs

/-- Splitting by characters: the pieces between separators; without the empty ones in compressed mode, otherwise without the last one if it is
    empty. -/
theorem C50_split_any (s chars : Str) (compressed : Bool) : ∃ ps, PiecesAny (· ∈ chars) s ps ∧
    splitByAnyChar s chars compressed = some (if compressed then ps.filter (fun p => !p.isEmpty) else dropEmptyLast ps) := by
  obtain ⟨ps, h1, _, h2⟩ := splitLoop_spec (any_rel chars) compressed (s.length + 1) s (by omega)
  exact ⟨ps, h1, h2⟩

/-- The pieces are determined by the text. -/
theorem C50_pieces_unique (sep : Char → Prop) (s : Str) (ps ps' : List Str) (h : PiecesAny sep s ps) (h' : PiecesAny sep s ps') : ps = ps' := by
  induction h generalizing ps' with
  | @last p hp =>
    cases h' with
    | last => rfl
    | @cons q s c qs hq hc hr => exact absurd hc (hp c (by simp))
  | @cons p s c ps hp hc hr ih =>
    generalize hx : p ++ c :: s = x at h'
    cases h' with
    | last hq => subst hx; exact absurd hc (hq c (by simp))
    | @cons q s' c' qs hq hc' hr' =>
      have : p = q ∧ c = c' ∧ s = s' := by
        clear hr hr' ih
        induction p generalizing q with
        | nil =>
          cases q with
          | nil => simpa using hx
          | cons d ds =>
            simp only [List.nil_append, List.cons_append, List.cons.injEq] at hx
            exact absurd hc (hx.1 ▸ hq d (by simp))
        | cons d ds ih2 =>
          cases q with
          | nil =>
            simp only [List.nil_append, List.cons_append, List.cons.injEq] at hx
            exact absurd hc' (hx.1 ▸ hp d (by simp))
          | cons e es =>
            simp only [List.cons_append, List.cons.injEq] at hx
            obtain ⟨h1, h2, h3⟩ := ih2 (fun x hx => hp x (List.mem_cons_of_mem _ hx)) (fun x hx => hq x (List.mem_cons_of_mem _ hx)) hx.2
            exact ⟨by rw [hx.1, h1], h2, h3⟩
      obtain ⟨rfl, rfl, rfl⟩ := this
      rw [ih qs hr']

/-- Nothing is lost: with one separator character, joining the pieces with it gives the text, except for a separator at its end. -/
theorem C50_split_join (s : Str) (c : Char) : ∃ ps, splitByAnyChar s [c] false = some ps ∧
    (List.intercalate [c] ps = s ∨ List.intercalate [c] ps ++ [c] = s) := by
  obtain ⟨ps, h1, h2⟩ := C50_split_any s [c] false
  refine ⟨dropEmptyLast ps, h2, ?_⟩
  clear h2
  have key : ∀ s ps, PiecesAny (· ∈ [c]) s ps → ps ≠ [] ∧ List.intercalate [c] ps = s := by
    intro s ps h
    induction h with
    | last => exact ⟨by simp, by simp [List.intercalate]⟩
    | @cons p s d ps hp hd hr ih =>
      refine ⟨by simp, ?_⟩
      simp only [List.mem_singleton] at hd
      subst hd
      cases ps with
      | nil => exact absurd rfl ih.1
      | cons q qs =>
        rw [← ih.2]
        simp [List.intercalate, List.intersperse]
  obtain ⟨hne, hj⟩ := key s ps h1
  by_cases he : ps.getLast? = some []
  · have hd : dropEmptyLast ps = ps.dropLast := by unfold dropEmptyLast; rw [if_pos he]
    have hp : ps = ps.dropLast ++ [[]] := by
      have h1 := List.dropLast_concat_getLast hne
      have h2 : ps.getLast hne = [] := by
        rw [List.getLast?_eq_some_getLast hne] at he
        exact Option.some.inj he
      rw [h2] at h1
      exact h1.symm
    rw [hd]
    cases hq : ps.dropLast with
    | nil =>
      rw [hq] at hp
      left
      rw [← hj, hp]
      simp [List.intercalate]
    | cons q qs =>
      right
      rw [← hj, hp, hq]
      clear hp hq hd he hj h1
      induction qs generalizing q with
      | nil => simp [List.intercalate, List.intersperse]
      | cons x xs ih =>
        have := ih x
        simp only [List.intercalate, List.cons_append, List.intersperse] at this ⊢
        simp only [List.flatten_cons, List.append_assoc] at this ⊢
        rw [this]
  · left
    unfold dropEmptyLast
    rw [if_neg he, hj]

/-- Splitting by a separator that is not empty. -/
theorem C50_split_str (s sep : Str) (hs : sep ≠ []) (compressed : Bool) : ∃ ps, PiecesStr sep s ps ∧
    strSplit s sep compressed = some (if compressed then ps.filter (fun p => !p.isEmpty) else dropEmptyLast ps) := by
  obtain ⟨ps, h1, _, h2⟩ := splitLoop_spec (str_rel hs) compressed (s.length + 1) s (by omega)
  exact ⟨ps, h1, h2⟩

example : splitByAnyChar "a,b;;c,".toList ",;".toList false = some ["a".toList, "b".toList, [], "c".toList] ∧
    splitByAnyChar ",a,b;;c,".toList ",;".toList true = some ["a".toList, "b".toList, "c".toList] ∧
    strSplit "a::b::::c".toList "::".toList false = some ["a".toList, "b".toList, [], "c".toList] := by decide +kernel

end Commsdsl.Props
