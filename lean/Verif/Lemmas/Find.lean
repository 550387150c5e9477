import Verif.Lemmas.Text
/-!
# Lemmas about position searches, trimming and normalisation
-/
namespace Commsdsl.Text
open Commsdsl Commsdsl.Spec

theorem findIdx?_split {α : Type} {p : α → Bool} {l : List α} {i : Nat} :
    l.findIdx? p = some i ↔
      ∃ pre c post, l = pre ++ c :: post ∧ pre.length = i ∧ (∀ x ∈ pre, p x = false) ∧ p c = true := by
  induction l generalizing i with
  | nil => simp
  | cons a l ih =>
    rw [List.findIdx?_cons]
    by_cases ha : p a = true
    · simp only [ha, if_true, Option.some.injEq]
      constructor
      · rintro rfl
        exact ⟨[], a, l, rfl, rfl, by simp, ha⟩
      · rintro ⟨pre, c, post, h1, h2, h3, h4⟩
        match pre, h1, h2, h3 with
        | [], _, h2, _ => simpa using h2
        | b :: pre', h1, _, h3 =>
          simp only [List.cons_append, List.cons.injEq] at h1
          have := h3 b (by simp)
          rw [← h1.1, ha] at this
          exact absurd this (by simp)
    · have ha' : p a = false := by simpa using ha
      simp only [ha', Bool.false_eq_true, if_false, Option.map_eq_some_iff]
      constructor
      · rintro ⟨j, hj, rfl⟩
        obtain ⟨pre, c, post, h1, h2, h3, h4⟩ := ih.1 hj
        refine ⟨a :: pre, c, post, by simp [h1], by simp [h2], ?_, h4⟩
        intro x hx
        rcases List.mem_cons.1 hx with rfl | hx
        · exact ha'
        · exact h3 x hx
      · rintro ⟨pre, c, post, h1, h2, h3, h4⟩
        match pre, h1, h2, h3 with
        | [], h1, _, _ =>
          simp only [List.nil_append, List.cons.injEq] at h1
          rw [← h1.1] at h4
          exact absurd h4 (by simp [ha'])
        | b :: pre', h1, h2, h3 =>
          simp only [List.cons_append, List.cons.injEq] at h1
          refine ⟨pre'.length, ih.2 ⟨pre', c, post, h1.2, rfl, fun x hx => h3 x (by simp [hx]), h4⟩, by simpa using h2⟩

theorem findIdx?_none {α : Type} {p : α → Bool} {l : List α} :
    l.findIdx? p = none ↔ ∀ x ∈ l, p x = false := by
  simp [List.findIdx?_eq_none_iff]

theorem findFirstNot_split {p : Char → Bool} {s : Str} {i : Nat} :
    findFirstNot p s = some i ↔
      ∃ pre c post, s = pre ++ c :: post ∧ pre.length = i ∧ (∀ x ∈ pre, p x = true) ∧ p c = false := by
  unfold findFirstNot
  rw [findIdx?_split]
  simp

theorem findFirstNot_none {p : Char → Bool} {s : Str} :
    findFirstNot p s = none ↔ ∀ x ∈ s, p x = true := by
  unfold findFirstNot
  rw [findIdx?_none]
  simp

theorem findLastNot_split {p : Char → Bool} {s : Str} {i : Nat} :
    findLastNot p s = some i ↔
      ∃ pre c post, s = pre ++ c :: post ∧ pre.length = i ∧ (∀ x ∈ post, p x = true) ∧ p c = false := by
  unfold findLastNot
  simp only [Option.map_eq_some_iff]
  constructor
  · rintro ⟨j, hj, rfl⟩
    obtain ⟨pre, c, post, h1, h2, h3, h4⟩ := findIdx?_split.1 hj
    have hs : s = post.reverse ++ c :: pre.reverse := by
      have := congrArg List.reverse h1
      simpa using this
    refine ⟨post.reverse, c, pre.reverse, hs, ?_, ?_, by simpa using h4⟩
    · rw [hs]; simp; omega
    · intro x hx
      have := h3 x (by simpa using hx)
      simpa using this
  · rintro ⟨pre, c, post, h1, h2, h3, h4⟩
    refine ⟨post.length, findIdx?_split.2 ⟨post.reverse, c, pre.reverse, by simp [h1], by simp, ?_, by simp [h4]⟩, ?_⟩
    · intro x hx
      have := h3 x (by simpa using hx)
      simp [this]
    · rw [h1]; simp; omega

theorem findLastNot_none {p : Char → Bool} {s : Str} :
    findLastNot p s = none ↔ ∀ x ∈ s, p x = true := by
  unfold findLastNot
  simp

theorem findFrom_split {c : Char} {s : Str} {k i : Nat} :
    findFrom c s k = some i ↔
      ∃ mid post, s = s.take k ++ mid ++ c :: post ∧ k + mid.length = i ∧ c ∉ mid := by
  unfold findFrom
  simp only [Option.map_eq_some_iff]
  constructor
  · rintro ⟨j, hj, rfl⟩
    obtain ⟨pre, c', post, h1, h2, h3, h4⟩ := findIdx?_split.1 hj
    have : c' = c := by simpa using h4
    subst this
    refine ⟨pre, post, ?_, by omega, ?_⟩
    · rw [List.append_assoc, ← h1, List.take_append_drop]
    · intro hmem
      have := h3 c' hmem
      simp at this
  · rintro ⟨mid, post, h1, h2, h3⟩
    refine ⟨mid.length, findIdx?_split.2 ⟨mid, c, post, ?_, rfl, ?_, by simp⟩, by omega⟩
    · have h : s.take k ++ s.drop k = s.take k ++ (mid ++ c :: post) := by
        rw [List.take_append_drop, ← List.append_assoc]; exact h1
      exact List.append_cancel_left h
    · intro x hx
      simp only [beq_eq_false_iff_ne]
      rintro rfl
      exact h3 hx

theorem findFrom_none {c : Char} {s : Str} {k : Nat} : findFrom c s k = none ↔ c ∉ s.drop k := by
  unfold findFrom
  rw [Option.map_eq_none_iff, findIdx?_none]
  constructor
  · intro h hm
    have := h c hm
    simp at this
  · intro h x hx
    simp only [beq_eq_false_iff_ne]
    rintro rfl
    exact h hx

/-! ## trim -/

theorem trim_white {s : Str} (h : ∀ c ∈ s, White c) : trim s = [] := by
  unfold trim
  rw [findFirstNot_none.2 (fun x hx => (isTrimWs_iff x).2 (h x hx))]

theorem not_white_ws {c : Char} (h : ¬ White c) : isTrimWs c = false := by
  rw [← Bool.not_eq_true, isTrimWs_iff]; exact h

/-- `trim` on a decomposed text. -/
theorem trim_middle (a m b : Str) (ha : ∀ c ∈ a, White c) (hb : ∀ c ∈ b, White c)
    (hm : m ≠ []) (hh : ∀ c, m.head? = some c → ¬ White c) (hl : ∀ c, m.getLast? = some c → ¬ White c) :
    trim (a ++ m ++ b) = m := by
  obtain ⟨c, cs, rfl⟩ := List.exists_cons_of_ne_nil hm
  obtain ⟨m', z, hmz⟩ := List.eq_nil_or_concat (c :: cs) |>.resolve_left hm
  have hc : isTrimWs c = false := not_white_ws (hh c rfl)
  have hz : isTrimWs z = false := not_white_ws (hl z (by rw [hmz]; simp))
  have e1 : findFirstNot isTrimWs (a ++ (c :: cs) ++ b) = some a.length :=
    findFirstNot_split.2 ⟨a, c, cs ++ b, by simp, rfl, fun x hx => (isTrimWs_iff x).2 (ha x hx), hc⟩
  have e2 : findLastNot isTrimWs ((c :: cs) ++ b) = some m'.length :=
    findLastNot_split.2 ⟨m', z, b, by rw [hmz]; simp, rfl, fun x hx => (isTrimWs_iff x).2 (hb x hx), hz⟩
  have e3 : (if a.length ≠ 0 then (a ++ (c :: cs) ++ b).drop a.length else a ++ (c :: cs) ++ b) = (c :: cs) ++ b := by
    split
    · rw [List.append_assoc, List.drop_left]
    · have : a = [] := by simpa using ‹¬ a.length ≠ 0›
      simp [this]
  have hlen : (c :: cs).length = m'.length + 1 := by rw [hmz]; simp
  unfold trim
  simp only [e1, e3, e2]
  split
  · rename_i h
    have hbl : b.length = 0 := by
      rw [List.length_append] at h; omega
    have : b = [] := by simpa using hbl
    simp [this]
  · rw [← hlen, List.take_left]

/-- Every text is either all white or decomposes around a non-white-ended middle. -/
theorem trim_decompose (s : Str) : (∀ c ∈ s, White c) ∨
    ∃ a m b, s = a ++ m ++ b ∧ (∀ c ∈ a, White c) ∧ (∀ c ∈ b, White c) ∧ m ≠ [] ∧
      (∀ c, m.head? = some c → ¬ White c) ∧ (∀ c, m.getLast? = some c → ¬ White c) := by
  cases h : findFirstNot isTrimWs s with
  | none => exact Or.inl fun c hc => (isTrimWs_iff c).1 (findFirstNot_none.1 h c hc)
  | some i =>
    right
    obtain ⟨a, c, post, h1, h2, h3, h4⟩ := findFirstNot_split.1 h
    cases h' : findLastNot isTrimWs (c :: post) with
    | none =>
      have := findLastNot_none.1 h' c (by simp)
      rw [h4] at this; exact absurd this (by simp)
    | some j =>
      obtain ⟨m', z, b, g1, g2, g3, g4⟩ := findLastNot_split.1 h'
      refine ⟨a, m' ++ [z], b, by rw [h1, g1]; simp, fun x hx => (isTrimWs_iff x).1 (h3 x hx),
        fun x hx => (isTrimWs_iff x).1 (g3 x hx), by simp, ?_, ?_⟩
      · intro x hx
        have : x = c := by
          cases m' with
          | nil => simp at g1 hx; rw [← hx, g1.1]
          | cons y ys => simp at g1 hx; rw [← hx, g1.1]
        rw [this, ← isTrimWs_iff, h4]; simp
      · intro x hx
        have : x = z := by simpa using hx.symm
        rw [this, ← isTrimWs_iff, g4]; simp

/-! ## normalise -/

theorem normReplace_char (c : Char) :
    (if (c == '\t' || c == '\r' || c == '\n') = true then ' ' else c) = (if White c then ' ' else c) := by
  by_cases h1 : c = '\t'
  · subst h1; decide
  by_cases h2 : c = '\r'
  · subst h2; decide
  by_cases h3 : c = '\n'
  · subst h3; decide
  by_cases h4 : c = ' '
  · subst h4; decide
  simp [h1, h2, h3, h4, White]

theorem normReplace_eq (s : Str) : normReplace s = s.map (fun c => if White c then ' ' else c) := by
  unfold normReplace
  congr 1
  funext c
  exact normReplace_char c

/-- The normaliser after replacing, as a function of the original characters. -/
theorem normSqueeze_white_true (ws rest : Str) (h : ∀ c ∈ ws, White c) :
    normSqueeze true (normReplace (ws ++ rest)) = normSqueeze true (normReplace rest) := by
  induction ws with
  | nil => rfl
  | cons c cs ih =>
    have hc := h c (by simp)
    have ih' := ih (fun d hd => h d (by simp [hd]))
    rw [normReplace_eq] at ih' ⊢
    rw [normReplace_eq] at ih' ⊢
    simp only [List.cons_append, List.map_cons, hc, if_true, normSqueeze]
    simpa using ih'

theorem normSqueeze_nonwhite (b : Bool) (c : Char) (rest : Str) (h : ¬ White c) :
    normSqueeze b (normReplace (c :: rest)) = c :: normSqueeze false (normReplace rest) := by
  have hs : c ≠ ' ' := by rintro rfl; exact h (Or.inl rfl)
  rw [normReplace_eq, normReplace_eq]
  simp [h, normSqueeze, hs]

theorem normSqueeze_bool (s : Str) (h : ∀ c, s.head? = some c → ¬ White c) :
    normSqueeze true (normReplace s) = normSqueeze false (normReplace s) := by
  cases s with
  | nil => rfl
  | cons c cs => rw [normSqueeze_nonwhite _ _ _ (h c rfl), normSqueeze_nonwhite _ _ _ (h c rfl)]

end Commsdsl.Text
