import Verif.Lemmas.Range
import Verif.Lemmas.RefName
/-!
# Properties C01–C06: text primitives of the parser
-/
namespace Commsdsl.Props
open Commsdsl Commsdsl.Text Commsdsl.Spec

/-! ## C01 – numeric text

Full claim: every accepted text is a number and the stored value is the number it denotes; numbers outside the target type are
rejected. It is proved for texts that are numbers (`C01_intmax_*`, `C01_uintmax_*`), and refuted for the 32-bit reader
(`C01_unsigned_wraps_witness`) and for trailing text (`C01_trailing_text_witness`). -/

/-- A number in the `intmax_t` range is read exactly. -/
theorem C01_intmax_exact (s : Str) (v : Int) (h : Denotes s v) (hlo : -2 ^ 63 ≤ v) (hhi : v < 2 ^ 63) :
    strToIntMax s = some v := by
  obtain ⟨neg, m, h1, h2⟩ := scanNumber_denotes h
  simp only [strToIntMax, stoll, h1, ← h2, i64Min, i64Max]
  rw [if_neg (by omega)]

/-- A number outside the `intmax_t` range is rejected. -/
theorem C01_intmax_rejects (s : Str) (v : Int) (h : Denotes s v) (hr : v < -2 ^ 63 ∨ 2 ^ 63 ≤ v) :
    strToIntMax s = none := by
  obtain ⟨neg, m, h1, h2⟩ := scanNumber_denotes h
  simp only [strToIntMax, stoll, h1, ← h2, i64Min, i64Max]
  rw [if_pos (by omega)]

/-- A non-negative number below 2^64 is read exactly as `uintmax_t`, a bigger one is rejected. -/
theorem C01_uintmax_exact (s : Str) (n : Nat) (h : DenotesU s n) :
    strToUintMax s = if n < 2 ^ 64 then some n else none := by
  have h1 : scanNumber s = some (false, n) := scanNumber_plain h
  have hu : u64Max = 18446744073709551615 := rfl
  simp only [strToUintMax, stoull, h1]
  by_cases h : n < 2 ^ 64
  · rw [if_neg (by omega), if_pos h]; simp
  · rw [if_pos (by omega), if_neg h]

/-- The 32-bit reader is exact for numbers below 2^32 (all versions, lengths and bit indices a schema may sensibly use). -/
theorem C01_unsigned_exact_partial (s : Str) (n : Nat) (h : DenotesU s n) (hn : n < 2 ^ 32) :
    strToUnsigned s = some n := by
  have := C01_uintmax_exact s n h
  rw [if_pos (by omega)] at this
  have e : castU32 (n : Int) = n % 2 ^ 32 := by unfold castU32; omega
  have e2 : n % 2 ^ 32 = n := Nat.mod_eq_of_lt (by omega)
  simp [strToUnsigned, show stoull s = some n from this, e, e2]

/-- What the 32-bit reader does with bigger numbers: below 2^64 it accepts them and keeps the value modulo 2^32. -/
theorem C01_unsigned_wraps (s : Str) (n : Nat) (h : DenotesU s n) (hn : n < 2 ^ 64) :
    strToUnsigned s = some (n % 2 ^ 32) := by
  have := C01_uintmax_exact s n h
  rw [if_pos hn] at this
  have e : castU32 (n : Int) = n % 2 ^ 32 := by unfold castU32; omega
  simp [strToUnsigned, show stoull s = some n from this, e]

/-- Refutation of the full claim for the 32-bit reader: `4294967297` is read as `1`. -/
theorem C01_unsigned_wraps_witness :
    DenotesU "4294967297".toList 4294967297 ∧ strToUnsigned "4294967297".toList = some 1 :=
  ⟨DenotesU.dec '4' "294967297".toList (by decide) (by decide), by decide⟩

/-- Refutation of "only numbers are accepted": trailing text is ignored, negative text is accepted as unsigned. -/
theorem C01_trailing_text_witness :
    strToIntMax "12abc".toList = some 12 ∧ strToUnsigned "0x1g".toList = some 1 ∧
      strToUintMax "-1".toList = some 18446744073709551615 := by decide

/-- Soundness for arbitrary text: whatever is accepted as `intmax_t` is white space, then a number denoting the result (in range),
    then ignored text. -/
theorem C01_intmax_sound (s : Str) (v : Int) (h : strToIntMax s = some v) :
    ∃ ws num rest, s = ws ++ num ++ rest ∧ (∀ c ∈ ws, isSpace c = true) ∧ Denotes num v ∧
      -2 ^ 63 ≤ v ∧ v < 2 ^ 63 := by
  simp only [strToIntMax, stoll] at h
  split at h
  · exact absurd h (by simp)
  · rename_i neg m heq
    obtain ⟨ws, pre, rest, h1, h2, h3⟩ := scanNumber_sound heq
    generalize hv : (if neg = true then -(m : Int) else (m : Int)) = v' at h h3
    by_cases hr : v' < i64Min ∨ i64Max < v'
    · rw [if_pos hr] at h; exact absurd h (by simp)
    · rw [if_neg hr] at h
      simp only [Option.some.injEq] at h
      subst h
      refine ⟨ws, pre, rest, h1, h2, h3, ?_⟩
      simp only [i64Min, i64Max] at hr
      omega

/-- The same for the unsigned readers: the value is the denoted number modulo 2^64 (resp. 2^32). -/
theorem C01_uintmax_sound (s : Str) (n : Nat) (h : strToUintMax s = some n) :
    ∃ ws num rest v, s = ws ++ num ++ rest ∧ (∀ c ∈ ws, isSpace c = true) ∧ Denotes num v ∧
      (n : Int) = v % 2 ^ 64 := by
  simp only [strToUintMax, stoull] at h
  split at h
  · exact absurd h (by simp)
  · rename_i neg m heq
    split at h
    · exact absurd h (by simp)
    · rename_i hr
      obtain ⟨ws, pre, rest, h1, h2, h3⟩ := scanNumber_sound heq
      simp only [Option.some.injEq] at h
      refine ⟨ws, pre, rest, _, h1, h2, h3, ?_⟩
      simp only [u64Max] at hr
      cases neg
      · simp at h ⊢; omega
      · simp [castU64] at h ⊢; omega

example : DenotesU "0x1F".toList 31 ∧ Denotes "-0x1F".toList (-31) ∧ DenotesU "017".toList 15 ∧
    DenotesU "120".toList 120 :=
  have h : DenotesU "0x1F".toList 31 := DenotesU.hex 'x' "1F".toList (by decide) (by decide) (by decide)
  ⟨h, Denotes.minus h, DenotesU.oct "17".toList (by decide), DenotesU.dec '1' "20".toList (by decide) (by decide)⟩

/-! ## C02 – names -/

/-- A name is accepted exactly when it is a C identifier. -/
theorem C02_name_iff (s : Str) : isValidName s = true ↔ Identifier s := by
  unfold isValidName Identifier
  cases s with
  | nil => simp
  | cons c cs =>
    have hall : (List.all (c :: cs) isNameChar = true) ↔ NameRest c ∧ ∀ d ∈ cs, NameRest d := by
      simp only [List.all_cons, Bool.and_eq_true, List.all_eq_true, nameRest_iff]
    have hst : (!isAlpha c && c != '_') = false ↔ NameStart c := by
      rw [nameStart_iff]
      by_cases h : c = '_' <;> cases isAlpha c <;> simp [h]
    by_cases hs : NameStart c
    · simp only [hst.2 hs, Bool.false_eq_true, if_false, hall]
      constructor
      · rintro ⟨_, h⟩
        exact ⟨c, cs, rfl, hs, h⟩
      · rintro ⟨c', cs', heq, _, h⟩
        simp only [List.cons.injEq] at heq
        obtain ⟨rfl, rfl⟩ := heq
        exact ⟨nameStart_rest hs, h⟩
    · have : (!isAlpha c && c != '_') = true := by
        rw [← Bool.not_eq_false, hst]; exact hs
      simp only [this, if_true, Bool.false_eq_true, false_iff]
      rintro ⟨c', cs', heq, h, _⟩
      simp only [List.cons.injEq] at heq
      rw [← heq.1] at h
      exact hs h

example : Identifier "some_Name2".toList ∧ ¬ Identifier "2nd".toList ∧ isValidName "a b".toList = false :=
  ⟨⟨'s', "ome_Name2".toList, rfl, by unfold NameStart; decide, by unfold NameRest; decide⟩,
   by rw [← C02_name_iff]; decide +kernel, by decide +kernel⟩

/-! ## C03 – references

Full claim: a reference is accepted iff, after an optional '@', all its dot-separated components are identifiers. The code checks the
first character of the first component only; the exact language is `C03_refname_exact`. -/

/-- Exactly which references are accepted: components are non-empty, made of name characters, and the *first* starts with a letter or
    underscore. -/
theorem C03_refname_exact (s : Str) : isValidRefName s = true ↔
    ∃ w ws, (s = joinDots (w :: ws) ∨ s = '@' :: joinDots (w :: ws)) ∧
      Identifier w ∧ ∀ x ∈ ws, x ≠ [] ∧ ∀ c ∈ x, NameRest c := by
  have key : ∀ t, refBody t = true ↔ ∃ w ws, t = joinDots (w :: ws) ∧
      Identifier w ∧ ∀ x ∈ ws, x ≠ [] ∧ ∀ c ∈ x, NameRest c := by
    intro t
    rw [refBody_iff]
    constructor
    · rintro ⟨w, ws, h1, h2, c, hc, hns⟩
      refine ⟨w, ws, h1, ?_, fun x hx => h2 x (by simp [hx])⟩
      cases w with
      | nil => simp at hc
      | cons d ds =>
        have : d = c := by simpa using hc
        subst this
        exact ⟨d, ds, rfl, hns, fun e he => (h2 (d :: ds) (by simp)).2 e (by simp [he])⟩
    · rintro ⟨w, ws, h1, ⟨c, cs, rfl, hns, hcs⟩, h2⟩
      refine ⟨c :: cs, ws, h1, ?_, c, rfl, hns⟩
      intro x hx
      rcases List.mem_cons.1 hx with rfl | hx
      · refine ⟨by simp, fun d hd => ?_⟩
        rcases List.mem_cons.1 hd with rfl | hd
        · exact nameStart_rest hns
        · exact hcs d hd
      · exact h2 x hx
  have hat : ∀ w ws, Identifier w → (joinDots (w :: ws)).head? ≠ some '@' := by
    rintro w ws ⟨c, cs, rfl, hns, _⟩ hh
    have : (joinDots ((c :: cs) :: ws)).head? = some c := by cases ws <;> rfl
    rw [this] at hh
    have : c = '@' := by simpa using hh
    subst this
    revert hns; unfold NameStart; decide
  by_cases hs : ∃ rest, s = '@' :: rest
  · obtain ⟨rest, rfl⟩ := hs
    rw [isValidRefName_at, key]
    constructor
    · rintro ⟨w, ws, h1, h2⟩
      exact ⟨w, ws, Or.inr (by rw [h1]), h2⟩
    · rintro ⟨w, ws, h1 | h1, h2, h3⟩
      · exact absurd (by rw [← h1]; rfl) (hat w ws h2)
      · exact ⟨w, ws, by simpa using h1, h2, h3⟩
  · have hh : s.head? ≠ some '@' := by
      cases s with
      | nil => simp
      | cons c cs =>
        intro h
        have : c = '@' := by simpa using h
        exact hs ⟨cs, by rw [this]⟩
    rw [isValidRefName_noat s hh, key]
    constructor
    · rintro ⟨w, ws, h1, h2⟩
      exact ⟨w, ws, Or.inl h1, h2⟩
    · rintro ⟨w, ws, h1 | h1, h2, h3⟩
      · exact ⟨w, ws, h1, h2, h3⟩
      · exact absurd ⟨_, h1⟩ hs

/-- Every well-formed path is accepted (the "if" half of the full claim). -/
theorem C03_paths_accepted_partial (w : Str) (ws : List Str) (h : ∀ x ∈ w :: ws, Identifier x) :
    isValidRefName (joinDots (w :: ws)) = true ∧ isValidRefName ('@' :: joinDots (w :: ws)) = true := by
  have h2 : ∀ x ∈ ws, x ≠ [] ∧ ∀ c ∈ x, NameRest c := by
    intro x hx
    obtain ⟨c, cs, rfl, hns, hcs⟩ := h x (by simp [hx])
    refine ⟨by simp, fun d hd => ?_⟩
    rcases List.mem_cons.1 hd with rfl | hd
    · exact nameStart_rest hns
    · exact hcs d hd
  exact ⟨(C03_refname_exact _).2 ⟨w, ws, Or.inl rfl, h w (by simp), h2⟩,
    (C03_refname_exact _).2 ⟨w, ws, Or.inr rfl, h w (by simp), h2⟩⟩

/-- Refutation of the "only if" half: a later component may start with a digit. -/
theorem C03_digit_component_witness : isValidRefName "a.1b".toList = true ∧ ¬ Identifier "1b".toList :=
  ⟨by decide +kernel, by rw [← C02_name_iff]; decide +kernel⟩

/-- Dots can neither start nor end a reference, nor be adjacent. -/
theorem C03_dots (a b : Str) : isValidRefName ('.' :: a) = false ∧ isValidRefName (a ++ ['.']) = false ∧
    isValidRefName (a ++ '.' :: '.' :: b) = false := by
  have main : ∀ t, isValidRefName t = true → t.head? ≠ some '.' ∧ t.getLast? ≠ some '.' ∧ noSequentialDots t = true := by
    intro t h
    obtain ⟨w, ws, h1, h2, h3⟩ := (C03_refname_exact t).1 h
    have hall : ∀ x ∈ w :: ws, x ≠ [] ∧ ∀ c ∈ x, NameRest c := by
      intro x hx
      rcases List.mem_cons.1 hx with rfl | hx
      · obtain ⟨c, cs, rfl, hns, hcs⟩ := h2
        refine ⟨by simp, fun d hd => ?_⟩
        rcases List.mem_cons.1 hd with rfl | hd
        · exact nameStart_rest hns
        · exact hcs d hd
      · exact h3 x hx
    obtain ⟨i1, i2, i3, i4, i5, i6⟩ := joinDots_props w ws hall
    rcases h1 with rfl | rfl
    · exact ⟨i6, i3, i4⟩
    · refine ⟨by simp, ?_, ?_⟩
      · cases hj : joinDots (w :: ws) with
        | nil => exact absurd hj i1
        | cons y ys => rw [hj] at i3; simpa [List.getLast?_cons_cons] using i3
      · rw [noSeq_nondot _ _ (by decide)]; exact i4
  have dd : ∀ a : Str, noSequentialDots (a ++ '.' :: '.' :: b) = false := by
    intro a
    induction a with
    | nil => simp [noSequentialDots]
    | cons c cs ih =>
      by_cases hc : c = '.'
      · subst hc
        by_cases hh : (cs ++ '.' :: '.' :: b).head? = some '.'
        · cases hcs : cs ++ '.' :: '.' :: b with
          | nil => simp at hcs
          | cons e es =>
            rw [hcs] at hh
            have : e = '.' := by simpa using hh
            subst this
            rw [List.cons_append, hcs]
            simp [noSequentialDots]
        · rw [List.cons_append, noSeq_dot _ hh, ih]
      · rw [List.cons_append, noSeq_nondot _ _ hc, ih]
  refine ⟨?_, ?_, ?_⟩
  · rw [← Bool.not_eq_true]; intro h; exact (main _ h).1 rfl
  · rw [← Bool.not_eq_true]; intro h; exact (main _ h).2.1 (by simp)
  · rw [← Bool.not_eq_true]; intro h
    have := (main _ h).2.2
    rw [dd] at this
    exact absurd this (by simp)

/-- An external reference is '^' followed by a non-empty reference. -/
theorem C03_external (s : Str) : isValidExternalRefName s = true ↔ ∃ r, s = '^' :: r ∧ isValidRefName r = true := by
  unfold isValidExternalRefName
  split
  · rename_i rest
    simp only [Bool.and_eq_true, List.cons.injEq, true_and, exists_eq_left']
    constructor
    · exact fun h => h.2
    · intro h
      refine ⟨?_, h⟩
      cases rest with
      | nil => revert h; decide
      | cons => rfl
  · rename_i h
    simp only [Bool.false_eq_true, false_iff]
    rintro ⟨r, rfl, _⟩
    exact h r rfl

example : isValidRefName "@ns.sub.field_1".toList = true := by decide +kernel

/-! ## C04 – trimming and normalisation -/

/-- Trimming: the text is white space, the result, white space; the result neither starts nor ends with white space. -/
theorem C04_trim_exact (s : Str) : ∃ a b, s = a ++ trim s ++ b ∧ (∀ c ∈ a, White c) ∧ (∀ c ∈ b, White c) ∧
    (∀ c, (trim s).head? = some c → ¬ White c) ∧ (∀ c, (trim s).getLast? = some c → ¬ White c) := by
  rcases trim_decompose s with h | ⟨a, m, b, rfl, ha, hb, hm, hh, hl⟩
  · exact ⟨s, [], by simp [trim_white h], h, by simp, by simp [trim_white h], by simp [trim_white h]⟩
  · rw [trim_middle a m b ha hb hm hh hl]
    exact ⟨a, b, rfl, ha, hb, hh, hl⟩

/-- The trimmed text is the only one with that property. -/
theorem C04_trim_unique (a m b : Str) (ha : ∀ c ∈ a, White c) (hb : ∀ c ∈ b, White c)
    (hh : ∀ c, m.head? = some c → ¬ White c) (hl : ∀ c, m.getLast? = some c → ¬ White c) :
    trim (a ++ m ++ b) = m := by
  by_cases hm : m = []
  · subst hm
    apply trim_white
    intro c hc
    simp only [List.append_nil, List.mem_append] at hc
    exact hc.elim (ha c) (hb c)
  · exact trim_middle a m b ha hb hm hh hl

theorem C04_trim_idempotent (s : Str) : trim (trim s) = trim s := by
  obtain ⟨a, b, _, _, _, hh, hl⟩ := C04_trim_exact s
  have := C04_trim_unique [] (trim s) [] (by simp) (by simp) hh hl
  simpa using this

/-- Normalisation keeps a non-white character and goes on. -/
theorem C04_normalise_char (c : Char) (s : Str) (h : ¬ White c) : normalise (c :: s) = c :: normalise s :=
  normSqueeze_nonwhite false c s h

/-- Normalisation turns a maximal, non-empty run of white space to one space. Together with `C04_normalise_char` and
    `normalise [] = []` this determines the result for every text. -/
theorem C04_normalise_run (ws s : Str) (hne : ws ≠ []) (hw : ∀ c ∈ ws, White c)
    (hs : ∀ c, s.head? = some c → ¬ White c) : normalise (ws ++ s) = ' ' :: normalise s := by
  obtain ⟨c, cs, rfl⟩ := List.exists_cons_of_ne_nil hne
  have h1 := normSqueeze_white_true cs s (fun d hd => hw d (by simp [hd]))
  have h2 := normSqueeze_bool s hs
  have hc := hw c (by simp)
  unfold normalise
  rw [← h2, ← h1, normReplace_eq, normReplace_eq]
  simp [hc, normSqueeze]

theorem C04_normalise_nil : normalise [] = [] := rfl

/-- Non-white characters survive in order; no other white space than single spaces is left. -/
theorem C04_normalise_content (s : Str) :
    (normalise s).filter (fun c => !decide (White c)) = s.filter (fun c => !decide (White c)) ∧
    (∀ c ∈ normalise s, White c → c = ' ') ∧
    (∀ a b, normalise s ≠ a ++ ' ' :: ' ' :: b) := by
  have hsp : White ' ' := Or.inl rfl
  have main : ∀ (s : Str) (r : Bool),
      (normSqueeze r (normReplace s)).filter (fun c => !decide (White c)) = s.filter (fun c => !decide (White c)) ∧
      (∀ c ∈ normSqueeze r (normReplace s), White c → c = ' ') ∧
      (r = true → (normSqueeze r (normReplace s)).head? ≠ some ' ') ∧
      (∀ a b, normSqueeze r (normReplace s) ≠ a ++ ' ' :: ' ' :: b) := by
    intro s
    induction s with
    | nil => intro r; simp [normReplace, normSqueeze]
    | cons c cs ih =>
      intro r
      by_cases hc : White c
      · have e : normReplace (c :: cs) = ' ' :: normReplace cs := by
          rw [normReplace_eq, normReplace_eq]; simp [hc]
        cases r with
        | true =>
          have e2 : normSqueeze true (normReplace (c :: cs)) = normSqueeze true (normReplace cs) := by
            rw [e]; simp [normSqueeze]
          rw [e2]
          obtain ⟨i1, i2, i3, i4⟩ := ih true
          exact ⟨by simp [i1, hc], i2, i3, i4⟩
        | false =>
          have e2 : normSqueeze false (normReplace (c :: cs)) = ' ' :: normSqueeze true (normReplace cs) := by
            rw [e]; simp [normSqueeze]
          rw [e2]
          obtain ⟨i1, i2, i3, i4⟩ := ih true
          refine ⟨by simp [i1, hc, hsp], ?_, by simp, ?_⟩
          · intro d hd hw
            rcases List.mem_cons.1 hd with rfl | hd
            · rfl
            · exact i2 d hd hw
          · intro a b h
            cases a with
            | nil =>
              simp only [List.nil_append, List.cons.injEq, true_and] at h
              exact i3 rfl (by rw [h]; rfl)
            | cons x xs =>
              simp only [List.cons_append, List.cons.injEq] at h
              exact i4 xs b h.2
      · rw [normSqueeze_nonwhite r c cs hc]
        obtain ⟨i1, i2, i3, i4⟩ := ih false
        have hcs : c ≠ ' ' := by rintro rfl; exact hc hsp
        refine ⟨by simp [i1, hc], ?_, fun _ => by simpa using hcs, ?_⟩
        · intro d hd hw
          rcases List.mem_cons.1 hd with rfl | hd
          · exact absurd hw hc
          · exact i2 d hd hw
        · intro a b h
          cases a with
          | nil =>
            simp only [List.nil_append, List.cons.injEq] at h
            exact hcs h.1
          | cons x xs =>
            simp only [List.cons_append, List.cons.injEq] at h
            exact i4 xs b h.2
  obtain ⟨h1, h2, _, h4⟩ := main s false
  exact ⟨h1, h2, h4⟩

theorem C04_normalise_idempotent (s : Str) : normalise (normalise s) = normalise s := by
  have fix : ∀ (t : Str) (r : Bool), (∀ c ∈ t, White c → c = ' ') → (∀ a b, t ≠ a ++ ' ' :: ' ' :: b) →
      (r = true → t.head? ≠ some ' ') → normSqueeze r (normReplace t) = t := by
    intro t
    induction t with
    | nil => intro r _ _ _; rfl
    | cons c cs ih =>
      intro r h1 h2 h3
      have ih' := fun r => ih r (fun d hd => h1 d (by simp [hd]))
        (fun a b h => h2 (c :: a) b (by rw [h]; rfl))
      by_cases hc : White c
      · have : c = ' ' := h1 c (by simp) hc
        subst this
        have hr : r = false := by
          cases r with
          | false => rfl
          | true => exact absurd rfl (h3 rfl)
        subst hr
        have e : normReplace (' ' :: cs) = ' ' :: normReplace cs := by
          rw [normReplace_eq, normReplace_eq]; simp [hc]
        rw [e]
        have := ih' true (fun _ hh => by
          cases cs with
          | nil => simp at hh
          | cons d ds =>
            have : d = ' ' := by simpa using hh
            exact h2 [] ds (by rw [this]; rfl))
        simp [normSqueeze, this]
      · rw [normSqueeze_nonwhite r c cs hc, ih' false (by simp)]
  obtain ⟨_, h2, h4⟩ := C04_normalise_content s
  exact fix (normalise s) false h2 h4 (by simp)

example : trim " \t a b\r\n".toList = "a b".toList ∧ normalise "\ta \n\n b".toList = " a b".toList := by decide

/-! ## C05 – range literals -/

/-- Exact acceptance and result. `lo` is returned without trailing blanks, `hi` without leading ones. -/
theorem C05_range_iff (s a b : Str) : parseRange s = .ok (a, b) ↔
    ∃ lo hi w1 w2, s = '[' :: lo ++ ',' :: hi ++ [']'] ∧ ',' ∉ lo ∧ ',' ∉ hi ∧ ']' ∉ hi ∧ (lo ≠ [] ∨ hi ≠ []) ∧
      lo = a ++ w1 ∧ (∀ c ∈ w1, c = ' ' ∨ c = '\t') ∧ (∀ c, a.getLast? = some c → ¬ (c = ' ' ∨ c = '\t')) ∧
      hi = w2 ++ b ∧ (∀ c ∈ w2, c = ' ' ∨ c = '\t') ∧ (∀ c, b.head? = some c → ¬ (c = ' ' ∨ c = '\t')) := by
  have nb : ∀ c, isBlank c = false ↔ ¬ (c = ' ' ∨ c = '\t') := by
    intro c; rw [← isBlank_iff, Bool.not_eq_true]
  constructor
  · intro h
    obtain ⟨lo, hi, hs, h1, h2, h3, h4⟩ := parseRange_not_err (s := s) (by rw [h]; simp)
    obtain ⟨a', w1, e1, e2, e3⟩ := split_trailing isBlank lo
    obtain ⟨w2, b', f1, f2, f3⟩ := split_leading isBlank hi
    have := parseRange_form a' w1 w2 b' e2 f2 e3 f3
      (fun hm => h1 (by rw [e1]; simp [hm])) (fun hm => h2 (by rw [f1]; simp [hm]))
      (fun hm => h3 (by rw [f1]; simp [hm])) (by rw [← e1, ← f1]; exact h4)
    rw [← e1, ← f1, ← hs, h] at this
    simp only [Res.ok.injEq, Prod.mk.injEq] at this
    obtain ⟨rfl, rfl⟩ := this
    refine ⟨lo, hi, w1, w2, hs, h1, h2, h3, ?_, e1, fun c hc => (isBlank_iff c).1 (e2 c hc),
      fun c hc => (nb c).1 (e3 c hc), f1, fun c hc => (isBlank_iff c).1 (f2 c hc), fun c hc => (nb c).1 (f3 c hc)⟩
    by_cases hl : lo = []
    · right; rintro rfl; exact h4 (by simp [hl])
    · exact Or.inl hl
  · rintro ⟨lo, hi, w1, w2, hs, h1, h2, h3, h4, e1, e2, e3, f1, f2, f3⟩
    rw [hs, e1, f1]
    apply parseRange_form a w1 w2 b (fun c hc => (isBlank_iff c).2 (e2 c hc)) (fun c hc => (isBlank_iff c).2 (f2 c hc))
      (fun c hc => (nb c).2 (e3 c hc)) (fun c hc => (nb c).2 (f3 c hc))
    · intro hm; exact h1 (by rw [e1]; simp [hm])
    · intro hm; exact h2 (by rw [f1]; simp [hm])
    · intro hm; exact h3 (by rw [f1]; simp [hm])
    · rw [← e1, ← f1]
      intro hn
      have := List.append_eq_nil_iff.1 hn
      rcases h4 with h | h
      · exact h this.1
      · exact h this.2

/-- No text makes the iterator arithmetic of the function undefined. -/
theorem C05_range_no_ub (s : Str) : parseRange s ≠ .ub := by
  intro hub
  obtain ⟨lo, hi, hs, h1, h2, h3, h4⟩ := parseRange_not_err (s := s) (by rw [hub]; simp)
  obtain ⟨a', w1, e1, e2, e3⟩ := split_trailing isBlank lo
  obtain ⟨w2, b', f1, f2, f3⟩ := split_leading isBlank hi
  have := parseRange_form a' w1 w2 b' e2 f2 e3 f3
    (fun hm => h1 (by rw [e1]; simp [hm])) (fun hm => h2 (by rw [f1]; simp [hm]))
    (fun hm => h3 (by rw [f1]; simp [hm])) (by rw [← e1, ← f1]; exact h4)
  rw [← e1, ← f1, ← hs, hub] at this
  exact absurd this (by simp)

example : parseRange "[1 , 25]".toList = .ok ("1".toList, "25".toList) ∧ parseRange "[,]".toList = .err ∧
    parseRange "[ ,]".toList = .ok ([], []) := by decide

/-! ## C06 – booleans -/

/-- Exactly the case variants of true/1/false/0 are accepted, with the obvious value. -/
theorem C06_bool_iff (s : Str) (b : Bool) : strToBool s = some b ↔
    (s.map toLowerC = (if b then "true" else "false").toList ∨ s = (if b then "1" else "0").toList) := by
  have inj1 : ∀ c, toLowerC c = '1' → c = '1' := by
    intro c h
    by_cases hu : isUpper c = true
    · have : ∀ n : Fin 128, isUpper (Char.ofNat n.val) = true → toLowerC (Char.ofNat n.val) ≠ '1' := by decide +kernel
      exact absurd h (ascii_cases (P := fun c => isUpper c = true → toLowerC c ≠ '1') c (isUpper_lt hu) this hu)
    · simpa [toLowerC, hu] using h
  have inj0 : ∀ c, toLowerC c = '0' → c = '0' := by
    intro c h
    by_cases hu : isUpper c = true
    · have : ∀ n : Fin 128, isUpper (Char.ofNat n.val) = true → toLowerC (Char.ofNat n.val) ≠ '0' := by decide +kernel
      exact absurd h (ascii_cases (P := fun c => isUpper c = true → toLowerC c ≠ '0') c (isUpper_lt hu) this hu)
    · simpa [toLowerC, hu] using h
  have one : s.map toLowerC = "1".toList ↔ s = "1".toList := by
    constructor
    · intro h
      match s, h with
      | [c], h => simp at h; rw [inj1 c h]; rfl
      | [], h => simp at h
      | c :: d :: r, h => simp at h
    · rintro rfl; decide
  have zero : s.map toLowerC = "0".toList ↔ s = "0".toList := by
    constructor
    · intro h
      match s, h with
      | [c], h => simp at h; rw [inj0 c h]; rfl
      | [], h => simp at h
      | c :: d :: r, h => simp at h
    · rintro rfl; decide
  unfold strToBool toLower
  simp only
  generalize hl : List.map toLowerC s = l at one zero
  cases b with
  | true =>
    simp only [if_true]
    rw [← one]
    constructor
    · intro h
      split at h
      · assumption
      · split at h <;> simp at h
    · intro h; rw [if_pos h]
  | false =>
    simp only [Bool.false_eq_true, if_false]
    rw [← zero]
    constructor
    · intro h
      split at h
      · simp at h
      · split at h
        · assumption
        · simp at h
    · intro h
      rw [if_neg, if_pos h]
      rcases h with rfl | rfl <;> decide

example : strToBool "TrUe".toList = some true ∧ strToBool "0".toList = some false ∧ strToBool "yes".toList = none := by decide

end Commsdsl.Props
