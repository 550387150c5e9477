import Verif.Lemmas.Chars
/-!
# Helper lemmas for the text model
-/
namespace Commsdsl.Text
open Commsdsl Commsdsl.Spec

/-! ## Numbers -/

theorem scanDigits_all (base : Nat) (hb : base ≤ 16) (acc : Nat) (s : Str)
    (h : ∀ c ∈ s, digitVal c < base) :
    scanDigits base acc s = (acc * base ^ s.length + posVal base s, []) := by
  induction s generalizing acc with
  | nil => simp [scanDigits, posVal]
  | cons c cs ih =>
    have hc : digitVal c < base := h c (by simp)
    simp only [scanDigits, hc, if_true]
    rw [ih _ (fun d hd => h d (by simp [hd]))]
    simp only [posVal, List.length_cons, dig_eq (show digitVal c < 16 by omega), Nat.pow_succ]
    congr 1
    rw [Nat.add_mul, Nat.mul_assoc, Nat.mul_comm base (base ^ cs.length)]
    omega

/-- The scan stops exactly after the longest digit prefix. -/
theorem scanDigits_prefix (base : Nat) (hb : base ≤ 16) (acc : Nat) (s : Str) :
    ∃ pre rest, s = pre ++ rest ∧ (∀ c ∈ pre, digitVal c < base) ∧
      (∀ c, rest.head? = some c → ¬ digitVal c < base) ∧
      scanDigits base acc s = (acc * base ^ pre.length + posVal base pre, rest) := by
  induction s generalizing acc with
  | nil => exact ⟨[], [], rfl, by simp, by simp, by simp [scanDigits, posVal]⟩
  | cons c cs ih =>
    by_cases hc : digitVal c < base
    · obtain ⟨pre, rest, h1, h2, h3, h4⟩ := ih (acc * base + digitVal c)
      refine ⟨c :: pre, rest, by simp [h1], ?_, h3, ?_⟩
      · intro d hd
        rcases List.mem_cons.1 hd with rfl | hd
        · exact hc
        · exact h2 d hd
      · simp only [scanDigits, hc, if_true, h4, posVal, List.length_cons,
          dig_eq (show digitVal c < 16 by omega), Nat.pow_succ]
        congr 1
        rw [Nat.add_mul, Nat.mul_assoc, Nat.mul_comm base (base ^ pre.length)]
        omega
    · exact ⟨[], c :: cs, rfl, by simp, by simpa using hc, by simp [scanDigits, hc, posVal]⟩

theorem digit_ne_zero_char {c : Char} (h : DecDigit c) (h0 : c ≠ '0') : digitVal c < 10 ∧ c ≠ '0' :=
  ⟨(decDigit_iff c).1 h, h0⟩

theorem digitVal_x : digitVal 'x' = 33 := by decide +kernel
theorem digitVal_X : digitVal 'X' = 33 := by decide +kernel

theorem scanMagnitude_denotes {s : Str} {n : Nat} (h : DenotesU s n) : scanMagnitude s = some n := by
  cases h with
  | dec c cs h0 hd =>
    have hall : ∀ d ∈ c :: cs, digitVal d < 10 := fun d hm => (decDigit_iff d).1 (hd d hm)
    have hc : digitVal c < 10 := hall c (by simp)
    have key := scanDigits_all 10 (by omega) 0 (c :: cs) hall
    unfold scanMagnitude
    split
    · rename_i heq; simp at heq; exact absurd heq.1 h0
    · rename_i heq; simp at heq; exact absurd heq.1 h0
    · rename_i c' rest' _ heq
      simp only [List.cons.injEq] at heq
      obtain ⟨rfl, rfl⟩ := heq
      simp only [hc, if_true, key]
      simp
    · rename_i heq; simp at heq
  | oct cs hd =>
    have hall : ∀ d ∈ cs, digitVal d < 8 := fun d hm => (octDigit_iff d).1 (hd d hm)
    have key := scanDigits_all 8 (by omega) 0 cs hall
    match cs, hall, key with
    | [], _, _ => simp [scanMagnitude, scanDigits, posVal]
    | [x], _, key => simp [scanMagnitude, key]
    | x :: d :: rest, hall, key =>
      have hx : digitVal x < 8 := hall x (by simp)
      have hx1 : x ≠ 'x' := by rintro rfl; rw [digitVal_x] at hx; omega
      have hx2 : x ≠ 'X' := by rintro rfl; rw [digitVal_X] at hx; omega
      simp [scanMagnitude, hx1, hx2, key]
  | hex x cs hx hne hd =>
    have hall : ∀ d ∈ cs, digitVal d < 16 := fun d hm => (hexDigit_iff d).1 (hd d hm)
    have key := scanDigits_all 16 (by omega) 0 cs hall
    match cs, hne, hall, key with
    | d :: rest, _, hall, key =>
      have hd : digitVal d < 16 := hall d (by simp)
      have hx' : (x == 'x' || x == 'X') = true := by
        rcases hx with rfl | rfl <;> decide
      simp only [scanMagnitude, hx', hd, decide_true, Bool.and_self, if_true, key]
      simp

theorem denotesU_head {s : Str} {n : Nat} (h : DenotesU s n) :
    ∃ c cs, s = c :: cs ∧ digitVal c < 10 := by
  cases h with
  | dec c cs h0 hd => exact ⟨c, cs, rfl, (decDigit_iff c).1 (hd c (by simp))⟩
  | oct cs hd => exact ⟨'0', cs, rfl, by decide +kernel⟩
  | hex x cs hx hne hd => exact ⟨'0', x :: cs, rfl, by decide +kernel⟩

theorem digit_not_special {c : Char} (h : digitVal c < 10) : isSpace c = false ∧ c ≠ '-' ∧ c ≠ '+' := by
  have key : ∀ n : Fin 128, digitVal (Char.ofNat n.val) < 10 →
    isSpace (Char.ofNat n.val) = false ∧ Char.ofNat n.val ≠ '-' ∧ Char.ofNat n.val ≠ '+' := by decide +kernel
  exact ascii_cases (P := fun c => digitVal c < 10 → isSpace c = false ∧ c ≠ '-' ∧ c ≠ '+') c
    (digitVal_lt16 (by omega)) key h

theorem scanNumber_plain {s : Str} {n : Nat} (hu : DenotesU s n) : scanNumber s = some (false, n) := by
  obtain ⟨c, cs, rfl, hc⟩ := denotesU_head hu
  obtain ⟨h1, h2, h3⟩ := digit_not_special hc
  simp only [scanNumber, List.dropWhile_cons, h1]
  simp only [Bool.false_eq_true, if_false]
  split
  · rename_i heq; simp at heq; exact absurd heq.1 h2
  · rename_i heq; simp at heq; exact absurd heq.1 h3
  · simp [scanMagnitude_denotes hu]

theorem scanNumber_denotes {s : Str} {v : Int} (h : Denotes s v) :
    ∃ neg m, scanNumber s = some (neg, m) ∧ v = (if neg = true then -(m : Int) else (m : Int)) := by
  cases h with
  | @plain s n hu =>
    obtain ⟨c, cs, rfl, hc⟩ := denotesU_head hu
    obtain ⟨h1, h2, h3⟩ := digit_not_special hc
    refine ⟨false, n, ?_, by simp⟩
    simp only [scanNumber, List.dropWhile_cons, h1]
    simp only [Bool.false_eq_true, if_false]
    split
    · rename_i heq; simp at heq; exact absurd heq.1 h2
    · rename_i heq; simp at heq; exact absurd heq.1 h3
    · simp [scanMagnitude_denotes hu]
  | @plus s n hu =>
    refine ⟨false, n, ?_, by simp⟩
    have : isSpace '+' = false := by decide +kernel
    simp [scanNumber, this, scanMagnitude_denotes hu]
  | @minus s n hu =>
    refine ⟨true, n, ?_, by simp⟩
    have : isSpace '-' = false := by decide +kernel
    simp [scanNumber, this, scanMagnitude_denotes hu]

/-- Everything the magnitude scanner accepts starts with a number that denotes the result. -/
theorem scanMagnitude_sound {s : Str} {n : Nat} (h : scanMagnitude s = some n) :
    ∃ pre rest, s = pre ++ rest ∧ DenotesU pre n := by
  unfold scanMagnitude at h
  split at h
  · rename_i x d rest
    split at h
    · rename_i hcond
      simp only [Bool.and_eq_true, Bool.or_eq_true, beq_iff_eq, decide_eq_true_eq] at hcond
      obtain ⟨pre, rst, h1, h2, h3, h4⟩ := scanDigits_prefix 16 (by omega) 0 (d :: rest)
      rw [h4] at h
      simp only [Nat.zero_mul, Nat.zero_add, Option.some.injEq] at h
      have hpre : pre ≠ [] := by
        rintro rfl
        simp only [List.nil_append] at h1
        exact h3 d (by rw [← h1]; rfl) hcond.2
      refine ⟨'0' :: x :: pre, rst, by simp [h1], ?_⟩
      rw [← h]
      exact DenotesU.hex x pre hcond.1 hpre (fun c hc => (hexDigit_iff c).2 (h2 c hc))
    · obtain ⟨pre, rst, h1, h2, h3, h4⟩ := scanDigits_prefix 8 (by omega) 0 (x :: d :: rest)
      rw [h4] at h
      simp only [Nat.zero_mul, Nat.zero_add, Option.some.injEq] at h
      refine ⟨'0' :: pre, rst, by simp [h1], ?_⟩
      rw [← h]
      exact DenotesU.oct pre (fun c hc => (octDigit_iff c).2 (h2 c hc))
  · rename_i rest _
    obtain ⟨pre, rst, h1, h2, h3, h4⟩ := scanDigits_prefix 8 (by omega) 0 rest
    rw [h4] at h
    simp only [Nat.zero_mul, Nat.zero_add, Option.some.injEq] at h
    refine ⟨'0' :: pre, rst, by simp [h1], ?_⟩
    rw [← h]
    exact DenotesU.oct pre (fun c hc => (octDigit_iff c).2 (h2 c hc))
  · rename_i c rest hA hB
    split at h
    · rename_i hc
      obtain ⟨pre, rst, h1, h2, h3, h4⟩ := scanDigits_prefix 10 (by omega) 0 (c :: rest)
      rw [h4] at h
      simp only [Nat.zero_mul, Nat.zero_add, Option.some.injEq] at h
      match pre, h1, h2, h4, h with
      | [], h1, _, _, _ => exact absurd hc (h3 c (by rw [List.nil_append] at h1; rw [← h1]; rfl))
      | c' :: pre', h1, h2, h4, h =>
        simp only [List.cons_append, List.cons.injEq] at h1
        obtain ⟨rfl, h1⟩ := h1
        have h0 : c ≠ '0' := by
          rintro rfl
          first | exact hB rfl | exact hB rfl rest | exact hA _ rfl
        refine ⟨c :: pre', rst, by simp [h1], ?_⟩
        rw [← h]
        exact DenotesU.dec c pre' h0 (fun d hd => (decDigit_iff d).2 (h2 d hd))
    · exact absurd h (by simp)
  · exact absurd h (by simp)

theorem dropWhile_split (p : Char → Bool) (s : Str) :
    ∃ ws, s = ws ++ s.dropWhile p ∧ ∀ c ∈ ws, p c = true := by
  refine ⟨s.takeWhile p, (List.takeWhile_append_dropWhile).symm, ?_⟩
  intro c hc
  have := List.all_takeWhile (l := s) (p := p)
  exact List.all_eq_true.1 this c hc

theorem scanNumber_sound {s : Str} {neg : Bool} {m : Nat} (h : scanNumber s = some (neg, m)) :
    ∃ ws pre rest, s = ws ++ pre ++ rest ∧ (∀ c ∈ ws, isSpace c = true) ∧
      Denotes pre (if neg = true then -(m : Int) else (m : Int)) := by
  obtain ⟨ws, hs, hws⟩ := dropWhile_split isSpace s
  unfold scanNumber at h
  split at h
  · rename_i rest heq
    simp only [Option.map_eq_some_iff, Prod.mk.injEq] at h
    obtain ⟨m', hm, rfl, rfl⟩ := h
    obtain ⟨pre, rst, h1, h2⟩ := scanMagnitude_sound hm
    refine ⟨ws, '-' :: pre, rst, ?_, hws, ?_⟩
    · rw [hs, heq, h1]; simp
    · simpa using Denotes.minus h2
  · rename_i rest heq
    simp only [Option.map_eq_some_iff, Prod.mk.injEq] at h
    obtain ⟨m', hm, rfl, rfl⟩ := h
    obtain ⟨pre, rst, h1, h2⟩ := scanMagnitude_sound hm
    refine ⟨ws, '+' :: pre, rst, ?_, hws, ?_⟩
    · rw [hs, heq, h1]; simp
    · simpa using Denotes.plus h2
  · simp only [Option.map_eq_some_iff, Prod.mk.injEq] at h
    obtain ⟨m', hm, rfl, rfl⟩ := h
    obtain ⟨pre, rst, h1, h2⟩ := scanMagnitude_sound hm
    refine ⟨ws, pre, rst, ?_, hws, ?_⟩
    · rw [List.append_assoc, ← h1, ← hs]
    · simpa using Denotes.plain h2

end Commsdsl.Text
