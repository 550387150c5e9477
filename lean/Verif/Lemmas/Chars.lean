import Verif.Model.Text
import Verif.Spec.Text
/-!
# Character class lemmas: the model's comparisons against the alphabets of the specification
-/
namespace Commsdsl.Text
open Commsdsl Commsdsl.Spec

/-- A statement about an ASCII character can be checked on the 128 codes. -/
theorem ascii_cases {P : Char → Prop} (c : Char) (hc : c.toNat < 128)
    (h : ∀ n : Fin 128, P (Char.ofNat n.val)) : P c := by
  have := h ⟨c.toNat, hc⟩
  simpa [Char.ofNat_toNat] using this

theorem isDigit_lt {c : Char} (h : isDigit c = true) : c.toNat < 128 := by
  simp only [isDigit, Bool.and_eq_true, decide_eq_true_eq] at h
  have h2 : c.toNat ≤ 57 := h.2
  omega

theorem isLower_lt {c : Char} (h : isLower c = true) : c.toNat < 128 := by
  simp only [isLower, Bool.and_eq_true, decide_eq_true_eq] at h
  have h2 : c.toNat ≤ 122 := h.2
  omega

theorem isUpper_lt {c : Char} (h : isUpper c = true) : c.toNat < 128 := by
  simp only [isUpper, Bool.and_eq_true, decide_eq_true_eq] at h
  have h2 : c.toNat ≤ 90 := h.2
  omega

theorem isAlpha_lt {c : Char} (h : isAlpha c = true) : c.toNat < 128 := by
  simp only [isAlpha, Bool.or_eq_true] at h
  exact h.elim isLower_lt isUpper_lt

theorem isAlnum_lt {c : Char} (h : isAlnum c = true) : c.toNat < 128 := by
  simp only [isAlnum, Bool.or_eq_true] at h
  exact h.elim isAlpha_lt isDigit_lt

theorem mem_lt {l : List Char} (hl : ∀ c ∈ l, c.toNat < 128) {c : Char} (h : c ∈ l) : c.toNat < 128 := hl c h

theorem digitVal_lt16 {c : Char} (h : digitVal c < 16) : c.toNat < 128 := by
  unfold digitVal at h
  split at h
  · rename_i h'; exact isDigit_lt h'
  · split at h
    · rename_i h'; exact isLower_lt h'
    · split at h
      · rename_i h'; exact isUpper_lt h'
      · omega

theorem decDigit_iff (c : Char) : DecDigit c ↔ digitVal c < 10 := by
  have key : ∀ n : Fin 128, DecDigit (Char.ofNat n.val) ↔ digitVal (Char.ofNat n.val) < 10 := by decide +kernel
  constructor
  · intro h
    have hc : c.toNat < 128 := mem_lt (by decide) h
    exact (ascii_cases (P := fun c => DecDigit c ↔ digitVal c < 10) c hc key).1 h
  · intro h
    have hc : c.toNat < 128 := digitVal_lt16 (by omega)
    exact (ascii_cases (P := fun c => DecDigit c ↔ digitVal c < 10) c hc key).2 h

theorem octDigit_iff (c : Char) : OctDigit c ↔ digitVal c < 8 := by
  have key : ∀ n : Fin 128, OctDigit (Char.ofNat n.val) ↔ digitVal (Char.ofNat n.val) < 8 := by decide +kernel
  constructor
  · intro h
    have hc : c.toNat < 128 := mem_lt (by decide) h
    exact (ascii_cases (P := fun c => OctDigit c ↔ digitVal c < 8) c hc key).1 h
  · intro h
    have hc : c.toNat < 128 := digitVal_lt16 (by omega)
    exact (ascii_cases (P := fun c => OctDigit c ↔ digitVal c < 8) c hc key).2 h

theorem hexDigit_iff (c : Char) : HexDigit c ↔ digitVal c < 16 := by
  have key : ∀ n : Fin 128, HexDigit (Char.ofNat n.val) ↔ digitVal (Char.ofNat n.val) < 16 := by decide +kernel
  constructor
  · intro h
    have hc : c.toNat < 128 := mem_lt (by decide) h
    exact (ascii_cases (P := fun c => HexDigit c ↔ digitVal c < 16) c hc key).1 h
  · intro h
    have hc : c.toNat < 128 := digitVal_lt16 h
    exact (ascii_cases (P := fun c => HexDigit c ↔ digitVal c < 16) c hc key).2 h

theorem dig_eq {c : Char} (h : digitVal c < 16) : dig c = digitVal c := by
  have key : ∀ n : Fin 128, digitVal (Char.ofNat n.val) < 16 →
      dig (Char.ofNat n.val) = digitVal (Char.ofNat n.val) := by decide +kernel
  exact ascii_cases (P := fun c => digitVal c < 16 → dig c = digitVal c) c (digitVal_lt16 h) key h

theorem nameStart_iff (c : Char) : NameStart c ↔ (isAlpha c = true ∨ c = '_') := by
  have key : ∀ n : Fin 128, (Char.ofNat n.val) ∈ "abcdefghijklmnopqrstuvwxyzABCDEFGHIJKLMNOPQRSTUVWXYZ_".toList ↔
      (isAlpha (Char.ofNat n.val) = true ∨ Char.ofNat n.val = '_') := by decide +kernel
  constructor
  · intro h
    have hc : c.toNat < 128 := mem_lt (by decide) h
    exact (ascii_cases (P := fun c => NameStart c ↔ (isAlpha c = true ∨ c = '_')) c hc key).1 h
  · intro h
    have hc : c.toNat < 128 := by
      rcases h with h | h
      · exact isAlpha_lt h
      · subst h; decide
    exact (ascii_cases (P := fun c => NameStart c ↔ (isAlpha c = true ∨ c = '_')) c hc key).2 h

theorem nameRest_iff (c : Char) : NameRest c ↔ isNameChar c = true := by
  have key : ∀ n : Fin 128,
      (Char.ofNat n.val) ∈ "abcdefghijklmnopqrstuvwxyzABCDEFGHIJKLMNOPQRSTUVWXYZ_0123456789".toList ↔
      isNameChar (Char.ofNat n.val) = true := by decide +kernel
  constructor
  · intro h
    have hc : c.toNat < 128 := mem_lt (by decide) h
    exact (ascii_cases (P := fun c => NameRest c ↔ isNameChar c = true) c hc key).1 h
  · intro h
    have hc : c.toNat < 128 := by
      simp only [isNameChar, Bool.or_eq_true, beq_iff_eq] at h
      rcases h with h | h
      · exact isAlnum_lt h
      · subst h; decide
    exact (ascii_cases (P := fun c => NameRest c ↔ isNameChar c = true) c hc key).2 h

theorem nameStart_rest {c : Char} (h : NameStart c) : NameRest c := by
  have : ∀ c ∈ "abcdefghijklmnopqrstuvwxyzABCDEFGHIJKLMNOPQRSTUVWXYZ_".toList,
    c ∈ "abcdefghijklmnopqrstuvwxyzABCDEFGHIJKLMNOPQRSTUVWXYZ_0123456789".toList := by decide +kernel
  exact this c h

theorem isTrimWs_iff (c : Char) : isTrimWs c = true ↔ White c := by
  simp only [isTrimWs, White, Bool.or_eq_true, beq_iff_eq]
  constructor
  · rintro (((h | h) | h) | h) <;> simp [h]
  · rintro (h | h | h | h) <;> simp [h]

end Commsdsl.Text
