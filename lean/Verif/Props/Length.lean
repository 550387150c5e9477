import Verif.Model.Length
/-!
# Length arithmetic: C20 (and the arithmetic half of C21)
-/
namespace Commsdsl.Props
open Commsdsl

/-- C20, addition: for any two 64-bit lengths the result is the mathematical sum, or "unlimited" if that does not stay below the marker. -/
theorem C20_add_saturates (a b : Nat) (ha : a < 2 ^ 64) (hb : b < 2 ^ 64) :
    Length.add a b = min (a + b) (2 ^ 64 - 1) := by
  have hM : Length.maxPossible = 18446744073709551615 := rfl
  unfold Length.add
  by_cases h : Length.maxPossible - b ≤ a
  · rw [if_pos h]; omega
  · rw [if_neg h]; omega

/-- C20, multiplication by a non-zero factor: exact, or "unlimited". -/
theorem C20_mul_saturates (a f : Nat) (_ha : a < 2 ^ 64) (_hf : f < 2 ^ 64) (h0 : f ≠ 0) :
    Length.mul a f = .ok (min (a * f) (2 ^ 64 - 1)) := by
  have hpos : 0 < f := Nat.pos_of_ne_zero h0
  have hM : Length.maxPossible = 18446744073709551615 := rfl
  simp only [Length.mul, if_neg h0]
  by_cases h : (Length.maxPossible - 1) / f + 1 ≤ a
  · rw [if_pos h]
    rw [hM] at h ⊢
    have h1 : (18446744073709551615 - 1) / f < a := by omega
    have h2 : 18446744073709551615 - 1 < a * f := by
      have := (Nat.div_lt_iff_lt_mul hpos).1 h1
      exact this
    congr 1
    omega
  · rw [if_neg h]
    rw [hM] at h
    have h1 : a ≤ (18446744073709551615 - 1) / f := by omega
    have h2 : a * f ≤ 18446744073709551615 - 1 := (Nat.le_div_iff_mul_le hpos).1 h1
    congr 1
    rw [Nat.mod_eq_of_lt (by omega)]
    omega

/-- C20: results stay 64-bit values and the marker is absorbing. -/
theorem C20_unlimited_absorbs (a f : Nat) (ha : a < 2 ^ 64) (hf : f < 2 ^ 64) (h0 : f ≠ 0) :
    Length.add a (2 ^ 64 - 1) = 2 ^ 64 - 1 ∧ Length.add (2 ^ 64 - 1) a = 2 ^ 64 - 1 ∧
    Length.mul (2 ^ 64 - 1) f = .ok (2 ^ 64 - 1) := by
  refine ⟨?_, ?_, ?_⟩
  · rw [C20_add_saturates a _ ha (by decide)]; omega
  · rw [C20_add_saturates _ a (by decide) ha]; omega
  · rw [C20_mul_saturates _ f (by decide) hf h0]
    congr 1
    have : 2 ^ 64 - 1 ≤ (2 ^ 64 - 1) * f := Nat.le_mul_of_pos_right _ (Nat.pos_of_ne_zero h0)
    omega

/-- C21, the arithmetic: multiplication is defined exactly when the factor is not zero. -/
theorem C21_mul_undefined_iff (a f : Nat) : Length.mul a f = .ub ↔ f = 0 := by
  simp only [Length.mul]
  split
  · simp_all
  · rename_i h
    split <;> simp [h]

example : Length.add 5 7 = 12 := by decide
example : Length.add (2 ^ 63) (2 ^ 63) = 2 ^ 64 - 1 := by decide
example : Length.mul 3 (2 ^ 63) = .ok (2 ^ 64 - 1) := by decide
example : Length.mul 3 7 = .ok 21 := by decide

end Commsdsl.Props
