import Verif.Model.GenText
import Verif.Spec.GenText
import Verif.Lemmas.Text
/-!
# C51 (integer literals)
-/
namespace Commsdsl.Props
open Commsdsl Text Spec Gen

namespace GenNumProofs

theorem posVal_append (base : Nat) (a b : Str) : posVal base (a ++ b) = posVal base a * base ^ b.length + posVal base b := by
  induction a with
  | nil => simp [posVal]
  | cons c cs ih =>
    simp only [List.cons_append, posVal, ih, List.length_append, Nat.pow_add, Nat.add_mul]
    rw [Nat.mul_assoc]; omega

theorem dig_digitChar {up : Bool} {n : Nat} (h : n < 16) : dig (digitChar up n) = n ∧ HexDigit (digitChar up n) ∧ (n < 10 → DecDigit (digitChar up n)) ∧
    (n ≠ 0 → digitChar up n ≠ '0') := by
  have : ∀ up : Bool, ∀ n, n < 16 → dig (digitChar up n) = n ∧ HexDigit (digitChar up n) ∧ (n < 10 → DecDigit (digitChar up n)) ∧
    (n ≠ 0 → digitChar up n ≠ '0') := by decide +kernel
  exact this up n h

theorem digits_spec {base : Nat} {up : Bool} (hb : 1 < base) (hb' : base ≤ 16) : ∀ (fuel n : Nat), n < base ^ fuel → 0 < fuel →
    posVal base (digitsLoop base up fuel n) = n ∧ (∀ c ∈ digitsLoop base up fuel n, HexDigit c ∧ (base ≤ 10 → DecDigit c)) ∧
    ∃ c cs, digitsLoop base up fuel n = c :: cs ∧ (n ≠ 0 → c ≠ '0') ∧ (n = 0 → c :: cs = ['0']) := by
  intro fuel
  induction fuel with
  | zero => intro n _ h; omega
  | succ fuel ih =>
    intro n hn _
    unfold digitsLoop
    split
    · rename_i hlt
      obtain ⟨h1, h2, h3, h4⟩ := dig_digitChar (up := up) (n := n) (by omega)
      refine ⟨by simp [posVal, h1], ?_, _, _, rfl, h4, ?_⟩
      · intro c hc
        simp only [List.mem_singleton] at hc
        subst hc
        exact ⟨h2, fun h => h3 (by omega)⟩
      · rintro rfl; cases up <;> rfl
    · rename_i hge
      have hpos : 0 < n / base := Nat.div_pos (by omega) (by omega)
      have hf : 0 < fuel := by
        rcases Nat.eq_zero_or_pos fuel with rfl | h
        · simp at hn; omega
        · exact h
      have hlt : n / base < base ^ fuel := by
        rw [Nat.div_lt_iff_lt_mul (by omega), ← Nat.pow_succ]
        exact hn
      obtain ⟨e1, e2, c, cs, e3, e4, e5⟩ := ih (n / base) hlt hf
      have hm : n % base < base := Nat.mod_lt _ (by omega)
      obtain ⟨h1, h2, h3, h4⟩ := dig_digitChar (up := up) (n := n % base) (by omega)
      refine ⟨?_, ?_, c, cs ++ [digitChar up (n % base)], by rw [e3]; rfl, fun _ => e4 (by omega), fun h => ?_⟩
      · rw [posVal_append, e1]
        simp only [posVal, h1, List.length_singleton, List.length_nil, Nat.pow_zero, Nat.mul_one, Nat.add_zero, Nat.pow_one]
        have := Nat.div_add_mod n base
        rw [Nat.mul_comm] at this
        exact this
      · intro d hd
        rcases List.mem_append.1 hd with hd | hd
        · exact e2 d hd
        · simp only [List.mem_singleton] at hd
          subst hd
          exact ⟨h2, fun h => h3 (by omega)⟩
      · rw [h] at hpos; simp at hpos

theorem pow_bound {base n : Nat} (hb : 1 < base) (hn : n < 2 ^ 64) : n < base ^ 64 :=
  Nat.lt_of_lt_of_le hn (Nat.pow_le_pow_left hb 64)

/-- Decimal literal without leading zero, or "0". -/
theorem toDec_spec {n : Nat} (hn : n < 2 ^ 64) : DenotesU (toDec n) n ∧ ((toDec n).head? = some '0' → n = 0) := by
  obtain ⟨h1, h2, c, cs, h3, h4, h5⟩ := digits_spec (base := 10) (up := false) (by omega) (by omega) 64 n (pow_bound (by omega) hn) (by omega)
  unfold toDec
  by_cases h0 : n = 0
  · rw [h3, h5 h0]
    refine ⟨?_, fun _ => h0⟩
    have := DenotesU.oct [] (by simp)
    rw [h0]; exact this
  · refine ⟨?_, ?_⟩
    · have := DenotesU.dec c cs (h4 h0) (fun d hd => (h2 d (h3 ▸ hd)).2 (by omega))
      rw [← h3, h1] at this
      exact this
    · rw [h3]; intro h; exact absurd (by simpa using h) (h4 h0)

theorem toHex_spec {n : Nat} (up : Bool) (w : Nat) (hn : n < 2 ^ 64) : DenotesU ("0x".toList ++ padZero w (toHex up n)) n := by
  obtain ⟨h1, h2, c, cs, h3, h4, h5⟩ := digits_spec (base := 16) (up := up) (by omega) (by omega) 64 n (pow_bound (by omega) hn) (by omega)
  have hz : ∀ k, posVal 16 (List.replicate k '0') = 0 := by
    intro k
    induction k with
    | zero => rfl
    | succ k ih => rw [List.replicate_succ, posVal, ih]; simp [show dig '0' = 0 by decide]
  have hp : posVal 16 (padZero w (toHex up n)) = n := by
    unfold padZero
    rw [posVal_append, hz]
    unfold toHex
    rw [h1]; simp
  have := DenotesU.hex 'x' (padZero w (toHex up n)) (Or.inl rfl) (by unfold padZero toHex; rw [h3]; simp) ?_
  · rw [hp] at this; exact this
  · intro d hd
    unfold padZero at hd
    rcases List.mem_append.1 hd with hd | hd
    · rw [List.eq_of_mem_replicate hd]; decide
    · exact (h2 d hd).1

theorem padZero_zero (s : Str) : padZero 0 s = s := by simp [padZero]

end GenNumProofs
open GenNumProofs

/-- C51 for unsigned values and every requested width: the text is a literal of exactly this value. -/
theorem C51_unsigned (v w : Nat) (hv : v < 2 ^ 64) : ∃ signed, CppLit (numToStringU v w) v signed := by
  obtain ⟨hd, hz⟩ := toDec_spec hv
  have hh := toHex_spec true w hv
  unfold numToStringU
  split
  · rename_i h
    refine ⟨true, toDec v, [], 2 ^ 31 - 1, by simp, hd, ?_⟩
    have e : v ≤ 2 ^ 31 - 1 := by omega
    simp only [litTypes, if_true]
    split <;> rw [List.find?_cons_of_pos (by simpa using e)]
  · split
    · rename_i h
      refine ⟨false, toDec v, "U".toList, 2 ^ 32 - 1, rfl, hd, ?_⟩
      have e : v ≤ 2 ^ 32 - 1 := by omega
      simp only [litTypes]
      rw [if_neg (by decide), if_pos trivial, List.find?_cons_of_pos (by simpa using e)]
    · split
      · rename_i h
        refine ⟨true, _, [], 2 ^ 31 - 1, rfl, hh, ?_⟩
        have e : v ≤ 2 ^ 31 - 1 := by omega
        simp only [litTypes, if_true]
        split <;> rw [List.find?_cons_of_pos (by simpa using e)]
      · split
        · rename_i h
          refine ⟨false, _, "U".toList, 2 ^ 32 - 1, rfl, hh, ?_⟩
          have e : v ≤ 2 ^ 32 - 1 := by omega
          simp only [litTypes]
          rw [if_neg (by decide), if_pos trivial, List.find?_cons_of_pos (by simpa using e)]
        · refine ⟨false, _, "ULL".toList, 2 ^ 64 - 1, rfl, hh, ?_⟩
          have e : v ≤ 2 ^ 64 - 1 := by omega
          simp only [litTypes]
          rw [if_neg (by decide), if_neg (by decide), if_neg (by decide), if_pos trivial, List.find?_cons_of_pos (by simpa using e)]

namespace GenNumProofs

theorem lit_dec {n : Nat} (h : n < 2 ^ 63) : CppLit (toDec n) n true := by
  obtain ⟨hd, hz⟩ := toDec_spec (n := n) (by omega)
  by_cases e : n ≤ 2 ^ 31 - 1
  · refine ⟨toDec n, [], 2 ^ 31 - 1, by simp, hd, ?_⟩
    simp only [litTypes, if_true]
    split <;> rw [List.find?_cons_of_pos (by simpa using e)]
  · refine ⟨toDec n, [], 2 ^ 63 - 1, by simp, hd, ?_⟩
    simp only [litTypes, if_true]
    have : (toDec n).head? != some '0' := by
      simp only [bne_iff_ne]; intro h; have := hz h; omega
    have e1 : n ≤ 2 ^ 63 - 1 := by omega
    rw [if_pos this, List.find?_cons_of_neg (by simpa using e), List.find?_cons_of_pos (by simpa using e1)]

theorem lit_hex {n : Nat} (h : n < 2 ^ 63) : CppLit ("0x".toList ++ toHex false n ++ "LL".toList) n true := by
  have hh := toHex_spec false 0 (n := n) (by omega)
  rw [padZero_zero] at hh
  refine ⟨_, "LL".toList, 2 ^ 63 - 1, rfl, hh, ?_⟩
  have e : n ≤ 2 ^ 63 - 1 := by omega
  simp only [litTypes]
  rw [if_neg (by decide), if_neg (by decide), if_pos trivial]
  split <;> rw [List.find?_cons_of_pos (by simpa using e)]

end GenNumProofs

/-- C51 for signed values: the text has exactly this value. Missing: the smallest value, `C51_min_undefined`. -/
theorem C51_signed_partial (v : Int) (h1 : -2 ^ 63 < v) (h2 : v < 2 ^ 63) : ∃ s, numToStringS v = .ok s ∧ CppExpr s v := by
  unfold numToStringS
  split
  · refine ⟨_, rfl, ?_⟩
    unfold toDecS
    split
    · exact Or.inr ⟨_, v.natAbs, rfl, lit_dec (by omega), by omega⟩
    · exact Or.inl ⟨v.natAbs, true, lit_dec (by omega), by omega⟩
  · split
    · exact ⟨_, rfl, Or.inl ⟨v.natAbs, true, lit_hex (by omega), by omega⟩⟩
    · have : ¬ v = i64Min := by unfold i64Min; omega
      refine ⟨_, by unfold negI64; rw [if_neg this]; rfl, Or.inr ⟨"0x".toList ++ toHex false (-v).natAbs ++ "LL".toList, v.natAbs, rfl, ?_, by omega⟩⟩
      rw [show (-v).natAbs = v.natAbs by omega]
      exact lit_hex (by omega)

/-- C51 with the hexadecimal value in a comment behind it: the text has exactly this value, and so has the number in the comment. Missing: the smallest value. -/
theorem C51_comment_partial (v : Int) (h1 : -2 ^ 63 < v) (h2 : v < 2 ^ 63) : ∃ e c, numToStringHexComment v = .ok (e ++ c) ∧ CppExpr e v ∧
    (c = [] ∨ ∃ t, c = " /* ".toList ++ t ++ " */".toList ∧ ((∃ n, DenotesU t n ∧ v = n) ∨ ∃ t' n, t = '-' :: t' ∧ DenotesU t' n ∧ v = -n)) := by
  have hden : ∀ n : Nat, n < 2 ^ 64 → DenotesU ("0x".toList ++ toHex false n) n := by
    intro n hn
    have hh := toHex_spec false 0 hn
    rwa [padZero_zero] at hh
  by_cases h0 : 0 ≤ v
  · have hc : hexComment v = .ok ("0x".toList ++ toHex false v.natAbs) := by unfold hexComment; rw [if_pos h0]
    have hv : (∃ n : Nat, DenotesU ("0x".toList ++ toHex false v.natAbs) n ∧ v = n) := ⟨v.natAbs, hden _ (by omega), by omega⟩
    have hcast : castU64 v = v.natAbs := by unfold castU64; omega
    unfold numToStringHexComment
    rw [hc]
    simp only [Res.bind_ok]
    split
    · obtain ⟨s, hs, he⟩ := C51_signed_partial v h1 h2
      rw [hs]
      exact ⟨s, " /* ".toList ++ ("0x".toList ++ toHex false v.natAbs) ++ " */".toList, by simp only [Res.bind_ok, Res.pure_eq, List.append_assoc], he, Or.inr ⟨_, rfl, Or.inl hv⟩⟩
    · rw [if_neg (by omega), hcast]
      obtain ⟨sg, hl⟩ := C51_unsigned v.natAbs 0 (by omega)
      obtain ⟨sg', hl'⟩ := C51_unsigned v.natAbs 1 (by omega)
      split
      · exact ⟨_, " /* ".toList ++ ("0x".toList ++ toHex false v.natAbs) ++ " */".toList, by simp only [Res.pure_eq, List.append_assoc], Or.inl ⟨_, sg, hl, by omega⟩, Or.inr ⟨_, rfl, Or.inl hv⟩⟩
      · exact ⟨_, [], by simp only [Res.pure_eq, List.append_nil], Or.inl ⟨_, sg', hl', by omega⟩, Or.inl rfl⟩
  · have hm : ¬ v = i64Min := by unfold i64Min; omega
    have hc : hexComment v = .ok ("-0x".toList ++ toHex false v.natAbs) := by
      unfold hexComment negI64
      rw [if_neg h0, if_neg hm]
      simp only [Res.bind_ok, Res.pure_eq]
      rw [show (-v).natAbs = v.natAbs by omega]
    unfold numToStringHexComment
    rw [hc]
    simp only [Res.bind_ok]
    split
    · obtain ⟨s, hs, he⟩ := C51_signed_partial v h1 h2
      rw [hs]
      refine ⟨s, " /* ".toList ++ ("-0x".toList ++ toHex false v.natAbs) ++ " */".toList, by simp only [Res.bind_ok, Res.pure_eq, List.append_assoc], he, Or.inr ⟨_, rfl, Or.inr ⟨_, v.natAbs, rfl, hden _ (by omega), by omega⟩⟩⟩
    · rw [if_pos (by omega)]
      refine ⟨_, [], by simp only [Res.pure_eq, List.append_nil]; rfl, Or.inr ⟨_, v.natAbs, rfl, lit_hex (by omega), by omega⟩, Or.inl rfl⟩

/-- C51 fails for the smallest signed value: negating it is undefined in both functions. -/
theorem C51_min_undefined : numToStringS (-2 ^ 63) = .ub ∧ numToStringHexComment (-2 ^ 63) = .ub := by
  constructor <;> decide +kernel

example : numToStringU 65536 0 = "65536U".toList ∧ numToStringU 4294967296 0 = "0x100000000ULL".toList ∧ numToStringU 10 4 = "0x000A".toList ∧
    numToStringS (-4294967296) = .ok "-0x100000000LL".toList ∧ numToStringHexComment (-16) = .ok "-16 /* -0x10 */".toList := by decide +kernel

end Commsdsl.Props
