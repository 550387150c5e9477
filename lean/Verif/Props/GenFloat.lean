import Verif.Spec.GenFloat
import Verif.Props.FloatField
import Verif.Props.GenNum
import Verif.Lemmas.Sort
/-!
# C93: validity of `<float>` fields in the generated code
-/
namespace Commsdsl.Props
open Commsdsl Spec FloatF Gen FloatS

namespace GenFloatProofs
open FloatProofs

theorem dvd_of_large {x : Int} (a : Nat) (h : IsFlt true x) (hx : 2 ^ (a + 52) ≤ x.natAbs) : ∃ j : Int, x = j * 2 ^ a := by
  obtain ⟨⟨m, e, rfl, hm, _⟩, _⟩ := h
  simp only [if_true] at hm
  rw [Int.natAbs_mul, Int.natAbs_pow] at hx
  have h2 : (2 : Int).natAbs = 2 := rfl
  rw [h2] at hx
  have : a ≤ e := by
    apply Nat.le_of_lt_succ
    apply Nat.lt_of_not_le
    intro hle
    have h1 : 2 ^ (a + 52) = 2 ^ (a - e - 1) * 2 ^ 53 * 2 ^ e := by
      rw [← Nat.pow_add, ← Nat.pow_add]
      congr 1
      omega
    have h3 : 1 ≤ 2 ^ (a - e - 1) := Nat.one_le_two_pow
    have h4 : 2 ^ 53 * 2 ^ e ≤ 2 ^ (a - e - 1) * 2 ^ 53 * 2 ^ e := by
      rw [Nat.mul_assoc]
      exact Nat.le_mul_of_pos_left _ h3
    have h5 : m.natAbs * 2 ^ e < 2 ^ 53 * 2 ^ e := Nat.mul_lt_mul_of_pos_right hm (Nat.two_pow_pos e)
    omega
  refine ⟨m * 2 ^ (e - a), ?_⟩
  rw [Int.mul_assoc, ← Int.pow_add]
  congr 2
  omega

theorem largest_flt (d : Bool) : IsFlt d (largest d) ∧ IsFlt d (-largest d) := by
  cases d with
  | true =>
    refine ⟨⟨⟨2 ^ 53 - 1, 2045, rfl, by decide, by decide⟩, ?_⟩, ⟨⟨-(2 ^ 53 - 1), 2045, ?_, by decide, by decide⟩, ?_⟩⟩
    · have := largest_nonneg true; omega
    · show -largest true = -(2 ^ 53 - 1) * 2 ^ 2045
      rw [Int.neg_mul]; rfl
    · have := largest_nonneg true; omega
  | false =>
    refine ⟨⟨⟨2 ^ 24 - 1, 1178, rfl, by decide, by decide⟩, ?_⟩, ⟨⟨-(2 ^ 24 - 1), 1178, ?_, by decide, by decide⟩, ?_⟩⟩
    · have := largest_nonneg false; omega
    · show -largest false = -(2 ^ 24 - 1) * 2 ^ 1178
      rw [Int.neg_mul]; rfl
    · have := largest_nonneg false; omega

theorem rounds_self {d : Bool} {x : Int} (h : IsFlt d x) (v : Dbl) : RoundsTo d (.fin x) v ↔ v = .fin x := by
  constructor
  · intro hr
    cases hr with
    | fin hn =>
      rename_i y
      rcases hn.2 x h with h1 | h1 | h1
      · rw [h1]
      · omega
      · have : y = x := by omega
        rw [this]
  · rintro rfl
    refine .fin ⟨h, fun n' _ => ?_⟩
    by_cases hn : n' = x
    · exact Or.inl hn
    · right; left; omega

/-- Rounded division. -/
theorem divRound_spec (a b : Nat) (hb : 0 < b) : 2 * (a - divRound a b * b : Int).natAbs ≤ b := by
  have h1 := Nat.div_add_mod a b
  have h2 := Nat.mod_lt a hb
  unfold divRound
  generalize hq : a / b = q at *
  generalize hr : a % b = r at *
  have h3 : (a : Int) = b * q + r := by omega
  split
  · rename_i h
    have h4 : ((q + 1 : Nat) : Int) * b = b * q + b := by rw [Int.natCast_add, Int.add_mul, Int.mul_comm]; simp
    rw [h3, h4]
    omega
  · rename_i h
    have h4 : ((q : Nat) : Int) * b = b * q := Int.mul_comm _ _
    rw [h3, h4]
    omega

/-- The printed number, with its sign, is a nearest multiple of `10^-6`. -/
theorem micros_spec (n : Int) : 2 * ((if n < 0 then -1 else 1) * (micros n : Int) * 2 ^ 1074 - n * 1000000).natAbs ≤ 2 ^ 1074 := by
  have h := divRound_spec (n.natAbs * 1000000) (2 ^ 1074) (by decide +kernel)
  unfold micros
  generalize hm : divRound (n.natAbs * 1000000) (2 ^ 1074) = k at *
  have h2 : ((2 ^ 1074 : Nat) : Int) = 2 ^ 1074 := Int.natCast_pow 2 1074
  rw [h2] at h
  generalize hU : (2 : Int) ^ 1074 = U at *
  generalize hV : (2 : Nat) ^ 1074 = V at *
  split
  · rename_i hn
    have : (-1 : Int) * (k : Int) * U = -(k * U) := by rw [Int.mul_assoc, Int.neg_one_mul]
    rw [this]
    omega
  · rw [Int.one_mul]
    omega

/-- In the middle the even number is taken. -/
theorem divRound_even (a b : Nat) (hb : 0 < b) (h : 2 * (a - divRound a b * b : Int).natAbs = b) : divRound a b % 2 = 0 := by
  have h1 := Nat.div_add_mod a b
  have h2 := Nat.mod_lt a hb
  unfold divRound at h ⊢
  generalize hq : a / b = q at *
  generalize hr : a % b = r at *
  have h3 : (a : Int) = b * q + r := by omega
  split
  · rename_i hc
    rw [if_pos hc] at h
    have h4 : ((q + 1 : Nat) : Int) * b = b * q + b := by rw [Int.natCast_add, Int.add_mul, Int.mul_comm]; simp
    rw [h3, h4] at h
    omega
  · rename_i hc
    rw [if_neg hc] at h
    have h4 : ((q : Nat) : Int) * b = b * q := Int.mul_comm _ _
    rw [h3, h4] at h
    omega

theorem micros_even (n : Int) (h : 2 * ((if n < 0 then -1 else 1) * (micros n : Int) * 2 ^ 1074 - n * 1000000).natAbs = 2 ^ 1074) : micros n % 2 = 0 := by
  refine divRound_even (n.natAbs * 1000000) (2 ^ 1074) (by decide +kernel) ?_
  unfold micros at h
  generalize hm : divRound (n.natAbs * 1000000) (2 ^ 1074) = k at *
  have h2 : ((2 ^ 1074 : Nat) : Int) = 2 ^ 1074 := Int.natCast_pow 2 1074
  rw [h2]
  generalize hU : (2 : Int) ^ 1074 = U at *
  generalize hV : (2 : Nat) ^ 1074 = V at *
  split at h
  · rename_i hn
    have : (-1 : Int) * (k : Int) * U = -(k * U) := by rw [Int.mul_assoc, Int.neg_one_mul]
    rw [this] at h
    omega
  · rw [Int.one_mul] at h
    omega

theorem big_cases (d : Bool) {x : Int} (h : IsFlt true x) (hb : (largest d - x).natAbs < 2 ^ 1022) : x = largest d := by
  have key : ∃ j : Int, largest d = j * 2 ^ 1149 := by
    cases d with
    | true => exact ⟨(2 ^ 53 - 1) * 2 ^ 896, by unfold largest; rw [if_pos rfl, Int.mul_assoc, ← Int.pow_add]⟩
    | false => exact ⟨(2 ^ 24 - 1) * 2 ^ 29, by unfold largest; rw [if_neg (by simp), Int.mul_assoc, ← Int.pow_add]⟩
  have hL : 2 ^ 1201 + 2 ^ 1022 ≤ largest d := by cases d <;> decide +kernel
  obtain ⟨j, hj⟩ := dvd_of_large 1149 h (by
    have h1 := Int.natCast_pow 2 1201
    have h2 := Int.natCast_pow 2 1022
    show 2 ^ 1201 ≤ x.natAbs
    generalize (2 : Int) ^ 1201 = A at *
    generalize (2 : Int) ^ 1022 = B at *
    generalize (2 : Nat) ^ 1201 = A' at *
    generalize (2 : Nat) ^ 1022 = B' at *
    omega)
  obtain ⟨j', hj'⟩ := key
  rw [hj', hj] at hb ⊢
  rw [← Int.sub_mul, Int.natAbs_mul, Int.natAbs_pow] at hb
  have h2 : (2 : Int).natAbs = 2 := rfl
  rw [h2] at hb
  by_cases h0 : j' - j = 0
  · have : j' = j := by omega
    rw [this]
  · exfalso
    have h1 : 1 ≤ (j' - j).natAbs := by omega
    have : 2 ^ 1149 ≤ (j' - j).natAbs * 2 ^ 1149 := Nat.le_mul_of_pos_left _ h1
    have h3 : 2 ^ 1022 < 2 ^ 1149 := by decide +kernel
    omega

theorem flt_neg {d : Bool} {x : Int} (h : IsFlt d x) : IsFlt d (-x) := by
  obtain ⟨⟨m, e, rfl, h1, h2⟩, h3⟩ := h
  exact ⟨⟨-m, e, by rw [Int.neg_mul], by omega, h2⟩, by omega⟩

theorem floatLit_fin (d : Bool) (n : Int) : floatLit d (.fin n) = if (-largest d - n).natAbs < 2 ^ 1022 then .lowest
    else if (largest d - n).natAbs < 2 ^ 1022 then .max else .dec (decide (n < 0)) (micros n) := by
  have e1 : (if d then -doubleMax else -floatMax) = -largest d := by rw [largest_eq]; cases d <;> rfl
  have e2 : (if d then doubleMax else floatMax) = largest d := by rw [largest_eq]
  rw [← e1, ← e2]
  rfl

/-- The text written for a number that is kept has the value of the number, as number of the type. -/
theorem lit_kept (d : Bool) {x : Int} (h : Kept x) (v : Dbl) : LitVal d (floatLit d (.fin x)) v ↔ RoundsTo d (.fin x) v := by
  obtain ⟨hx, hk⟩ := h
  rw [floatLit_fin]
  obtain ⟨hl1, hl2⟩ := largest_flt d
  split
  · rename_i h1
    have := big_cases d (flt_neg hx) (by omega)
    have hx' : x = -largest d := by omega
    subst hx'
    rw [rounds_self hl2]
    constructor
    · intro h; cases h; rfl
    · rintro rfl; exact .lowest
  · split
    · rename_i _ h1
      have hx' := big_cases d hx h1
      subst hx'
      rw [rounds_self hl1]
      constructor
      · intro h; cases h; rfl
      · rintro rfl; exact .max
    · have hs := micros_spec x
      have e4 : ((1000000 : Nat) : Int) = 1000000 := rfl
      have e3 : (if decide (x < 0) = true then (-1 : Int) else 1) = if x < 0 then -1 else 1 := by simp only [decide_eq_true_eq]
      constructor
      · intro h
        cases h with
        | dec hn hr =>
          rename_i y
          rw [e3] at hn
          by_cases hy : y = x
          · rw [← hy]; exact hr
          · have h2 := hk _ hs y hn.1 hy
            have h3 := hn.2 x hx
            rw [e4] at h3
            rcases h3 with h1 | h1 | h1
            · exact absurd h1.symm hy
            · exact absurd h1 (Nat.lt_asymm h2)
            · exact absurd h1.1.symm (Nat.ne_of_lt h2)
      · intro h
        refine .dec (x := x) ?_ h
        rw [e3]
        refine ⟨hx, fun y hy => ?_⟩
        rw [e4]
        by_cases hy' : y = x
        · exact Or.inl hy'
        · exact Or.inr (Or.inl (hk _ hs y hy hy'))

end GenFloatProofs

open GenFloatProofs FloatProofs

/-! ## Which numbers are kept -/

/-- Numbers of `2^33` and more (about 8.6e9), and their negatives, are kept. -/
theorem C93_kept_large (x : Int) (h : IsFlt true x) (hx : 2 ^ 33 * 2 ^ 1074 ≤ x.natAbs) : Kept x := by
  refine ⟨h, fun k hk y hy hne => ?_⟩
  have e0 : (2 : Nat) ^ 33 * 2 ^ 1074 = 2 ^ 1107 := by decide +kernel
  have hx' : 2 ^ 1107 ≤ x.natAbs := e0 ▸ hx
  obtain ⟨j, hj⟩ := dvd_of_large 1055 h hx'
  have e1 : (2 : Int) ^ 1074 = 524288 * 2 ^ 1055 := by decide +kernel
  have e2 : (2 : Nat) ^ 1074 = 524288 * 2 ^ 1055 := by decide +kernel
  have e3 : (2 : Nat) ^ 1107 = 4503599627370496 * 2 ^ 1055 := by decide +kernel
  have e4 := Int.natCast_pow 2 1055
  have epos : 0 < (2 : Nat) ^ 1055 := by decide +kernel
  rw [e1] at hk ⊢
  rw [e2] at hk
  rw [e3] at hx'
  by_cases hy' : 2 ^ 1107 ≤ y.natAbs
  · obtain ⟨i, hi⟩ := dvd_of_large 1055 hy hy'
    subst hj
    subst hi
    have hij : j ≠ i := fun h => hne (by rw [h])
    generalize (2 : Nat) ^ 1055 = N at *
    generalize (2 : Int) ^ 1055 = Z at *
    have h1 : k * (524288 * Z) - j * Z * 1000000 = (k * 524288 - j * 1000000) * Z := by
      rw [Int.sub_mul, Int.mul_assoc, Int.mul_assoc, Int.mul_assoc, Int.mul_comm Z]
    have h2 : k * (524288 * Z) - i * Z * 1000000 = (k * 524288 - i * 1000000) * Z := by
      rw [Int.sub_mul, Int.mul_assoc, Int.mul_assoc, Int.mul_assoc, Int.mul_comm Z]
    rw [h1, Int.natAbs_mul] at hk ⊢
    rw [h2, Int.natAbs_mul]
    have hz : Z.natAbs = N := by omega
    rw [hz] at hk ⊢
    refine Nat.mul_lt_mul_of_pos_right ?_ epos
    have h3 : 2 * (k * 524288 - j * 1000000).natAbs ≤ 524288 := by
      have : 2 * (k * 524288 - j * 1000000).natAbs * N ≤ 524288 * N := by rw [Nat.mul_assoc]; exact hk
      exact Nat.le_of_mul_le_mul_right this epos
    omega
  · rw [e3] at hy'
    by_cases hpow : x.natAbs = 4503599627370496 * 2 ^ 1055
    · have hx2 : x = 8589934592 * (524288 * 2 ^ 1055) ∨ x = -8589934592 * (524288 * 2 ^ 1055) := by
        generalize (2 : Nat) ^ 1055 = N at *
        generalize (2 : Int) ^ 1055 = Z at *
        omega
      generalize (2 : Nat) ^ 1055 = N at *
      generalize (2 : Int) ^ 1055 = Z at *
      rcases hx2 with hx2 | hx2
      · have h1 : k * (524288 * Z) - x * 1000000 = (k - 8589934592000000) * (524288 * Z) := by rw [hx2, Int.sub_mul]; omega
        have hz : (524288 * Z).natAbs = 524288 * N := by omega
        rw [h1, Int.natAbs_mul, hz] at hk
        have hk0 : k = 8589934592000000 := by
          by_cases h0 : k - 8589934592000000 = 0
          · omega
          · have h2 : 1 ≤ (k - 8589934592000000).natAbs := by omega
            have := Nat.le_mul_of_pos_left (524288 * N) h2
            omega
        subst hk0
        omega
      · have h1 : k * (524288 * Z) - x * 1000000 = (k + 8589934592000000) * (524288 * Z) := by rw [hx2, Int.add_mul]; omega
        have hz : (524288 * Z).natAbs = 524288 * N := by omega
        rw [h1, Int.natAbs_mul, hz] at hk
        have hk0 : k = -8589934592000000 := by
          by_cases h0 : k + 8589934592000000 = 0
          · omega
          · have h2 : 1 ≤ (k + 8589934592000000).natAbs := by omega
            have := Nat.le_mul_of_pos_left (524288 * N) h2
            omega
        subst hk0
        omega
    · have hxn : x.natAbs = j.natAbs * 2 ^ 1055 := by
        rw [hj, Int.natAbs_mul, Int.natAbs_pow]; rfl
      have h4 : 4503599627370497 * 2 ^ 1055 ≤ x.natAbs := by
        rw [hxn] at hx' hpow ⊢
        have : 4503599627370496 ≤ j.natAbs := Nat.le_of_mul_le_mul_right hx' epos
        have : j.natAbs ≠ 4503599627370496 := fun h => hpow (by rw [h])
        exact Nat.mul_le_mul_right _ (by omega)
      clear hj hxn hx h hy hpow
      generalize k * (524288 * 2 ^ 1055) = K at *
      generalize (2 : Nat) ^ 1055 = N at *
      omega

/-- Numbers below `2^33` that are the nearest ones to a decimal number with at most six places are kept. -/
theorem C93_kept_decimal (x k : Int) (h : IsFlt true x) (hk : k.natAbs ≤ 2 ^ 33 * 1000000)
    (hn : ∀ y, IsFlt true y → y ≠ x → (k * 2 ^ 1074 - x * 1000000).natAbs < (k * 2 ^ 1074 - y * 1000000).natAbs) : Kept x := by
  have key : 2 * (k * 2 ^ 1074 - x * 1000000).natAbs < 2 ^ 1074 := by
    have hj : ∃ j : Int, j.natAbs ≤ 2 ^ 53 ∧ (2 * (k * 1048576 - j * 1000000)).natAbs ≤ 1000000 := by
      refine ⟨(2 * k * 1048576 + 1000000) / 2000000, ?_, ?_⟩ <;> omega
    obtain ⟨j, hj1, hj2⟩ := hj
    have hflt : IsFlt true (j * 2 ^ 1054) := by
      have hL : 2 ^ 53 * 2 ^ 1054 ≤ (largest true).natAbs := by decide +kernel
      have hL2 := largest_nonneg true
      refine ⟨?_, ?_⟩
      · by_cases h53 : j.natAbs = 2 ^ 53
        · rcases Int.natAbs_eq j with hj | hj
          · refine ⟨2 ^ 52, 1055, ?_, by decide, by decide⟩
            rw [hj, h53]
            decide +kernel
          · refine ⟨-2 ^ 52, 1055, ?_, by decide, by decide⟩
            rw [hj, h53]
            decide +kernel
        · exact ⟨j, 1054, rfl, by simp only [if_true]; omega, by simp⟩
      · have h1 : (j * 2 ^ 1054).natAbs = j.natAbs * 2 ^ 1054 := by rw [Int.natAbs_mul, Int.natAbs_pow]; rfl
        have h2 : j.natAbs * 2 ^ 1054 ≤ 2 ^ 53 * 2 ^ 1054 := Nat.mul_le_mul_right _ hj1
        omega
    have hd : 2 * (k * 2 ^ 1074 - j * 2 ^ 1054 * 1000000).natAbs < 2 ^ 1074 := by
      have e1 : (2 : Int) ^ 1074 = 1048576 * 2 ^ 1054 := by decide +kernel
      have e2 : (2 : Nat) ^ 1074 = 1048576 * 2 ^ 1054 := by decide +kernel
      have e4 := Int.natCast_pow 2 1054
      have epos : 0 < (2 : Nat) ^ 1054 := by decide +kernel
      rw [e1, e2]
      clear hflt hn
      generalize (2 : Nat) ^ 1054 = N at *
      generalize (2 : Int) ^ 1054 = Z at *
      have h1 : k * (1048576 * Z) - j * Z * 1000000 = (k * 1048576 - j * 1000000) * Z := by
        rw [Int.sub_mul, Int.mul_assoc, Int.mul_assoc, Int.mul_assoc, Int.mul_comm Z]
      have hz : Z.natAbs = N := by omega
      rw [h1, Int.natAbs_mul, hz, ← Nat.mul_assoc]
      exact Nat.mul_lt_mul_of_pos_right (by omega) epos
    by_cases hjx : j * 2 ^ 1054 = x
    · rw [← hjx]; exact hd
    · have := hn _ hflt hjx
      omega
  refine ⟨h, fun k' hk' => ?_⟩
  have : k' = k := by
    by_cases h0 : k' - k = 0
    · omega
    · have e4 := Int.natCast_pow 2 1074
      have h1 : ((k' - k) * 2 ^ 1074).natAbs = (k' - k).natAbs * 2 ^ 1074 := by rw [Int.natAbs_mul, Int.natAbs_pow]; rfl
      have h2 : 1 ≤ (k' - k).natAbs := by omega
      have h3 := Nat.le_mul_of_pos_left (2 ^ 1074) h2
      rw [Int.sub_mul] at h1
      clear hn
      generalize k' * 2 ^ 1074 = K' at *
      generalize k * 2 ^ 1074 = K at *
      generalize (2 : Nat) ^ 1074 = N at *
      omega
  rw [this]
  exact hn

/-! ## C93: `valid()` -/

namespace GenFloatProofs

theorem rounds_exists_special (d : Bool) {b : Dbl} (h : b.special = true) (v : Dbl) : RoundsTo d b v ↔ v = b := by
  cases b with
  | fin n => cases h
  | nan => exact ⟨fun h => by cases h; rfl, fun h => by rw [h]; exact .nan⟩
  | negInf => exact ⟨fun h => by cases h; rfl, fun h => by rw [h]; exact .negInf⟩
  | posInf => exact ⟨fun h => by cases h; rfl, fun h => by rw [h]; exact .posInf⟩

theorem le_antisymm {a b : Dbl} (h1 : Le a b) (h2 : Le b a) : a = b := by
  cases h1 <;> cases h2 <;> first | rfl | (congr 1; omega) | (rename_i h _; exact absurd rfl h)

theorem rounds_not_nan {d : Bool} {x : Int} {v : Dbl} (h : RoundsTo d (.fin x) v) : ∃ n, v = .fin n := by
  cases h; exact ⟨_, rfl⟩

theorem rounds_unique {d : Bool} {b v w : Dbl} (h1 : RoundsTo d b v) (h2 : RoundsTo d b w) : v = w := by
  cases h1 <;> cases h2 <;> try rfl
  rename_i x y h1 z h2
  by_cases hyz : z = y
  · rw [hyz]
  · exfalso
    rcases h1.2 z h2.1 with h | h | ⟨h, j, hj⟩
    · exact hyz h
    · rcases h2.2 y h1.1 with h' | h' | h'
      · exact hyz h'.symm
      · omega
      · omega
    · rcases h2.2 y h1.1 with h' | h' | ⟨_, i, hi⟩
      · exact hyz h'.symm
      · omega
      · have h3 : y - z = (j + i) * (2 * (y - z)) := by
          rw [Int.add_mul, ← hj]
          have : i * (2 * (y - z)) = -(i * (2 * (z - y))) := by
            rw [← Int.mul_neg]
            congr 1
            omega
          rw [this, ← hi]
          omega
        have h4 : (1 - 2 * (j + i)) * (y - z) = 0 := by
          rw [Int.sub_mul, Int.one_mul, Int.mul_comm 2, Int.mul_assoc, ← h3]
          omega
        rcases Int.mul_eq_zero.1 h4 with h5 | h5 <;> omega

theorem cmp_iff (d : Bool) {r : FloatF.RangeInfo} (h : Writable r) (v : Dbl) : FCmpHolds d v (rangeCmp d r) ↔ InRangeAs d r v := by
  unfold rangeCmp InRangeAs
  rcases h with ⟨x, y, h1, h2, hx, hy⟩ | ⟨he, hs⟩
  · rw [h1, h2]
    rw [if_neg (by simp [Dbl.special, Dbl.isNan, Dbl.isInf])]
    split
    · rename_i heq
      cases heq
      show (∃ a, LitVal d (floatLit d (.fin x)) a ∧ a ≠ .nan ∧ v = a) ↔ _
      constructor
      · rintro ⟨a, ha, hn, rfl⟩
        have ha := (lit_kept d hx v).1 ha
        obtain ⟨n, rfl⟩ := rounds_not_nan ha
        exact ⟨_, _, ha, ha, Or.inl ⟨.fin (by omega), .fin (by omega)⟩⟩
      · rintro ⟨lo, hi, hlo, hhi, hr⟩
        have := rounds_unique hlo hhi
        subst this
        obtain ⟨n, rfl⟩ := rounds_not_nan hlo
        rcases hr with ⟨h3, h4⟩ | ⟨h, _, _⟩
        · exact ⟨_, (lit_kept d hx _).2 hlo, by simp, le_antisymm h4 h3⟩
        · cases h
    · show (∃ a b, LitVal d (floatLit d (.fin x)) a ∧ LitVal d (floatLit d (.fin y)) b ∧ Le a v ∧ Le v b) ↔ _
      constructor
      · rintro ⟨a, b, ha, hb, h3, h4⟩
        exact ⟨a, b, (lit_kept d hx a).1 ha, (lit_kept d hy b).1 hb, Or.inl ⟨h3, h4⟩⟩
      · rintro ⟨lo, hi, hlo, hhi, hr⟩
        rcases hr with ⟨h3, h4⟩ | ⟨rfl, _, _⟩
        · exact ⟨lo, hi, (lit_kept d hx lo).2 hlo, (lit_kept d hy hi).2 hhi, h3, h4⟩
        · cases hlo
  · have hs : r.min.special = true := by rcases hs with h | h | h <;> rw [h] <;> rfl
    rw [if_pos hs, ← he]
    simp only [rounds_exists_special d hs]
    generalize r.min = b at *
    cases b with
    | fin n => cases hs
    | nan =>
      show v = .nan ↔ _
      constructor
      · rintro rfl; exact ⟨_, _, rfl, rfl, Or.inr ⟨rfl, rfl, rfl⟩⟩
      · rintro ⟨lo, hi, rfl, rfl, ⟨h1, _⟩ | ⟨_, _, h⟩⟩
        · cases h1 with
          | posInf h => exact absurd rfl h
        · exact h
    | negInf =>
      show v = .negInf ↔ _
      constructor
      · rintro rfl; exact ⟨_, _, rfl, rfl, Or.inl ⟨.negInf (by simp), .negInf (by simp)⟩⟩
      · rintro ⟨lo, hi, rfl, rfl, ⟨h1, h2⟩ | ⟨h, _, _⟩⟩
        · exact le_antisymm h2 h1
        · cases h
    | posInf =>
      show v = .posInf ↔ _
      constructor
      · rintro rfl; exact ⟨_, _, rfl, rfl, Or.inl ⟨.posInf (by simp), .posInf (by simp)⟩⟩
      · rintro ⟨lo, hi, rfl, rfl, ⟨h1, h2⟩ | ⟨h, _, _⟩⟩
        · exact le_antisymm h2 h1
        · cases h

theorem dep_false {fs fd : Nat} {r : FloatF.RangeInfo} (h : (!floatDependent fs fd r) = true) : r.since ≤ fs ∧ fd ≤ r.depr := by
  unfold floatDependent at h
  simp only [Bool.not_eq_true', Bool.or_eq_false_iff, decide_eq_false_iff_not] at h
  omega

theorem check_iff {d : Bool} {r : FloatF.RangeInfo} {ver : Nat} {v : Dbl} (hw : Writable r) (hv : ver < Versions.notYet) :
    ((∀ n, (versionCheck d r).frm = some n → n ≤ ver) ∧ (∀ n, (versionCheck d r).upto = some n → ver < n) ∧ FCmpHolds d v (versionCheck d r).cmp) ↔
      r.since ≤ ver ∧ ver < r.depr ∧ InRangeAs d r v := by
  have e : (versionCheck d r).cmp = rangeCmp d r := rfl
  rw [e, cmp_iff d hw]
  unfold versionCheck
  dsimp only
  constructor
  · rintro ⟨h1, h2, h3⟩
    refine ⟨?_, ?_, h3⟩
    · by_cases h0 : r.since = 0
      · omega
      · exact h1 _ (by rw [if_neg h0])
    · by_cases h0 : r.since ≠ 0 ∧ Versions.notYet ≤ r.depr
      · omega
      · exact h2 _ (by rw [if_neg h0])
  · rintro ⟨h1, h2, h3⟩
    refine ⟨fun n hn => ?_, fun n hn => ?_, h3⟩
    · split at hn
      · cases hn
      · cases hn; exact h1
    · split at hn
      · cases hn
      · cases hn; exact h2

theorem plain_iff {d : Bool} {r : FloatF.RangeInfo} {ver : Nat} {v : Dbl} (hw : Writable r) :
    ((∀ n, (plainCheck d r).frm = some n → n ≤ ver) ∧ (∀ n, (plainCheck d r).upto = some n → ver < n) ∧ FCmpHolds d v (plainCheck d r).cmp) ↔
      InRangeAs d r v := by
  have e : (plainCheck d r).cmp = rangeCmp d r := rfl
  rw [e, cmp_iff d hw]
  exact ⟨fun h => h.2.2, fun h => ⟨fun n hn => (by cases hn), fun n hn => (by cases hn), h⟩⟩

end GenFloatProofs

/-- In the versions of the field, the values `valid()` accepts are those of the declared ranges (whose bounds are taken as numbers of the type), and, if
    versions are checked, only of those that the version has. The version is asked for only if it is stored. `fs` and `fd` are the versions of the field.
    Missing for the full claim: bounds that six decimal places do not determine (`C93_digits_witness`), infinite bounds of longer ranges
    (`C93_infinite_witness`), and versions in which the field is deprecated but still there. -/
theorem C93_valid_partial (g : GVer) (d vcv : Bool) (fs fd : Nat) (ranges : List FloatF.RangeInfo) (hne : ranges ≠ []) (hw : ∀ r ∈ ranges, Writable r) :
    FloatFits (floatOpts g vcv fs fd ranges) (floatBody g d vcv fs fd ranges) ∧
      ∀ ver v, fs ≤ ver → ver < fd → ver < Versions.notYet →
        (FloatValid d (floatOpts g vcv fs fd ranges) (floatBody g d vcv fs fd ranges) ver v ↔
          ∃ r ∈ ranges, (checkVersion g vcv = true → r.since ≤ ver ∧ ver < r.depr) ∧ InRangeAs d r v) := by
  have hinv : (floatOpts g vcv fs fd ranges).invalidByDefault = true := by
    unfold floatOpts
    cases ranges with
    | nil => exact absurd rfl hne
    | cons => rfl
  unfold floatBody
  split
  · rename_i hc
    refine ⟨fun _ => hc, fun ver v h1 h2 h3 => ?_⟩
    unfold FloatValid
    rw [hinv]
    simp only [Bool.true_eq_false, false_or]
    have hchk : checkVersion g vcv = true := by
      cases h : checkVersion g vcv with
      | true => rfl
      | false => rw [h] at hc; cases hc
    simp only [hchk, true_imp_iff]
    unfold versionChecks
    dsimp only
    have hmem : ∀ r, r ∈ sortBy floatVerLt ranges ↔ r ∈ ranges := mem_sortBy _ _
    constructor
    · rintro ⟨c, hc, hh⟩
      rcases List.mem_append.1 hc with hc | hc
      · obtain ⟨r, hr, rfl⟩ := List.mem_map.1 hc
        have hr' : r ∈ ranges := (hmem r).1 ((List.takeWhile_sublist _).subset hr)
        have hd := dep_false (List.all_eq_true.1 List.all_takeWhile r hr)
        exact ⟨r, hr', ⟨by omega, by omega⟩, (plain_iff (hw r hr')).1 hh⟩
      · obtain ⟨r, hr, rfl⟩ := List.mem_map.1 hc
        have hr' : r ∈ ranges := (hmem r).1 ((List.dropWhile_sublist _).subset hr)
        obtain ⟨k1, k2, k3⟩ := (check_iff (hw r hr') h3).1 hh
        exact ⟨r, hr', ⟨k1, k2⟩, k3⟩
    · rintro ⟨r, hr, ⟨k1, k2⟩, k3⟩
      have hr' := (hmem r).2 hr
      rw [← List.takeWhile_append_dropWhile (p := fun r => !floatDependent fs fd r) (l := sortBy floatVerLt ranges)] at hr'
      rcases List.mem_append.1 hr' with h | h
      · exact ⟨_, List.mem_append_left _ (List.mem_map_of_mem h), (plain_iff (hw r hr)).2 k3⟩
      · exact ⟨_, List.mem_append_right _ (List.mem_map_of_mem h), (check_iff (hw r hr) h3).2 ⟨k1, k2, k3⟩⟩
  · rename_i hc
    refine ⟨?_, fun ver v h1 h2 h3 => ?_⟩
    · rintro ⟨c, hm, h⟩
      obtain ⟨r, _, rfl⟩ := List.mem_map.1 hm
      rcases h with h | h <;> exact absurd rfl h
    · unfold FloatValid
      rw [hinv]
      simp only [Bool.true_eq_false, false_or]
      constructor
      · rintro ⟨c, hm, hh⟩
        obtain ⟨r, hr, rfl⟩ := List.mem_map.1 hm
        refine ⟨r, hr, fun hchk => ?_, (plain_iff (hw r hr)).1 hh⟩
        have : floatDependent fs fd r = false := by
          cases hd : floatDependent fs fd r with
          | false => rfl
          | true => exact absurd (by rw [hchk, List.any_eq_true.2 ⟨r, hr, hd⟩]; rfl) hc
        have := dep_false (fs := fs) (fd := fd) (r := r) (by rw [this]; rfl)
        omega
      · rintro ⟨r, hr, _, k3⟩
        exact ⟨_, List.mem_map_of_mem hr, (plain_iff (hw r hr)).2 k3⟩

/-- Without ranges every value is valid. -/
theorem C93_no_ranges (g : GVer) (d vcv : Bool) (fs fd ver : Nat) (v : Dbl) :
    FloatValid d (floatOpts g vcv fs fd []) (floatBody g d vcv fs fd []) ver v := Or.inl rfl

/-- The number a field is constructed with is the declared default value, as number of the type. -/
theorem C93_default_partial (d : Bool) (x : Int) (h : Kept x) :
    (floatDefault d (.fin x) = none ∧ x = 0) ∨ ∃ l, floatDefault d (.fin x) = some l ∧ ∀ v, LitVal d l v ↔ RoundsTo d (.fin x) v := by
  unfold floatDefault
  split
  · rename_i h0
    exact Or.inl ⟨rfl, Dbl.fin.inj h0⟩
  · exact Or.inr ⟨_, rfl, lit_kept d h⟩

/-- The same for values that are not finite. -/
theorem C93_default_special (d : Bool) (b : Dbl) (h : b = .nan ∨ b = .negInf ∨ b = .posInf) :
    ∃ l, floatDefault d b = some l ∧ ∀ v, LitVal d l v ↔ v = b := by
  rcases h with rfl | rfl | rfl
  · exact ⟨.nan, rfl, fun v => ⟨fun h => by cases h; rfl, fun h => by rw [h]; exact .nan⟩⟩
  · exact ⟨.negInf, rfl, fun v => ⟨fun h => by cases h; rfl, fun h => by rw [h]; exact .negInf⟩⟩
  · exact ⟨.posInf, rfl, fun v => ⟨fun h => by cases h; rfl, fun h => by rw [h]; exact .posInf⟩⟩

theorem digits_length {base : Nat} {up : Bool} (hb : 1 < base) : ∀ (fuel n L : Nat), n < base ^ L → 0 < L → (digitsLoop base up fuel n).length ≤ L := by
  intro fuel
  induction fuel with
  | zero => intro n L _ _; simp [digitsLoop]
  | succ fuel ih =>
    intro n L hn hL
    unfold digitsLoop
    split
    · exact hL
    · rename_i hge
      have h1 : L ≠ 1 := by rintro rfl; rw [Nat.pow_one] at hn; omega
      obtain ⟨L', rfl⟩ : ∃ L', L = L' + 1 := ⟨L - 1, by omega⟩
      have := ih (n / base) L' (by rw [Nat.div_lt_iff_lt_mul (by omega), ← Nat.pow_succ]; exact hn) (by omega)
      simp only [List.length_append, List.length_singleton]
      omega

theorem posVal_zeros (k : Nat) : posVal 10 (List.replicate k '0') = 0 := by
  induction k with
  | zero => rfl
  | succ k ih => rw [List.replicate_succ, posVal, ih]; simp [show dig '0' = 0 by decide]

theorem divRound_le (a b : Nat) : divRound a b ≤ a / b + 1 := by
  unfold divRound
  split
  · exact Nat.le_refl _
  · exact Nat.le_succ _

theorem micros_le {x : Int} {L : Nat} (h : x.natAbs ≤ L) : micros x ≤ L * 1000000 / 2 ^ 1074 + 1 := by
  unfold micros
  generalize (2 : Nat) ^ 1074 = N
  exact Nat.le_trans (divRound_le _ _) (Nat.succ_le_succ (Nat.div_le_div_right (Nat.mul_le_mul_right _ h)))

/-- The text of a number is a decimal number with six places; it is the nearest one to the number there is, and of two that are equally near the
    one with an even last digit. -/
theorem C93_text (d : Bool) (x : Int) (hx : IsFlt true x) (neg : Bool) (k : Nat) (h : floatLit d (.fin x) = .dec neg k) :
    (neg = true ↔ x < 0) ∧ 2 * (((if x < 0 then -1 else 1) * (k : Int)) * 2 ^ 1074 - x * 1000000).natAbs ≤ 2 ^ 1074 ∧
      (2 * (((if x < 0 then -1 else 1) * (k : Int)) * 2 ^ 1074 - x * 1000000).natAbs = 2 ^ 1074 → k % 2 = 0) ∧
      ∃ t, FLit.text (.dec neg k) = "static_cast<ValueType>(".toList ++ (if neg then "-".toList else []) ++ t ++ ")".toList ∧ DecimalText t k 6 := by
  rw [floatLit_fin] at h
  have hk : neg = decide (x < 0) ∧ k = micros x := by
    split at h
    · cases h
    · split at h
      · cases h
      · cases h; exact ⟨rfl, rfl⟩
  obtain ⟨hk1, hk2⟩ := hk
  clear h
  rw [hk1, hk2]
  refine ⟨decide_eq_true_iff, micros_spec x, micros_even x, digitsLoop 10 false 320 (micros x / 1000000) ++ ['.'] ++ padZero 6 (toDec (micros x % 1000000)), ?_, ?_⟩
  · show _ ++ ((if decide (x < 0) = true then ['-'] else []) ++ _ ++ ['.'] ++ _) ++ _ = _
    simp only [List.append_assoc]
    rfl
  · have hm : micros x / 1000000 < 10 ^ 320 := by
      have h2 := hx.2
      have h3 : ((largest true).toNat * 1000000 / 2 ^ 1074 + 1) / 1000000 < 10 ^ 320 := by decide +kernel
      have h4 : x.natAbs ≤ (largest true).toNat := by generalize largest true = L at *; omega
      have h5 := micros_le h4
      generalize (2 : Nat) ^ 1074 = N at h5 h3
      exact Nat.lt_of_le_of_lt (Nat.div_le_div_right h5) h3
    obtain ⟨h1, h2, c, cs, h3, _⟩ := GenNumProofs.digits_spec (base := 10) (up := false) (by omega) (by omega) 320 (micros x / 1000000) hm (by omega)
    have hlt : micros x % 1000000 < 10 ^ 6 := Nat.mod_lt _ (by decide)
    obtain ⟨j1, j2, _⟩ := GenNumProofs.digits_spec (base := 10) (up := false) (by omega) (by omega) 64 (micros x % 1000000)
      (Nat.lt_trans hlt (by decide)) (by omega)
    have j4 := digits_length (up := false) (by decide : 1 < 10) 64 (micros x % 1000000) 6 hlt (by omega)
    have hlen : (padZero 6 (toDec (micros x % 1000000))).length = 6 := by
      unfold padZero toDec
      rw [List.length_append, List.length_replicate]
      omega
    refine ⟨_, _, by rw [h3]; exact List.cons_ne_nil _ _, ?_, rfl, hlen, ?_⟩
    · intro d hd
      rcases List.mem_append.1 hd with hd | hd
      · exact (h2 d hd).2 (by decide)
      · unfold padZero at hd
        rcases List.mem_append.1 hd with hd | hd
        · rw [List.eq_of_mem_replicate hd]; decide
        · exact (j2 d hd).2 (by decide)
    · rw [GenNumProofs.posVal_append, h1, hlen]
      unfold padZero
      rw [GenNumProofs.posVal_append, posVal_zeros]
      unfold toDec
      rw [j1]
      have := Nat.div_add_mod (micros x) 1000000
      omega

/-! ## Examples and counterexamples -/

/-- Whole numbers are kept. -/
theorem C93_kept_int (m : Int) (h : m.natAbs < 2 ^ 53) : Kept (m * 2 ^ 1074) := by
  have hf : IsFlt true (m * 2 ^ 1074) := by
    refine ⟨⟨m, 1074, rfl, by simpa using h, Nat.zero_le _⟩, ?_⟩
    have h1 : ((2 ^ 53 * 2 ^ 1074 : Nat) : Int) ≤ largest true := by decide +kernel
    rw [Int.natAbs_mul, Int.natAbs_pow]
    have h2 : m.natAbs * 2 ^ 1074 ≤ 2 ^ 53 * 2 ^ 1074 := Nat.mul_le_mul_right _ (by omega)
    have e : (2 : Int).natAbs = 2 := rfl
    rw [e]
    generalize (2 ^ 53 * 2 ^ 1074 : Nat) = B at *
    generalize m.natAbs * (2 : Nat) ^ 1074 = A at *
    generalize largest true = L at *
    omega
  by_cases hm : m.natAbs ≤ 2 ^ 33
  · refine C93_kept_decimal _ (m * 1000000) hf (by omega) fun y _ hne => ?_
    rw [Int.mul_right_comm m 1000000]
    generalize m * (2 : Int) ^ 1074 = x at *
    omega
  · refine C93_kept_large _ hf ?_
    rw [Int.natAbs_mul, Int.natAbs_pow]
    exact Nat.mul_le_mul_right _ (by omega)

namespace GenFloatSample
open FloatSample

/-- A `std::stod` that also knows a hexadecimal number. -/
def stod2 (s : Str) : Option Dbl := if s = "0x1p-24".toList then some (.fin (2 ^ 1050)) else stod s

def fp2 : Fp := { stod := stod2 }

theorem le_nan_false {a : Dbl} (h : Le a .nan) : False := by
  cases h <;> contradiction

end GenFloatSample
open FloatSample GenFloatSample

/-- A field with the valid range `[-1.5, 5]` and the valid value NaN from version 2 on. In version 1, NaN is not valid; in version 2 it is. -/
example : ∃ st, Accepted st ∧ st.double = some true ∧ st.validRanges ≠ [] ∧ (∀ r ∈ st.validRanges, Writable r) ∧
    let o := floatOpts ⟨3, -1, 0, true⟩ true 0 Versions.notYet st.validRanges
    let b := floatBody ⟨3, -1, 0, true⟩ true true 0 Versions.notYet st.validRanges
    FloatValid true o b 1 (.fin (-3 * 2 ^ 1073)) ∧ ¬ FloatValid true o b 1 .nan ∧ FloatValid true o b 2 .nan := by
  have h : okWith (parseImpl env fp (ctx [("type".toList, "double".toList), ("validRange".toList, "[-1.5, 5.0]".toList)]
      [.elem "validValue".toList [("value".toList, "NaN".toList), ("sinceVersion".toList, "2".toList)] []]) (initState env))
      (fun st => decide (st.double = some true ∧ st.validRanges = [⟨.fin (-3 * 2 ^ 1073), .fin (5 * 2 ^ 1074), 0, Versions.notYet⟩, ⟨.nan, .nan, 2, Versions.notYet⟩])) = true := by decide +kernel
  obtain ⟨st, h1, h2⟩ := okWith_spec h
  obtain ⟨h2, h3⟩ := of_decide_eq_true h2
  have hne : st.validRanges ≠ [] := by rw [h3]; exact List.cons_ne_nil _ _
  have k1 : Kept (-3 * 2 ^ 1073) := by
    refine C93_kept_decimal _ (-1500000) ⟨⟨-3, 1073, rfl, by decide, Nat.zero_le _⟩, by decide +kernel⟩ (by decide) fun y _ hne => ?_
    have e : (-1500000 : Int) * 2 ^ 1074 = -3 * 2 ^ 1073 * 1000000 := by decide +kernel
    rw [e]
    generalize (-3 * 2 ^ 1073 : Int) = x at *
    omega
  have hw : ∀ r ∈ st.validRanges, Writable r := by
    rw [h3]
    intro r hr
    rcases List.mem_cons.1 hr with rfl | hr
    · exact Or.inl ⟨_, _, rfl, rfl, k1, C93_kept_int 5 (by decide)⟩
    · rw [List.mem_singleton.1 hr]
      exact Or.inr ⟨rfl, Or.inl rfl⟩
  have key := (C93_valid_partial ⟨3, -1, 0, true⟩ true true 0 Versions.notYet _ hne hw).2
  refine ⟨st, .fresh h1, h2, hne, hw, (key _ _ (by decide) (by decide) (by decide)).2 ?_, fun hv => ?_, (key _ _ (by decide) (by decide) (by decide)).2 ?_⟩
  · rw [h3]
    refine ⟨_, List.mem_cons_self, fun _ => ⟨by decide, by decide⟩, _, _, (rounds_self k1.1 _).2 rfl, (rounds_self (C93_kept_int 5 (by decide)).1 _).2 rfl, Or.inl ⟨?_, ?_⟩⟩
    · exact .fin (Int.le_refl _)
    · exact .fin (by decide +kernel)
  · obtain ⟨r, hr, hver, lo, hi, hlo, hhi, hin⟩ := (key _ _ (by decide) (by decide) (by decide)).1 hv
    rw [h3] at hr
    rcases List.mem_cons.1 hr with rfl | hr
    · rw [(rounds_self k1.1 _).1 hlo] at hin
      rcases hin with hin | hin
      · exact le_nan_false hin.1
      · exact absurd hin.1 (by intro h; cases h)
    · rw [List.mem_singleton.1 hr] at hver
      exact absurd (hver rfl).1 (by decide)
  · rw [h3]
    exact ⟨_, List.mem_cons_of_mem _ List.mem_cons_self, fun _ => ⟨by decide, by decide⟩, _, _, .nan, .nan, Or.inr ⟨rfl, rfl, rfl⟩⟩

/-- Refutation of "`valid()` accepts exactly the values of the ranges": the number is written with six decimal places. The only valid value of the field is
    `2^-24`, and the class accepts 0 instead. -/
theorem C93_digits_witness : ∃ st, Accepted st ∧ st.double = some true ∧ st.validRanges = [⟨.fin (2 ^ 1050), .fin (2 ^ 1050), 0, Versions.notYet⟩] ∧
    ∀ g vcv ver, let o := floatOpts g vcv 0 Versions.notYet st.validRanges
      let b := floatBody g true vcv 0 Versions.notYet st.validRanges
      ¬ FloatValid true o b ver (.fin (2 ^ 1050)) ∧ FloatValid true o b ver (.fin 0) := by
  have h : okWith (parseImpl env fp2 (ctx [("type".toList, "double".toList), ("validValue".toList, "0x1p-24".toList)] []) (initState env))
      (fun st => decide (st.double = some true ∧ st.validRanges = [⟨.fin (2 ^ 1050), .fin (2 ^ 1050), 0, Versions.notYet⟩])) = true := by decide +kernel
  obtain ⟨st, h1, h2⟩ := okWith_spec h
  obtain ⟨h2, h3⟩ := of_decide_eq_true h2
  refine ⟨st, .fresh h1, h2, h3, fun g vcv ver => ?_⟩
  have k0 : Kept 0 := by
    have := C93_kept_int 0 (by decide)
    rwa [Int.zero_mul] at this
  have hlit : ∀ v, LitVal true (.dec false 0) v ↔ v = .fin 0 := by
    intro v
    have e : floatLit true (.fin 0) = .dec false 0 := by decide +kernel
    rw [← e, lit_kept true k0 v, rounds_self k0.1]
  have hb : floatBody g true vcv 0 Versions.notYet st.validRanges = [⟨none, none, .eq (.dec false 0)⟩] := by
    rw [h3]
    unfold floatBody
    have e : ([⟨.fin (2 ^ 1050), .fin (2 ^ 1050), 0, Versions.notYet⟩] : List FloatF.RangeInfo).any (floatDependent 0 Versions.notYet) = false := by decide +kernel
    rw [e, Bool.and_false]
    decide +kernel
  dsimp only
  rw [hb]
  refine ⟨fun hv => ?_, Or.inr ⟨_, List.mem_singleton.2 rfl, fun _ h => (by cases h), fun _ h => (by cases h), .fin 0, (hlit _).2 rfl, (by intro h; cases h), rfl⟩⟩
  rcases hv with hv | ⟨c, hc, _, _, hh⟩
  · rw [h3] at hv; cases hv
  · rw [List.mem_singleton.1 hc] at hh
    obtain ⟨a, ha, _, e⟩ := hh
    rw [(hlit a).1 ha] at e
    have : (2 : Int) ^ 1050 ≠ 0 := by decide +kernel
    exact this (Dbl.fin.inj e)

/-- Refutation of the same: of a range from minus infinity, only minus infinity is accepted. -/
theorem C93_infinite_witness : ∃ st, Accepted st ∧ st.double = some true ∧ st.validRanges = [⟨.negInf, .fin (5 * 2 ^ 1074), 0, Versions.notYet⟩] ∧
    ∀ g vcv ver v, FloatValid true (floatOpts g vcv 0 Versions.notYet st.validRanges) (floatBody g true vcv 0 Versions.notYet st.validRanges) ver v ↔ v = .negInf := by
  have h : okWith (parseImpl env fp (ctx [("type".toList, "double".toList), ("validRange".toList, "[-inf, 5.0]".toList)] []) (initState env))
      (fun st => decide (st.double = some true ∧ st.validRanges = [⟨.negInf, .fin (5 * 2 ^ 1074), 0, Versions.notYet⟩])) = true := by decide +kernel
  obtain ⟨st, h1, h2⟩ := okWith_spec h
  obtain ⟨h2, h3⟩ := of_decide_eq_true h2
  refine ⟨st, .fresh h1, h2, h3, fun g vcv ver v => ?_⟩
  have hb : floatBody g true vcv 0 Versions.notYet st.validRanges = [⟨none, none, .isNegInf⟩] := by
    rw [h3]
    unfold floatBody
    have e : ([⟨.negInf, .fin (5 * 2 ^ 1074), 0, Versions.notYet⟩] : List FloatF.RangeInfo).any (floatDependent 0 Versions.notYet) = false := by decide +kernel
    rw [e, Bool.and_false]
    decide +kernel
  rw [hb]
  constructor
  · rintro (hv | ⟨c, hc, _, _, hh⟩)
    · rw [h3] at hv; cases hv
    · rw [List.mem_singleton.1 hc] at hh
      exact hh
  · rintro rfl
    exact Or.inr ⟨_, List.mem_singleton.2 rfl, fun _ h => (by cases h), fun _ h => (by cases h), rfl⟩

end Commsdsl.Props
