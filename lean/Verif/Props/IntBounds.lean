import Verif.Spec.IntField
/-!
# Property C09 (integer bounds) and C13 (serialisation offset)
-/
namespace Commsdsl.Props
open Commsdsl IntF Spec

private def allTypes : List IntType := [.int8, .uint8, .int16, .uint16, .int32, .uint32, .int64, .uint64, .intvar, .uintvar]
private theorem mem_allTypes (t : IntType) : t ∈ allTypes := by cases t <;> decide

/-- The number of wire bits of a field of the given type that the parser can end up with: any number of bits up to the length of the type
    (bitfield members), whole bytes for the variable length types. -/
def WireBits (t : IntType) (bits : Nat) : Prop :=
  0 < bits ∧ bits ≤ 8 * maxTypeLength t ∧ (VarLen t → ∃ n, bits = 8 * n)

private theorem bounds_small : ∀ t ∈ allTypes, ∀ bits, bits < 8 * maxTypeLength t + 1 → 0 < bits → (VarLen t → bits % 8 = 0) →
    ∃ lo hi, calcMinValue t bits = .ok lo ∧ calcMaxValue t bits = .ok hi ∧
      lo = loBound t bits ∧ interp t hi = hiBound t bits ∧ i64Min ≤ hi ∧ hi ≤ i64Max := by
  have : ∀ t ∈ allTypes, ∀ bits, bits < 8 * maxTypeLength t + 1 → 0 < bits → (VarLen t → bits % 8 = 0) →
      calcMinValue t bits = .ok (loBound t bits) ∧
      (match calcMaxValue t bits with
        | .ok hi => decide (interp t hi = hiBound t bits ∧ i64Min ≤ hi ∧ hi ≤ i64Max)
        | _ => false) = true := by
    decide +kernel
  intro t ht bits h1 h2 h3
  obtain ⟨ha, hb⟩ := this t ht bits h1 h2 h3
  cases hc : calcMaxValue t bits with
  | ok hi => rw [hc] at hb; have hb := of_decide_eq_true hb; exact ⟨_, hi, ha, rfl, rfl, hb.1, hb.2.1, hb.2.2⟩
  | err => rw [hc] at hb; exact absurd hb (by simp)
  | ub => rw [hc] at hb; exact absurd hb (by simp)

/-- For every type and every number of wire bits the parser's bounds are the two's complement, unsigned or base-128 bounds, and computing
    them involves no undefined shift. -/
theorem C09_bounds_exact (t : IntType) (bits : Nat) (h : WireBits t bits) :
    ∃ lo hi, calcMinValue t bits = .ok lo ∧ calcMaxValue t bits = .ok hi ∧
      interp t lo = loBound t bits ∧ interp t hi = hiBound t bits := by
  obtain ⟨h1, h2, h3⟩ := h
  have hm : maxTypeLength t ≤ 10 := by cases t <;> decide
  obtain ⟨lo, hi, ha, hb, hc, hd, _⟩ := bounds_small t (mem_allTypes t) bits (by omega) h1 (fun hv => by
    obtain ⟨n, rfl⟩ := h3 hv; omega)
  refine ⟨lo, hi, ha, hb, ?_, hd⟩
  rw [hc]
  unfold interp
  split
  · rename_i ht
    have : loBound t bits = 0 := by rcases ht with rfl | rfl <;> rfl
    rw [this]; rfl
  · rfl

/-- The bounds of a type at full length are those of the type. -/
theorem C09_type_bounds (t : IntType) : interp t (minTypeValue t) = typeLo t ∧ interp t (maxTypeValue t) = typeHi t := by
  have : ∀ t ∈ allTypes, interp t (minTypeValue t) = typeLo t ∧ interp t (maxTypeValue t) = typeHi t := by decide +kernel
  exact this t (mem_allTypes t)

/-- Refutation for zero bits, which the parser lets through for bitfield members (see `C09_zero_bits_accepted_witness`): signed bounds
    need a shift by -1. -/
theorem C09_zero_bits_undefined : calcMaxValue .int8 0 = .ub ∧ calcMinValue .int32 0 = .ub := by decide

example : WireBits .int16 11 ∧ loBound .int16 11 = -1024 ∧ hiBound .int16 11 = 1023 ∧ hiBound .uintvar 16 = 16383 := by
  refine ⟨⟨by decide, by decide, fun h => ?_⟩, by decide, by decide, by decide⟩
  rcases h with h | h <;> cases h

/-! ## C13 -/

private theorem castU64_of_nonneg {x : Int} (h : 0 ≤ x) (h2 : x < 2 ^ 64) : (castU64 x : Int) = x := by
  unfold castU64; omega

private theorem unsigned_iff (t : IntType) : isUnsigned t = true ↔ ¬ Signed t := by cases t <;> decide

private theorem minS {off val r : Int} (h : minUpdateS off val = .ok r) (hv : i64Min ≤ val) : val ≤ r + off ∧ (off ≤ 0 → r + off = val) ∨
    (off = 0 ∧ r = val) := by
  have e1 : i64Min = -9223372036854775808 := rfl
  unfold minUpdateS subI64 at h
  left
  split at h
  · split at h
    · simp at h
    · simp at h; omega
  · split at h
    · split at h
      · simp at h
      · simp at h; omega
    · simp at h; omega

private theorem maxS {off val r : Int} (h : maxUpdateS off val = .ok r) : r + off ≤ val := by
  unfold maxUpdateS subI64 at h
  split at h
  · split at h
    · split at h
      · simp at h
      · simp at h; omega
    · simp at h; omega
  · split at h
    · simp at h
    · simp at h; omega

private theorem maxU {off : Int} {C : Nat} (hC : C < 2 ^ 64) (h1 : off ≤ C) (h2 : i64Min ≤ off) :
    (maxUpdateU off C : Int) + off ≤ C ∧ maxUpdateU off C < 2 ^ 64 ∧ ((maxUpdateU off C : Int) = C ∨ (maxUpdateU off C : Int) = C - off) := by
  have e1 : i64Min = -9223372036854775808 := rfl
  unfold maxUpdateU
  split
  · have hl : (castU64 (18446744073709551615 + off) : Int) = 18446744073709551615 + off := castU64_of_nonneg (by omega) (by omega)
    split
    · rename_i hlt
      have hlt' : (C : Int) < 18446744073709551615 + off := by omega
      have := castU64_of_nonneg (x := C - off) (by omega) (by omega)
      omega
    · omega
  · have := castU64_of_nonneg (x := C - off) (by omega) (by omega)
    omega

private theorem minU {off : Int} (h2 : i64Min ≤ off) :
    (minUpdateU off 0 : Int) = if off < 0 then -off else 0 := by
  have e1 : i64Min = -9223372036854775808 := rfl
  unfold minUpdateU
  split
  · have := castU64_of_nonneg (x := (0 : Nat) - off) (by omega) (by omega)
    omega
  · rw [if_neg (by omega)]; simp

private theorem interp_castI64 {t : IntType} {n : Nat} (hn : n < 2 ^ 64) (h : ¬ (t = .uint64 ∨ t = .uintvar) → n < 2 ^ 63) :
    interp t (castI64 n) = n := by
  unfold interp castI64
  split
  · omega
  · rename_i hb; have := h hb; omega

private theorem check_small {t : IntType} {st : State} (hs : ¬ Signed t) (hb : ¬ (t = .uint64 ∨ t = .uintvar))
    (h1 : st.typeMin = minTypeValue t) (h2 : st.typeMax = maxTypeValue t) (h : checkSerOffset t st = .ok ()) :
    -4294967295 < st.serOffset ∧ st.serOffset < 4294967295 := by
  unfold checkSerOffset at h
  rw [h1, h2] at h
  have hbig : isBigUnsigned t = false := by cases t <;> first | rfl | (exfalso; revert hb; decide)
  have hmx : maxTypeValue t ≠ i64Max ∧ maxTypeValue t - minTypeValue t ≤ 4294967295 := by
    revert hs hb; cases t <;> decide
  rw [hbig] at h
  simp only [Bool.false_or, decide_eq_true_eq, if_neg hmx.1] at h
  split at h
  · simp at h
  · split at h
    · omega
    · simp at h

/-- If the bounds of a field could be computed then every value between them, shifted by the serialisation offset, is representable on the wire
    (in the field's type and number of bits) – provided, for unsigned types, that the offset is not larger than the largest wire value.
    Missing for the full claim: that case, where the code wraps around (`C13_offset_wraps_witness`), and undefined behaviour for the offset
    -2^63 (`C13_offset_undefined_witness`). -/
theorem C13_wire_value_fits_partial (t : IntType) (st st' : State) (hb : WireBits t st.bitLength)
    (hoff : i64Min ≤ st.serOffset ∧ st.serOffset ≤ i64Max)
    (hsmall : ¬ Signed t → st.serOffset ≤ hiBound t st.bitLength)
    (h : updateMinMax t st = .ok st') (v : Int) (hlo : interp t st'.min ≤ v) (hhi : v ≤ interp t st'.max) :
    loBound t st.bitLength ≤ v + st.serOffset ∧ v + st.serOffset ≤ hiBound t st.bitLength := by
  have e1 : i64Min = -9223372036854775808 := rfl
  have e2 : i64Max = 9223372036854775807 := rfl
  obtain ⟨h1, h2, h3⟩ := hb
  have hm : maxTypeLength t ≤ 10 := by cases t <;> decide
  obtain ⟨lo, hi, ha, hb, hc, hd, hil, hih⟩ := bounds_small t (mem_allTypes t) st.bitLength (by omega) h1 (fun hv => by
    obtain ⟨n, hn⟩ := h3 hv; omega)
  unfold updateMinMax at h
  rw [ha, hb] at h
  simp only [Res.bind_ok] at h
  have hLoI : interp t lo = loBound t st.bitLength := by
    rw [hc]; unfold interp
    split
    · rename_i ht
      have : loBound t st.bitLength = 0 := by rcases ht with rfl | rfl <;> rfl
      rw [this]; rfl
    · rfl
  split at h
  · rename_i h0
    simp only [Res.pure_eq, Res.ok.injEq] at h
    subst h
    simp only at hlo hhi h0
    rw [hLoI] at hlo; rw [hd] at hhi
    omega
  · rename_i hne
    rw [Res.bind_eq_ok] at h
    obtain ⟨⟨⟩, hchk, h⟩ := h
    by_cases hs : Signed t
    · have hu : isUnsigned t = false := by
        cases hx : isUnsigned t with
        | false => rfl
        | true => exact absurd hs ((unsigned_iff t).1 hx)
      have hi' : ∀ x, interp t x = x := by
        intro x; unfold interp; rw [if_neg]
        rintro (rfl | rfl) <;> revert hs <;> decide
      rw [hu] at h
      simp only [Bool.not_false, if_true] at h
      rw [Res.bind_eq_ok] at h
      obtain ⟨mn, hmn, h⟩ := h
      rw [Res.bind_eq_ok] at h
      obtain ⟨mx, hmx, h⟩ := h
      simp only [Res.pure_eq, Res.ok.injEq] at h
      subst h
      simp only [hi'] at hlo hhi hd hLoI
      have hlo64 : i64Min ≤ lo := by
        rw [hc]; unfold loBound; rw [if_pos hs]
        have : valueBits t st.bitLength ≤ 64 := Nat.min_le_right _ _
        have : (2:Int) ^ (valueBits t st.bitLength - 1) ≤ 2 ^ 63 := by
          exact_mod_cast Nat.pow_le_pow_right (by decide) (by omega)
        omega
      have m1 := minS hmn hlo64
      have m2 := maxS hmx
      omega
    · have hu : isUnsigned t = true := (unsigned_iff t).2 hs
      have hsm := hsmall hs
      rw [hu] at h
      simp only [Bool.not_true, Bool.false_eq_true, if_false, Res.pure_eq, Res.ok.injEq] at h
      subst h
      simp only at hlo hhi
      have hl0 : loBound t st.bitLength = 0 := by unfold loBound; rw [if_neg hs]
      have hlo0 : lo = 0 := by rw [hc, hl0]
      have hhb : 0 ≤ hiBound t st.bitLength ∧ hiBound t st.bitLength < 2 ^ 64 := by
        unfold hiBound; rw [if_neg hs]
        have hv : valueBits t st.bitLength ≤ 64 := Nat.min_le_right _ _
        have : (2:Int) ^ (valueBits t st.bitLength) ≤ 2 ^ 64 := by
          exact_mod_cast Nat.pow_le_pow_right (by decide) hv
        have : (1:Int) ≤ 2 ^ (valueBits t st.bitLength) := by
          exact_mod_cast Nat.one_le_two_pow
        omega
      have hcu : (castU64 hi : Int) = hiBound t st.bitLength := by
        rw [← hd]; unfold interp castU64
        split
        · omega
        · rename_i hnb
          rw [interp, if_neg hnb] at hd
          have : hi % 18446744073709551616 = hi := by omega
          omega
      rw [hl0]
      have hC64 : castU64 hi < 2 ^ 64 := by omega
      have hM := maxU hC64 (off := st.serOffset) (by omega) hoff.1
      have hm := minU (off := st.serOffset) hoff.1
      have hz : castU64 lo = 0 := by rw [hlo0]; decide
      have hsmallT : ¬ (t = .uint64 ∨ t = .uintvar) → hiBound t st.bitLength < 2 ^ 32 ∧
          -4294967295 < st.serOffset ∧ st.serOffset < 4294967295 := by
        intro hn
        refine ⟨?_, check_small (st := { st with typeMin := minTypeValue t, typeMax := maxTypeValue t, min := lo, max := hi })
          hs hn rfl rfl hchk⟩
        unfold hiBound; rw [if_neg hs]
        have : valueBits t st.bitLength ≤ 32 := by
          unfold valueBits
          have : ¬ VarLen t := by
            intro hv; rcases hv with rfl | rfl
            · exact absurd (by decide) hs
            · simp at hn
          rw [if_neg this]
          have : maxTypeLength t ≤ 4 := by
            revert hn hs; cases t <;> decide
          omega
        have : (2:Int) ^ (valueBits t st.bitLength) ≤ 2 ^ 32 := by
          exact_mod_cast Nat.pow_le_pow_right (by decide) this
        omega
      rw [hz] at hlo
      rw [interp_castI64 (by omega) (fun hn => by have := hsmallT hn; split at hm <;> omega)] at hlo
      rw [interp_castI64 hM.2.1 (fun hn => by have := hsmallT hn; omega)] at hhi
      split at hm <;> omega

/-- Refutation of the full claim: a one byte `uintvar` (wire values 0..127) with offset 200 is accepted and gets the valid value range
    0..2^64-73, whose wire values do not fit. -/
theorem C13_offset_wraps_witness :
    ∃ st', updateMinMax .uintvar { type := some .uintvar, length := 1, bitLength := 8, serOffset := 200 } = .ok st' ∧
      interp .uintvar st'.max = 2 ^ 64 - 73 ∧ hiBound .uintvar 8 = 127 :=
  ⟨_, rfl, by decide, by decide⟩

/-- Refutation of "no undefined behaviour": offset -2^63 on a narrow type. -/
theorem C13_offset_undefined_witness :
    updateMinMax .int8 { type := some .int8, length := 1, bitLength := 8, serOffset := -9223372036854775808 } = .ub := by
  decide +kernel

/-- With a non-zero number of bits and any other offset the computation of the bounds is free of undefined behaviour. -/
theorem C13_no_undefined_partial (t : IntType) (st : State) (hb : WireBits t st.bitLength)
    (hoff : i64Min < st.serOffset ∧ st.serOffset ≤ i64Max) : updateMinMax t st ≠ .ub := by
  have e1 : i64Min = -9223372036854775808 := rfl
  have e2 : i64Max = 9223372036854775807 := rfl
  obtain ⟨h1, h2, h3⟩ := hb
  obtain ⟨lo, hi, ha, hb, hc, hd, hil, hih⟩ := bounds_small t (mem_allTypes t) st.bitLength (by omega) h1 (fun hv => by
    obtain ⟨n, hn⟩ := h3 hv; omega)
  unfold updateMinMax
  rw [ha, hb]
  simp only [Res.bind_ok]
  split
  · simp
  · have hchk : checkSerOffset t { st with typeMin := minTypeValue t, typeMax := maxTypeValue t, min := lo, max := hi } ≠ .ub := by
      unfold checkSerOffset
      split
      · simp
      · rw [if_neg (by simp only; omega)]
        split <;> simp
    cases hk : checkSerOffset t { st with typeMin := minTypeValue t, typeMax := maxTypeValue t, min := lo, max := hi } with
    | ub => exact absurd hk hchk
    | err => simp
    | ok u =>
      simp only [Res.bind_ok]
      split
      · rename_i hs
        have hs : Signed t := by
          by_cases h : Signed t
          · exact h
          · rw [(unsigned_iff t).2 h] at hs; simp at hs
        have hvb : 1 ≤ valueBits t st.bitLength ∧ valueBits t st.bitLength ≤ 64 := by
          refine ⟨?_, Nat.min_le_right _ _⟩
          unfold valueBits
          by_cases hv : VarLen t
          · rw [if_pos hv]; obtain ⟨n, hn⟩ := h3 hv; omega
          · rw [if_neg hv]; omega
        have hp : (1:Int) ≤ 2 ^ (valueBits t st.bitLength - 1) := by exact_mod_cast Nat.one_le_two_pow
        have hp2 : (2:Int) ^ (valueBits t st.bitLength - 1) ≤ 2 ^ 63 := by
          exact_mod_cast Nat.pow_le_pow_right (by decide) (by omega)
        have hlo : lo ≤ -1 ∧ i64Min ≤ lo := by rw [hc]; unfold loBound; rw [if_pos hs]; omega
        have hhi : 0 ≤ hi := by
          have hi' : interp t hi = hi := by
            unfold interp; rw [if_neg]
            rintro (rfl | rfl) <;> revert hs <;> decide
          rw [← hi', hd]; unfold hiBound; rw [if_pos hs]; omega
        have h5 : ∃ r, minUpdateS st.serOffset lo = .ok r := by
          unfold minUpdateS subI64
          split
          · rw [if_neg (by omega)]; exact ⟨_, rfl⟩
          · split
            · rw [if_neg (by omega)]; exact ⟨_, rfl⟩
            · exact ⟨_, rfl⟩
        have h6 : ∃ r, maxUpdateS st.serOffset hi = .ok r := by
          unfold maxUpdateS subI64
          split
          · split
            · rw [if_neg (by omega)]; exact ⟨_, rfl⟩
            · exact ⟨_, rfl⟩
          · rw [if_neg (by omega)]; exact ⟨_, rfl⟩
        obtain ⟨r, hr⟩ := h5
        obtain ⟨r', hr'⟩ := h6
        simp [hr, hr']
      · simp

/-- The usual case: a year counted from 2000 in one byte. -/
example : ∃ st', updateMinMax .uint16 { type := some .uint16, length := 1, bitLength := 8, serOffset := -2000 } = .ok st' ∧
    st'.min = 2000 ∧ st'.max = 2255 ∧ WireBits .uint16 8 := by
  refine ⟨_, rfl, by decide, by decide, by decide, by decide, fun h => ?_⟩
  rcases h with h | h <;> cases h

end Commsdsl.Props
