import Verif.Model.GenWire
import Verif.Spec.Wire
import Verif.Props.GenTypes
import Verif.Props.GenNum
import Verif.Props.EnumField
import Verif.Props.SetField
/-!
# Property C100: options about serialisation of numeric fields
-/
namespace Commsdsl.Props
open Commsdsl Text IntF Gen Spec

namespace WireProofs

theorem two_pow (n : Nat) (h : 0 < n) : (2 : Int) ^ n = 2 * 2 ^ (n - 1) := by
  obtain ⟨m, rfl⟩ : ∃ m, n = m + 1 := ⟨n - 1, by omega⟩
  rw [Int.pow_succ]; simp; omega

theorem pow_pos (n : Nat) : (0 : Int) < 2 ^ n := Int.pow_pos (by omega)

theorem signedOf_mod {n : Nat} (h : 0 < n) {x : Int} (h1 : -(2 ^ (n - 1)) ≤ x) (h2 : x ≤ 2 ^ (n - 1) - 1) : signedOf n (x % 2 ^ n) = x := by
  unfold signedOf
  rw [two_pow n h]
  have hp := pow_pos (n - 1)
  generalize (2 : Int) ^ (n - 1) = p at *
  by_cases h0 : 0 ≤ x
  · rw [Int.emod_eq_of_lt h0 (by omega)]
    rw [if_pos (by omega)]
  · have : x % (2 * p) = x + 2 * p := by
      rw [← Int.add_emod_right, Int.emod_eq_of_lt (by omega) (by omega)]
    rw [this, if_neg (by omega)]
    omega

theorem convert_id {ty : CppInt} (h : 0 < ty.2) {x : Int} (hx : CppHolds ty x) : convert ty x = x := by
  unfold convert
  unfold CppHolds at hx
  split
  · rw [if_pos ‹_›] at hx
    exact signedOf_mod h hx.1 hx.2
  · rw [if_neg ‹_›] at hx
    exact Int.emod_eq_of_lt hx.1 (by omega)

/-- Numbers that fit in `n` bits are read back, unless they are negative and not extended. -/
theorem readBack_id {ty : CppInt} (h : 0 < ty.2) {n : Nat} (hn : 0 < n) {ext : Bool} {x : Int} (hx : CppHolds ty x) (hf : CppHolds (ty.1, n) x)
    (hs : ty.1 = true → ext = true ∨ 0 ≤ x) : readBack ty n ext x = x := by
  unfold readBack
  unfold CppHolds at hf
  by_cases hb : (ty.1 && ext) = true
  · rw [if_pos hb]
    simp only [Bool.and_eq_true] at hb
    rw [if_pos hb.1] at hf
    rw [signedOf_mod hn hf.1 hf.2]
    exact convert_id h hx
  · rw [if_neg hb]
    have h0 : 0 ≤ x ∧ x < 2 ^ n := by
      split at hf
      · rename_i h1
        rcases hs h1 with h2 | h2
        · exact absurd (by rw [show ty.1 = true from h1, h2]; rfl) hb
        · have := two_pow n hn
          simp only at hf
          have := pow_pos (n - 1)
          omega
      · simp only at hf; omega
    rw [Int.emod_eq_of_lt h0.1 h0.2]
    exact convert_id h hx

theorem ty_pos (t : IntType) (len : Nat) : 0 < (cppIntType t len).2 := by
  cases t <;> simp only [cppIntType] <;> (try omega) <;> (repeat' split) <;> omega

theorem ty_signed (t : IntType) (len : Nat) : (cppIntType t len).1 = true ↔ Signed t := by
  cases t <;> simp [cppIntType, Signed]

/-- Between the bounds for a number of value bits. -/
theorem holds_bits {t : IntType} {bits n : Nat} {x : Int} (hb : valueBits t bits ≤ n) (h1 : loBound t bits ≤ x) (h2 : x ≤ hiBound t bits)
    {sg : Bool} (hs : sg = true ↔ Signed t) : CppHolds (sg, n) x := by
  unfold CppHolds
  unfold loBound at h1
  unfold hiBound at h2
  by_cases h : Signed t
  · rw [if_pos h] at h1 h2
    rw [if_pos (hs.2 h)]
    have := pow_mono (a := valueBits t bits - 1) (b := n - 1) (by omega)
    simp only; omega
  · rw [if_neg h] at h1 h2
    rw [if_neg (fun c => h (hs.1 c))]
    have := pow_mono hb
    simp only; omega

theorem lit (n : Nat) (h : n < 2 ^ 64) : ∃ sg, CppLit (numToStringU n 0) n sg := C51_unsigned n 0 h

/-- What the length options say. -/
theorem wire_of {t : IntType} {len minLen bits : Nat} {ext : Bool} (h1 : 0 < len) (h2 : len ≤ maxTypeLength t) (hb : bits ≤ 8 * len)
    (hm : minLen = if t = .intvar ∨ t = .uintvar then 1 else len) :
    WireOf (cppIntType t len) (lengthOpts t minLen len bits ext)
      (if VarLen t then .groups 1 len else if bits ≠ 0 then .fixed bits ext else .fixed (8 * len) (ext || decide (len = lengthMap t))) := by
  have hl : len ≤ 10 := by have : maxTypeLength t ≤ 10 := by cases t <;> decide
                           omega
  unfold lengthOpts
  by_cases hv : t = .intvar ∨ t = .uintvar
  · rw [if_pos hv] at hm
    rw [if_pos hv, if_pos (by unfold VarLen; exact hv)]
    obtain ⟨s1, l1⟩ := lit minLen (by omega)
    obtain ⟨s2, l2⟩ := lit len (by omega)
    subst hm
    exact Or.inr ⟨_, rfl, .var l1 l2⟩
  · rw [if_neg hv] at hm
    subst hm
    rw [if_neg hv, if_neg (show ¬ VarLen t from hv)]
    by_cases h0 : bits ≠ 0
    · rw [if_pos h0, if_pos h0]
      obtain ⟨s1, l1⟩ := lit bits (by omega)
      refine Or.inr ⟨_, rfl, ?_⟩
      cases ext
      · have := LengthOpt.bitsNoExt l1
        simpa only [signParam, if_false, Bool.false_eq_true] using this
      · have := LengthOpt.bits l1
        simpa only [signParam, if_true, List.append_nil] using this
    · rw [if_neg h0, if_neg h0]
      obtain ⟨s1, l1⟩ := lit minLen (by omega)
      by_cases he : lengthMap t ≠ minLen
      · rw [if_pos he]
        refine Or.inr ⟨_, rfl, ?_⟩
        rw [decide_eq_false (fun c => he c.symm), Bool.or_false]
        cases ext
        · have := LengthOpt.bytesNoExt l1
          simpa only [signParam, if_false, Bool.false_eq_true] using this
        · have := LengthOpt.bytes l1
          simpa only [signParam, if_true, List.append_nil] using this
      · rw [if_neg he]
        refine Or.inl ⟨rfl, ?_⟩
        rw [decide_eq_true (by omega), Bool.or_true]
        have : 8 * minLen = (cppIntType t minLen).2 := by
          have he : lengthMap t = minLen := by omega
          subst he
          cases t <;> simp [lengthMap, cppIntType] at hv ⊢
        rw [this]

/-- A value that fits is carried. -/
theorem carries {t : IntType} {len bits n : Nat} {ext : Bool} {x : Int} (hl : 0 < len) (hlt : len ≤ maxTypeLength t) (hx1 : loBound t bits ≤ x)
    (hx2 : x ≤ hiBound t bits) (hb : 0 < bits) (hbl : bits ≤ 8 * len) (hn : bits ≤ n) (hs : Signed t → ext = true ∨ 0 ≤ x) :
    CppHolds (cppIntType t len) x ∧ Carries (cppIntType t len) x (if VarLen t then .groups 1 len else .fixed n ext) := by
  have hvb : valueBits t bits ≤ (cppIntType t len).2 := by
    unfold valueBits VarLen
    cases t <;> simp [maxTypeLength, cppIntType] at hlt ⊢ <;> (try (repeat' split)) <;> omega
  have hh : CppHolds (cppIntType t len) x := holds_of hvb hx1 hx2
  refine ⟨hh, ?_⟩
  have hs' : (cppIntType t len).1 = true → ext = true ∨ 0 ≤ x := fun c => hs ((ty_signed t len).1 c)
  by_cases hv : VarLen t
  · rw [if_pos hv]
    refine ⟨len, by omega, by omega, readBack_id (ty_pos t len) (by omega) hh (holds_bits (bits := bits) ?_ hx1 hx2 (ty_signed t len)) (fun _ => Or.inl rfl)⟩
    unfold valueBits
    rw [if_pos hv]
    omega
  · rw [if_neg hv]
    refine readBack_id (ty_pos t len) (by omega) hh (holds_bits (bits := bits) ?_ hx1 hx2 (ty_signed t len)) hs'
    unfold valueBits
    rw [if_neg hv]
    omega

theorem survives_of {ty : CppInt} {off x v : Int} {w : Wire} (hp : 0 < ty.2) (hv : CppHolds ty v) (hx : CppHolds ty x) (he : x = v + off) (hc : Carries ty x w) :
    Survives ty off w v := by
  refine ⟨x, ?_, hc, ?_⟩
  · rw [← he]; exact (convert_id hp hx).symm
  · have : x - off = v := by omega
    rw [this]; exact convert_id hp hv

theorem num_opt {name : String} {v : Int} (h1 : i64Min < v) (h2 : v ≤ i64Max) : ∃ s, numOpt name v = .ok ["comms::option::def::".toList ++ name.toList ++
    "<".toList ++ s ++ ">".toList] ∧ CppExpr s v := by
  obtain ⟨s, e, hs⟩ := C51_signed_partial v (by unfold i64Min at h1; omega) (by unfold i64Max at h2; omega)
  refine ⟨s, ?_, hs⟩
  unfold numOpt
  rw [e]
  simp only [Res.bind_ok, Res.pure_eq]

end WireProofs

open WireProofs

/-- The options generated for the length of an accepted `<int>` field, on its own or as a member of a bitfield, make it occupy the bits counted by the parser (1 up
    to its length in groups of 7 bits for variable lengths), and every value between its bounds that the C++ type holds survives being written and read. Missing
    from the full claim: unsigned types with an offset above the largest wire value (see `C13_offset_wraps_witness`). A signed field that is declared not to be
    extended (`signExt="false"`) keeps wire values that are not negative, which is its meaning. -/
theorem C100_int_partial (st : IntF.State) (h : IntF.Accepted st) (h0 : 0 < st.bitLength) (t : IntType) (ht : st.type = some t) (member : Bool) :
    ∃ w, WireOf (cppIntType t st.length) (intLengthOpts t st member) w ∧
      (¬ VarLen t → ∃ e, w = .fixed (if member then st.bitLength else 8 * st.length) e) ∧ (VarLen t → w = .groups 1 st.length) ∧
      ∀ v, interp t st.min ≤ v → v ≤ interp t st.max → CppHolds (cppIntType t st.length) v → (¬ Signed t → st.serOffset ≤ hiBound t st.bitLength) →
        (Signed t → st.signExt = true ∨ 0 ≤ v + st.serOffset) → Survives (cppIntType t st.length) st.serOffset w v := by
  obtain ⟨t', ht', hl0, hl, hb, hw⟩ := C09_accepted_length st h
  rw [ht] at ht'
  cases ht'
  have hwire := wire_of (t := t) (len := st.length) (minLen := IntF.minLength st) (bits := if member then st.bitLength else 0) (ext := st.signExt) hl0 hl
    (by split <;> omega) (by unfold IntF.minLength; rw [ht]; simp only [Option.some.injEq])
  refine ⟨_, hwire, ?_, ?_, ?_⟩
  · intro hv
    rw [if_neg hv]
    cases member
    · simp
    · simp only [if_true]
      rw [if_pos (by omega)]
      exact ⟨_, rfl⟩
  · intro hv
    rw [if_pos hv]
  · intro v hv1 hv2 hvs hsm hse
    obtain ⟨hx1, hx2⟩ := C13_accepted_partial st h h0 t ht hsm v hv1 hv2
    cases member
    · simp only [Bool.false_eq_true, if_false, ne_eq, not_true]
      obtain ⟨a, c⟩ := carries (n := 8 * st.length) (ext := st.signExt || decide (st.length = lengthMap t)) hl0 hl hx1 hx2 h0 hb hb
        (fun hs => (hse hs).elim (fun e => Or.inl (by simp [e])) Or.inr)
      exact survives_of (ty_pos _ _) hvs a rfl c
    · simp only [if_true]
      rw [if_pos (by omega : st.bitLength ≠ 0)]
      obtain ⟨a, c⟩ := carries (n := st.bitLength) (ext := st.signExt) hl0 hl hx1 hx2 h0 hb (Nat.le_refl _) hse
      exact survives_of (ty_pos _ _) hvs a rfl c

/-- The same for `<enum>` fields: every value that fits in the bits of the field survives. (That declared values fit is not checked, see `C16_length_witness`.) -/
theorem C100_enum (b : Bool) (st : EnumF.State) (h : EnumF.Accepted b st) (h0 : 0 < st.num.bitLength) (t : IntType) (ht : st.num.type = some t)
    (member : Bool) :
    ∃ w, WireOf (cppIntType t st.num.length) (enumLengthOpts t st member) w ∧
      (¬ VarLen t → w = .fixed (if member then st.num.bitLength else 8 * st.num.length) true) ∧ (VarLen t → w = .groups 1 st.num.length) ∧
      ∀ v, loBound t st.num.bitLength ≤ v → v ≤ hiBound t st.num.bitLength → Survives (cppIntType t st.num.length) 0 w v := by
  obtain ⟨t', ht', hl0, hl, hb⟩ := C16_accepted_length b st h
  rw [ht] at ht'
  cases ht'
  have hwire := wire_of (t := t) (len := st.num.length) (minLen := IntF.minLength st.num) (bits := if member then st.num.bitLength else 0) (ext := true) hl0 hl
    (by split <;> omega) (by unfold IntF.minLength; rw [ht]; simp only [Option.some.injEq])
  refine ⟨_, hwire, ?_, ?_, ?_⟩
  · intro hv
    rw [if_neg hv]
    cases member
    · simp
    · simp only [if_true]
      rw [if_pos (by omega)]
  · intro hv
    rw [if_pos hv]
  · intro v hv1 hv2
    cases member
    · simp only [Bool.false_eq_true, if_false, ne_eq, not_true]
      obtain ⟨a, c⟩ := carries (n := 8 * st.num.length) (ext := true || decide (st.num.length = lengthMap t)) hl0 hl hv1 hv2 h0 hb hb
        (fun _ => Or.inl (by simp))
      exact survives_of (ty_pos _ _) a a (by omega) c
    · simp only [if_true]
      rw [if_pos (by omega : st.num.bitLength ≠ 0)]
      obtain ⟨a, c⟩ := carries (n := st.num.bitLength) (ext := true) hl0 hl hv1 hv2 h0 hb (Nat.le_refl _) (fun _ => Or.inl rfl)
      exact survives_of (ty_pos _ _) a a (by omega) c

/-- A `<set>` of an unsigned type of fixed width occupies its bytes, or its bits in a bitfield, and every combination of those bits survives. -/
theorem C100_set (st : SetF.State) (h : SetF.Accepted st) (t : IntType) (ht : st.type = some t) (hv : ¬ VarLen t) (member : Bool) :
    ∃ n, WireOf (cppIntType t st.length) (setLengthOpts st member) (.fixed n true) ∧ n = (if member then st.bitLength else 8 * st.length) ∧
      ∀ v, 0 ≤ v → v < 2 ^ n → Survives (cppIntType t st.length) 0 (.fixed n true) v := by
  obtain ⟨-, hb0, hb, t', ht', hu, hl⟩ := C18_indices_in_bytes st h
  rw [ht] at ht'
  cases ht'
  have hs : ¬ Signed t := by cases t <;> simp [isUnsigned] at hu <;> simp [Signed]
  have hmax : maxTypeLength t ≤ 8 := by cases t <;> simp [VarLen] at hv <;> decide
  refine ⟨_, ?_, rfl, ?_⟩
  · right
    unfold setLengthOpts
    cases member
    · obtain ⟨sg, l⟩ := lit st.length (by omega)
      simp only [Bool.false_and, Bool.false_eq_true, if_false]
      exact ⟨_, rfl, .bytes l⟩
    · obtain ⟨sg, l⟩ := lit st.bitLength (by omega)
      simp only [Bool.true_and, if_true]
      rw [if_pos (by simp; omega)]
      exact ⟨_, rfl, .bits l⟩
  · intro v h1 h2
    have hn : 0 < (if member then st.bitLength else 8 * st.length) ∧ (if member then st.bitLength else 8 * st.length) ≤ 8 * st.length := by
      cases member <;> simp <;> omega
    generalize (if member then st.bitLength else 8 * st.length) = n at *
    have hval : valueBits t n = n := by
      unfold valueBits
      rw [if_neg hv]
      omega
    have h3 : loBound t n ≤ v := by unfold loBound; rw [if_neg hs]; exact h1
    have h4 : v ≤ hiBound t n := by unfold hiBound; rw [if_neg hs, hval]; omega
    obtain ⟨a, c⟩ := carries (len := st.length) (n := n) (ext := true) (by omega) hl h3 h4 hn.1 hn.2 (Nat.le_refl _) (fun _ => Or.inl rfl)
    rw [if_neg hv] at c
    exact survives_of (ty_pos _ _) a a (by omega) c

/-- The option for the offset says the offset of the field. Missing from the full claim: the offset -2^63, for which the generation of the text has undefined
    behaviour (`C100_smallest_witness`). -/
theorem C100_offset_partial (st : IntF.State) (h : i64Min < st.serOffset ∧ st.serOffset ≤ i64Max) :
    ∃ o, serOffsetOpts st = .ok o ∧ NumOpt "NumValueSerOffset" 0 o st.serOffset := by
  unfold serOffsetOpts
  split
  · exact ⟨_, rfl, Or.inl ⟨rfl, ‹_›⟩⟩
  · obtain ⟨s, e, hs⟩ := num_opt (name := "NumValueSerOffset") h.1 h.2
    exact ⟨_, e, Or.inr ⟨s, rfl, hs⟩⟩

/-- The option for the display offset says the display offset of the field. -/
theorem C100_display_partial (st : IntF.State) (h : i64Min < st.displayOffset ∧ st.displayOffset ≤ i64Max) :
    ∃ o, displayOffsetOpts st = .ok o ∧ NumOpt "DisplayOffset" 0 o st.displayOffset := by
  unfold displayOffsetOpts
  split
  · exact ⟨_, rfl, Or.inl ⟨rfl, ‹_›⟩⟩
  · obtain ⟨s, e, hs⟩ := num_opt (name := "DisplayOffset") h.1 h.2
    exact ⟨_, e, Or.inr ⟨s, rfl, hs⟩⟩

/-- The option for the scaling says the ratio of an accepted field. -/
theorem C100_scaling_partial (st : IntF.State) (h : IntF.Accepted st) (h1 : i64Min < st.scaling.1 ∧ st.scaling.1 ≤ i64Max)
    (h2 : i64Min < st.scaling.2 ∧ st.scaling.2 ≤ i64Max) : ∃ o, scalingOpts st = .ok o ∧ RatioOpt o st.scaling.1 st.scaling.2 := by
  unfold scalingOpts
  split
  · rename_i he
    exact ⟨_, rfl, Or.inl ⟨rfl, he.1, he.2⟩⟩
  · obtain ⟨n1, n2⟩ := C15_nonzero st h
    rw [if_neg (by rintro (c | c) <;> contradiction)]
    obtain ⟨a, ea, ha⟩ := C51_signed_partial st.scaling.1 (by unfold i64Min at h1; omega) (by unfold i64Max at h1; omega)
    obtain ⟨b, eb, hb⟩ := C51_signed_partial st.scaling.2 (by unfold i64Min at h2; omega) (by unfold i64Max at h2; omega)
    rw [ea, eb]
    exact ⟨_, rfl, Or.inr ⟨a, b, rfl, ha, hb⟩⟩

theorem WireProofs.nonZero {t : IntType} {d : Int} (h1 : i64Min < d) (h2 : d ≤ i64Max) (hlo : typeLo t ≤ interp t d) :
    ∃ o, nonZeroDefault t d = .ok o ∧ InitOpt o (interp t d) := by
  unfold nonZeroDefault
  unfold i64Min at h1
  unfold i64Max at h2
  split
  · rename_i h0
    subst h0
    exact ⟨_, rfl, Or.inl (Or.inl ⟨rfl, by unfold interp; split <;> simp⟩)⟩
  · split
    · rename_i h3
      obtain ⟨sg, l⟩ := lit (castU64 d) (by unfold castU64; omega)
      refine ⟨_, rfl, Or.inr ⟨_, _, _, rfl, l, ?_⟩⟩
      unfold interp
      rw [if_pos h3.2]
      unfold castU64
      omega
    · rename_i h0 h3
      have he : interp t d = d := by
        unfold interp
        split
        · rename_i ht
          have : 0 ≤ d := by
            apply Classical.byContradiction
            intro c
            exact h3 ⟨by omega, ht⟩
          omega
        · rfl
      rw [he]
      obtain ⟨s, e, hs⟩ := num_opt (name := "DefaultNumValue") (v := d) (by unfold i64Min; omega) (by unfold i64Max; omega)
      exact ⟨_, e, Or.inl (Or.inr ⟨s, rfl, hs⟩)⟩

/-- A field of the generated class has, after construction, the declared default value; a field with the semantic type "version" and no default value has the version
    of the schema. Missing from the full claim: the default value -2^63. -/
theorem C100_default_partial (g : GVer) (hg : g.version < 2 ^ 32) (sem : Fld.Sem) (st : IntF.State) (h : IntF.Accepted st) (t : IntType) (ht : st.type = some t)
    (h1 : i64Min < st.default ∧ st.default ≤ i64Max) :
    ∃ o, intDefaultOpts g sem t st = .ok o ∧ InitOpt o (if st.default = 0 ∧ sem = .version then (g.version : Int) else interp t st.default) := by
  unfold intDefaultOpts
  split
  · obtain ⟨sg, l⟩ := lit g.version (by omega)
    refine ⟨_, rfl, Or.inl (Or.inr ⟨numToStringU g.version 0, ?_, Or.inl ⟨_, _, l, rfl⟩⟩)⟩
    rfl
  · obtain ⟨t', ht', hd, -⟩ := C10_default_specials_of_type_partial st h
    rw [ht] at ht'
    cases ht'
    exact WireProofs.nonZero h1.1 h1.2 hd.1

/-- The same for enums, which have no version semantic. -/
theorem C100_enum_default_partial (b : Bool) (st : EnumF.State) (h : EnumF.Accepted b st) (t : IntType) (ht : st.num.type = some t)
    (h1 : i64Min < st.num.default ∧ st.num.default ≤ i64Max) : ∃ o, enumDefaultOpts t st = .ok o ∧ InitOpt o (interp t st.num.default) := by
  obtain ⟨t', ht', -, -, hd, -⟩ := C16_values_of_type_partial b st h
  rw [ht] at ht'
  cases ht'
  exact WireProofs.nonZero h1.1 h1.2 hd

/-- The byte order of the generated field class is the declared one. -/
theorem C100_order (schema field : Endian) : OrderOf schema (fieldBaseParams schema field) field := by
  unfold fieldBaseParams
  by_cases h : schema = field
  · rw [if_pos h]
    exact Or.inl ⟨rfl, h.symm⟩
  · rw [if_neg h]
    refine Or.inr ?_
    cases field
    · exact Or.inl ⟨rfl, rfl⟩
    · exact Or.inr ⟨rfl, rfl⟩

/-! ## References -/

/-- A `<ref>` in a bitfield to an `<int>` field that is extended with its sign occupies the bits of the reference, and every value that fits in those bits and
    is in the bounds of the type survives. Missing from the full claim: fields with `signExt="false"`, see `C100_ref_witness`. -/
theorem C100_ref_partial (st : IntF.State) (h : IntF.Accepted st) (t : IntType) (ht : st.type = some t) (hv : ¬ VarLen t) (bits : Nat) (hb : 0 < bits)
    (hl : bits ≤ 8 * st.length) : WireOf (cppIntType t st.length) (refLengthOpts bits true) (.fixed bits true) ∧
      ∀ x, loBound t bits ≤ x → x ≤ hiBound t bits → Carries (cppIntType t st.length) x (.fixed bits true) := by
  obtain ⟨t', ht', hl0, hlt, -, -⟩ := C09_accepted_length st h
  rw [ht] at ht'
  cases ht'
  have hm : maxTypeLength t ≤ 10 := by cases t <;> decide
  constructor
  · obtain ⟨sg, l⟩ := lit bits (by omega)
    right
    unfold refLengthOpts
    simp only [Bool.true_and]
    rw [if_pos (by simp; omega)]
    exact ⟨_, rfl, .bits l⟩
  · intro x h1 h2
    have := (carries (len := st.length) (n := bits) (ext := true) hl0 hlt h1 h2 hb hl (Nat.le_refl _) (fun _ => Or.inl rfl)).2
    rwa [if_neg hv] at this

private def ctx (attrs : List (Str × Str)) (bitfieldMember : Bool := false) : Ctx :=
  { node := .elem "int".toList attrs [], props := attrs, since := 0, depr := Versions.notYet, bitfieldMember := bitfieldMember }
private def env0 : Env := { dsl := 7, schemaVersion := 0, schemaEndian := .little, strToNumeric := fun _ => none }

/-- Refutation for fields with `signExt="false"`: as a member of 4 bits itself, such a field keeps 12; the option generated for a reference with 4 bits to it
    does not say so, and -4 is read. -/
theorem C100_ref_witness : ∃ st, IntF.Accepted st ∧ st.type = some .int8 ∧ st.signExt = false ∧ st.bitLength = 4 ∧
    WireOf (cppIntType .int8 1) (intLengthOpts .int8 st true) (.fixed 4 false) ∧ WireOf (cppIntType .int8 1) (refLengthOpts 4 true) (.fixed 4 true) ∧
    readBack (cppIntType .int8 1) 4 false 12 = 12 ∧ readBack (cppIntType .int8 1) 4 true 12 = -4 := by
  have h : okWith (parseImpl env0 (ctx [("type".toList, "int8".toList), ("bitLength".toList, "4".toList), ("signExt".toList, "false".toList)] true) (initState env0))
      (fun st => decide (st.type = some .int8 ∧ st.signExt = false ∧ st.bitLength = 4)) = true := by decide +kernel
  obtain ⟨st, h1, h2⟩ := okWith_spec h
  obtain ⟨a, b, c⟩ := of_decide_eq_true h2
  obtain ⟨sg, l⟩ := lit 4 (by omega)
  refine ⟨st, .fresh h1, a, b, c, Or.inr ⟨_, ?_, .bitsNoExt l⟩, Or.inr ⟨_, ?_, .bits l⟩, by decide, by decide⟩
  · unfold intLengthOpts lengthOpts
    rw [b, c]
    rfl
  · rfl

/-- Refutation for the smallest number: for the default value, the offset and the scaling -2^63, all accepted, the text is computed with undefined behaviour. -/
theorem C100_smallest_witness :
    (∃ st, IntF.Accepted st ∧ st.type = some .int64 ∧ intDefaultOpts { parsed := 3 } .none .int64 st = .ub) ∧
    (∃ st, IntF.Accepted st ∧ st.type = some .int64 ∧ displayOffsetOpts st = .ub) ∧
    (∃ st, IntF.Accepted st ∧ st.type = some .int64 ∧ scalingOpts st = .ub) ∧
    ∃ st, IntF.Accepted st ∧ st.type = some .int64 ∧ serOffsetOpts st = .ub := by
  have key : ∀ (attrs : List (Str × Str)) (p : IntF.State → Prop) [DecidablePred p],
      okWith (parseImpl env0 (ctx attrs) (initState env0)) (fun st => decide (st.type = some .int64 ∧ p st)) = true →
      ∃ st, IntF.Accepted st ∧ st.type = some .int64 ∧ p st := by
    intro attrs p _ h
    obtain ⟨st, h1, h2⟩ := okWith_spec h
    exact ⟨st, .fresh h1, of_decide_eq_true h2⟩
  refine ⟨key [("type".toList, "int64".toList), ("defaultValue".toList, "-9223372036854775808".toList)] (fun st => intDefaultOpts { parsed := 3 } .none .int64 st = .ub)
      (by decide +kernel),
    key [("type".toList, "int64".toList), ("displayOffset".toList, "-9223372036854775808".toList)] (fun st => displayOffsetOpts st = .ub) (by decide +kernel),
    key [("type".toList, "int64".toList), ("scaling".toList, "1/-9223372036854775808".toList)] (fun st => scalingOpts st = .ub) (by decide +kernel),
    key [("type".toList, "int64".toList), ("serOffset".toList, "-9223372036854775808".toList)] (fun st => serOffsetOpts st = .ub) (by decide +kernel)⟩

/-! ## Examples -/

/-- A 3 byte signed field with an offset meets the hypotheses of `C100_int_partial`; -100000 survives. -/
example : ∃ st, IntF.Accepted st ∧ st.type = some .int32 ∧ 0 < st.bitLength ∧ intLengthOpts .int32 st false = ["comms::option::def::FixedLength<3>".toList] ∧
    serOffsetOpts st = .ok ["comms::option::def::NumValueSerOffset<5>".toList] ∧ interp .int32 st.min ≤ -100000 ∧ -100000 ≤ interp .int32 st.max ∧
    CppHolds (cppIntType .int32 st.length) (-100000) ∧ intDefaultOpts { parsed := 3 } .none .int32 st = .ok ["comms::option::def::DefaultNumValue<-7>".toList] := by
  have h : okWith (parseImpl env0 (ctx [("type".toList, "int32".toList), ("length".toList, "3".toList), ("serOffset".toList, "5".toList),
      ("defaultValue".toList, "-7".toList)]) (initState env0))
      (fun st => decide (st.type = some .int32 ∧ 0 < st.bitLength ∧ intLengthOpts .int32 st false = ["comms::option::def::FixedLength<3>".toList] ∧
        serOffsetOpts st = .ok ["comms::option::def::NumValueSerOffset<5>".toList] ∧ st.min ≤ -100000 ∧ -100000 ≤ st.max ∧ st.length = 3 ∧
        intDefaultOpts { parsed := 3 } .none .int32 st = .ok ["comms::option::def::DefaultNumValue<-7>".toList])) = true := by decide +kernel
  obtain ⟨st, h1, h2⟩ := okWith_spec h
  obtain ⟨a, b, c, d, e, f, g, i⟩ := of_decide_eq_true h2
  exact ⟨st, .fresh h1, a, b, c, d, e, f, by rw [g]; unfold CppHolds; decide, i⟩

example : lengthOpts .uintvar 1 3 0 true = ["comms::option::def::VarLength<1, 3>".toList] ∧
    lengthOpts .int16 2 2 5 false = ["comms::option::def::FixedBitLength<5, false>".toList] ∧ lengthOpts .uint16 2 2 0 true = [] ∧
    nonZeroDefault .uint64 (-1) = .ok ["comms::option::def::DefaultBigUnsignedNumValue<0xFFFFFFFFFFFFFFFFULL>".toList] ∧
    fieldBaseParams .little .big = "comms::option::def::BigEndian".toList := by decide +kernel

end Commsdsl.Props
