import Verif.Spec.GenScope
import Verif.Lemmas.StrOrder
import Verif.Lemmas.Sort
import Verif.Props.IntField
import Verif.Props.EnumField
/-!
# C58, C59: storage types and include statements of generated code
-/
namespace Commsdsl.Props
open Commsdsl Text Fld Msg Gen Spec

/-! ## C59 -/

theorem sorted_unique {a b : List Str} (ha : a.Pairwise (· < ·)) (hb : b.Pairwise (· < ·)) (h : ∀ x, x ∈ a ↔ x ∈ b) : a = b := by
  induction a generalizing b with
  | nil =>
    cases b with
    | nil => rfl
    | cons y ys => exact absurd ((h y).2 (by simp)) (by simp)
  | cons x xs ih =>
    cases b with
    | nil => exact absurd ((h x).1 (by simp)) (by simp)
    | cons y ys =>
      obtain ⟨hx, hxs⟩ := List.pairwise_cons.1 ha
      obtain ⟨hy, hys⟩ := List.pairwise_cons.1 hb
      have hxy : x = y := by
        rcases List.mem_cons.1 ((h x).1 (by simp)) with e | e
        · exact e
        · rcases List.mem_cons.1 ((h y).2 (by simp)) with e' | e'
          · exact e'.symm
          · exact absurd (str_trans (hx y e') (hy x e)) (str_irrefl x)
      subst hxy
      congr 1
      refine ih hxs hys fun z => ?_
      constructor
      · intro hz
        rcases List.mem_cons.1 ((h z).1 (by simp [hz])) with rfl | e
        · exact absurd (hx z hz) (str_irrefl z)
        · exact e
      · intro hz
        rcases List.mem_cons.1 ((h z).2 (by simp [hz])) with rfl | e
        · exact absurd (hy z hz) (str_irrefl z)
        · exact e

theorem raw_sorted (l : List Str) : (uniqueAdj (sortBy strLt l)).Pairwise (· < ·) ∧ ∀ x, x ∈ uniqueAdj (sortBy strLt l) ↔ x ∈ l :=
  ⟨uniqueAdj_sorted _ (sorted_strs l), fun x => by rw [uniqueAdj_mem, mem_sortBy]⟩

/-- The result does not depend on the order and number of occurrences of the headers that were collected. -/
theorem C59_order_irrelevant (a b : List Str) (h : ∀ x, x ∈ a ↔ x ∈ b) : prepareIncludes a = prepareIncludes b := by
  unfold prepareIncludes
  rw [sorted_unique (raw_sorted a).1 (raw_sorted b).1 fun x => by rw [(raw_sorted a).2, (raw_sorted b).2, h]]

/-- Header names as they are collected: not empty, no directive, no quotes. -/
def HeaderName (i : Str) : Prop := ∃ c t, i = c :: t ∧ c ≠ '#' ∧ c ≠ '"'

/-- The directive that includes a header. -/
def directive (i : Str) : Str := if i.head? = some '<' then "#include ".toList ++ i else "#include \"".toList ++ i ++ "\"".toList

theorem include_eq {i : Str} (h : HeaderName i) : includeText i = directive i := by
  obtain ⟨c, t, rfl, h1, h2⟩ := h
  unfold includeText directive
  split
  · simp at *
  · rename_i heq; simp only [List.cons.injEq] at heq; exact absurd heq.1 h1
  · rename_i heq; simp only [List.cons.injEq] at heq; simp [heq.1]
  · rename_i hx
    have : c ≠ '<' := by rintro rfl; exact hx _ rfl
    simp [this]

theorem directive_inj {a b : Str} (ha : HeaderName a) (hb : HeaderName b) (h : directive a = directive b) : a = b := by
  unfold directive at h
  obtain ⟨c, t, rfl, h1, h2⟩ := ha
  obtain ⟨d, u, rfl, h3, h4⟩ := hb
  split at h <;> split at h
  · exact List.append_cancel_left h
  · exfalso
    rename_i hc _
    simp only [List.head?_cons, Option.some.injEq] at hc
    subst hc
    have := congrArg (fun l : Str => l[9]?) h
    exact absurd (show some '<' = some '"' from this) (by decide)
  · exfalso
    rename_i _ hc
    simp only [List.head?_cons, Option.some.injEq] at hc
    subst hc
    have := congrArg (fun l : Str => l[9]?) h
    exact absurd (show some '"' = some '<' from this) (by decide)
  · exact List.append_cancel_left (List.append_cancel_right h)

/-- Every collected header is included exactly once, nothing else is, in the order of the header names. -/
theorem C59_exactly_once (l : List Str) (hl : ∀ i ∈ l, HeaderName i) :
    (∃ names : List Str, names.Pairwise (· < ·) ∧ (∀ x, x ∈ names ↔ x ∈ l) ∧ prepareIncludes l = names.map directive) ∧
      (prepareIncludes l).Nodup := by
  have hr := raw_sorted l
  have he : prepareIncludes l = (uniqueAdj (sortBy strLt l)).map directive := by
    unfold prepareIncludes
    refine List.map_congr_left fun x hx => include_eq (hl x ((hr.2 x).1 hx))
  refine ⟨⟨_, hr.1, hr.2, he⟩, ?_⟩
  rw [he]
  unfold List.Nodup
  rw [List.pairwise_map]
  refine List.Pairwise.imp_of_mem ?_ hr.1
  intro a b ha hb hab hd
  rw [directive_inj (hl a ((hr.2 a).1 ha)) (hl b ((hr.2 b).1 hb)) hd] at hab
  exact str_irrefl b hab

/-- What is collected may be a whole directive already, which is kept; and nothing is included for an empty name. -/
theorem C59_directives (l : List Str) :
    ∃ names : List Str, names.Pairwise (· < ·) ∧ (∀ x, x ∈ names ↔ x ∈ l) ∧
      prepareIncludes l = names.map fun i => if i = [] ∨ i.head? = some '#' then i else directive i := by
  have hr := raw_sorted l
  refine ⟨_, hr.1, hr.2, List.map_congr_left fun x _ => ?_⟩
  unfold includeText directive
  split
  · simp
  · simp
  · simp
  · rename_i h1 h2 h3
    have : ¬ (x = [] ∨ x.head? = some '#') := by
      rintro (rfl | h)
      · exact h1 rfl
      · cases x with
        | nil => cases h
        | cons c t => simp at h; subst h; exact h2 t rfl
    have h4 : x.head? ≠ some '<' := by
      intro h
      cases x with
      | nil => cases h
      | cons c t => simp at h; subst h; exact h3 t rfl
    rw [if_neg this, if_neg h4]
    simp

example : prepareIncludes ["S/B.h".toList, "<cstdint>".toList, "S/A.h".toList, "S/B.h".toList] =
    ["#include <cstdint>".toList, "#include \"S/A.h\"".toList, "#include \"S/B.h\"".toList] := by decide +kernel

/-! ## C58 -/

open IntF in
theorem pow_mono {a b : Nat} (h : a ≤ b) : (2 : Int) ^ a ≤ 2 ^ b := by
  have := Nat.pow_le_pow_right (n := 2) (by omega) h
  exact_mod_cast this

open IntF in
theorem holds_of {t : IntType} {bits len : Nat} (hb : valueBits t bits ≤ (cppIntType t len).2) {v : Int} (h1 : loBound t bits ≤ v)
    (h2 : v ≤ hiBound t bits) : CppHolds (cppIntType t len) v := by
  have hs : (cppIntType t len).1 = decide (Signed t) := by cases t <;> simp [cppIntType, Signed]
  unfold CppHolds
  unfold loBound at h1
  unfold hiBound at h2
  rw [hs]
  by_cases h : Signed t
  · rw [if_pos h] at h1 h2
    rw [if_pos (by simpa using h)]
    have := pow_mono (a := valueBits t bits - 1) (b := (cppIntType t len).2 - 1) (by omega)
    omega
  · rw [if_neg h] at h1 h2
    rw [if_neg (by simpa using h)]
    have := pow_mono hb
    omega

open IntF in
/-- Every value between the bounds of an accepted field without serialisation offset can be stored in the C++ type chosen for it. Missing from
    the full claim: fields with a serialisation offset, see `C58_offset_witness`. -/
theorem C58_storage_fits_partial (st : IntF.State) (h : IntF.Accepted st) (h0 : 0 < st.bitLength) (hs : st.serOffset = 0) :
    ∃ t, st.type = some t ∧ ∀ v, interp t st.min ≤ v → v ≤ interp t st.max → CppHolds (cppIntType t (IntF.maxLength st)) v := by
  obtain ⟨t, ht, h1, h2⟩ := C09_accepted_bounds st h h0 hs
  obtain ⟨t', ht', hl0, hl, hb, hw⟩ := C09_accepted_length st h
  rw [ht] at ht'
  cases ht'
  refine ⟨t, ht, fun v ha hb' => holds_of ?_ (by rw [← h1]; exact ha) (by rw [← h2]; exact hb')⟩
  obtain ⟨_, hle, hv⟩ := hw h0
  unfold IntF.maxLength valueBits
  generalize st.length = L at *
  generalize st.bitLength = B at *
  cases t with
  | intvar | uintvar =>
    simp only [VarLen, cppIntType, maxTypeLength, reduceCtorEq, or_true, true_or, if_true] at *
    have : B / 8 ≤ L := by omega
    split
    · omega
    · split <;> omega
  | _ =>
    simp only [VarLen, cppIntType, maxTypeLength, reduceCtorEq, or_self, if_false] at *
    omega

open IntF in
/-- Values of the type fit for types of fixed length: also the default value and the special values of a field, whatever its length. -/
theorem C58_fixed_values (st : IntF.State) (h : IntF.Accepted st) (t : IntType) (ht : st.type = some t) (hv : ¬ VarLen t) :
    CppHolds (cppIntType t (IntF.maxLength st)) (interp t st.default) ∧
    ∀ p ∈ st.specials, CppHolds (cppIntType t (IntF.maxLength st)) (interp t p.2.value) := by
  obtain ⟨t', ht', hd, hp⟩ := C10_default_specials_of_type_partial st h
  rw [ht] at ht'
  cases ht'
  have key : ∀ v, typeLo t ≤ v → v ≤ typeHi t → CppHolds (cppIntType t (IntF.maxLength st)) v := by
    intro v h1 h2
    cases t <;> simp [VarLen] at hv <;> simp [CppHolds, cppIntType, typeLo, typeHi, typeBits, Signed] at h1 h2 ⊢ <;> omega
  exact ⟨key _ hd.1 hd.2, fun p hm => key _ (hp p hm).1 (hp p hm).2⟩

open IntF in
/-- The same for the values of an enum. -/
theorem C58_enum_values (b : Bool) (st : EnumF.State) (h : EnumF.Accepted b st) (t : IntType) (ht : st.num.type = some t) (hv : ¬ VarLen t) :
    ∀ p ∈ st.values, CppHolds (cppIntType t (IntF.maxLength st.num)) (interp t p.2.value) := by
  obtain ⟨t', ht', -, hp, -⟩ := C16_values_of_type_partial b st h
  rw [ht] at ht'
  cases ht'
  intro p hm
  have h12 := hp p hm
  generalize interp t p.2.value = v at *
  obtain ⟨h1, h2⟩ := h12
  cases t <;> simp [VarLen] at hv <;> simp [CppHolds, cppIntType, typeLo, typeHi, typeBits, Signed] at h1 h2 ⊢ <;> omega

open IntF in
private def ctx (attrs : List (Str × Str)) : Ctx :=
  { node := .elem "int".toList attrs [], props := attrs, since := 0, depr := Versions.notYet, bitfieldMember := false }
private def env0 : IntF.Env := { dsl := 7, schemaVersion := 0, schemaEndian := .little, strToNumeric := fun _ => none }

open IntF in
/-- C58 does not hold with a serialisation offset: an accepted `uint8` field with offset -100 has values up to 355. -/
theorem C58_offset_witness : ∃ st, IntF.Accepted st ∧ st.type = some .uint8 ∧ interp .uint8 st.max = 355 ∧
    ¬ CppHolds (cppIntType .uint8 (IntF.maxLength st)) 355 := by
  have h : okWith (parseImpl env0 (ctx [("type".toList, "uint8".toList), ("serOffset".toList, "-100".toList)]) (initState env0))
      (fun st => decide (st.type = some .uint8 ∧ st.max = 355)) = true := by decide +kernel
  obtain ⟨st, h1, h2⟩ := okWith_spec h
  obtain ⟨a, b⟩ := of_decide_eq_true h2
  exact ⟨st, .fresh h1, a, by rw [b]; decide, by simp [CppHolds, cppIntType]⟩

open IntF in
/-- C58 does not hold for default values of fields of variable length: an accepted `uintvar` field of one byte with default value 100000 is stored
    in 16 bits. -/
theorem C58_default_witness : ∃ st, IntF.Accepted st ∧ st.type = some .uintvar ∧ interp .uintvar st.default = 100000 ∧
    ¬ CppHolds (cppIntType .uintvar (IntF.maxLength st)) 100000 := by
  have h : okWith (parseImpl env0 (ctx [("type".toList, "uintvar".toList), ("length".toList, "1".toList), ("defaultValue".toList, "100000".toList)])
      (initState env0)) (fun st => decide (st.type = some .uintvar ∧ st.default = 100000 ∧ st.length = 1)) = true := by decide +kernel
  obtain ⟨st, h1, h2⟩ := okWith_spec h
  obtain ⟨a, b, c⟩ := of_decide_eq_true h2
  exact ⟨st, .fresh h1, a, by rw [b]; decide, by simp [CppHolds, cppIntType, IntF.maxLength, c]⟩

open IntF in
/-- The hypotheses of `C58_storage_fits_partial` are met: `intvar` of up to 3 bytes, stored in 32 bits. -/
example : ∃ st, IntF.Accepted st ∧ 0 < st.bitLength ∧ st.serOffset = 0 ∧ st.type = some .intvar ∧ cppIntType .intvar (IntF.maxLength st) = (true, 32) := by
  have h : okWith (parseImpl env0 (ctx [("type".toList, "intvar".toList), ("length".toList, "3".toList)])
      (initState env0)) (fun st => decide (0 < st.bitLength ∧ st.serOffset = 0 ∧ st.type = some .intvar ∧ st.length = 3)) = true := by decide +kernel
  obtain ⟨st, h1, h2⟩ := okWith_spec h
  obtain ⟨a, b, c, d⟩ := of_decide_eq_true h2
  exact ⟨st, .fresh h1, a, b, c, by simp [cppIntType, IntF.maxLength, d]⟩

end Commsdsl.Props
