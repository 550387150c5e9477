import Verif.Props.Latex
import Verif.Props.GenNum
import Verif.Props.EnumField
import Verif.Props.IntField
import Verif.Props.Sorting
import Verif.Props.FieldSer
import Verif.Props.MessageFields
/-!
# Properties C114 and C115: numbers, values and lengths in the LaTeX documents
-/
namespace Commsdsl.Props
open Commsdsl Gen Spec IntF

namespace LatexValueProofs

theorem dec_digits {n : Nat} (hn : n < 2 ^ 64) : ∀ c ∈ toDec n, DecDigit c := by
  obtain ⟨_, h2, _⟩ := GenNumProofs.digits_spec (base := 10) (up := false) (by omega) (by omega) 64 n (GenNumProofs.pow_bound (by omega) hn) (by omega)
  intro c hc
  exact (h2 c hc).2 (by omega)

theorem number_unsigned (w : Nat) {n : Nat} (hn : n < 2 ^ 64) : TexNumber (toDec n ++ " (0x".toList ++ padZero w (toHex false n) ++ ")".toList) n :=
  .both (GenNumProofs.toDec_spec hn).1 (dec_digits hn) (GenNumProofs.toHex_spec false w hn)

theorem cast_lt (v : Int) : castU64 v < 2 ^ 64 := by
  unfold castU64
  omega

theorem cast_eq (v : Int) : (castU64 v : Int) = v % 2 ^ 64 := by
  unfold castU64
  omega

theorem unsigned_iff (t : IntType) : unsignedType t = true ↔ ¬ Signed t := by cases t <;> decide

theorem big_unsigned {t : IntType} (h : t = .uint64 ∨ t = .uintvar) : unsignedType t = true := by rcases h with rfl | rfl <;> rfl

theorem type_hi (t : IntType) : typeHi t < 2 ^ 64 := by cases t <;> decide
theorem type_lo (t : IntType) : -2 ^ 63 ≤ typeLo t := by cases t <;> decide
theorem type_lo_unsigned {t : IntType} (h : unsignedType t = true) : typeLo t = 0 := by cases t <;> first | rfl | cases h

/-- For values of unsigned types the cast gives the value. -/
theorem cast_value {t : IntType} {v : Int} (ho : OfType t v) (h : unsignedType t = true) : (castU64 v : Int) = interp t v := by
  rw [cast_eq]
  have h1 := ho.1
  have h2 := Int.lt_of_le_of_lt ho.2 (type_hi t)
  rw [type_lo_unsigned h] at h1
  unfold interp at h1 h2 ⊢
  split
  · rfl
  · rename_i hb
    rw [if_neg hb] at h1 h2
    omega

theorem interp_signed {t : IntType} (h : ¬ unsignedType t = true) (v : Int) : interp t v = v := by
  unfold interp
  rw [if_neg fun hb => h (big_unsigned hb)]

theorem number {t : IntType} {v : Int} (ho : OfType t v) (w : Nat) : TexNumber (latexInt v (unsignedType t) w) (interp t v) := by
  unfold latexInt
  by_cases h : unsignedType t = true
  · rw [if_pos (by rw [h]; rfl), ← cast_value ho h]
    exact number_unsigned w (cast_lt v)
  · have e := interp_signed h v
    have hv1 := ho.1
    have hv2 := ho.2
    rw [e] at hv1 hv2 ⊢
    have := type_hi t
    have := type_lo t
    by_cases hn : 0 ≤ v
    · rw [if_pos (by simp [hn])]
      have h1 : (castU64 v : Int) = v := by rw [cast_eq]; omega
      have h2 := number_unsigned w (cast_lt v)
      rw [h1] at h2
      exact h2
    · rw [if_neg (by simp [hn, h])]
      unfold toDecS
      rw [if_pos (by omega)]
      have hlt : v.natAbs < 2 ^ 64 := by omega
      have := TexNumber.negative (GenNumProofs.toDec_spec hlt).1 (dec_digits hlt) (by omega)
      rwa [show -(v.natAbs : Int) = v by omega] at this

theorem range {t : IntType} {r : RangeInfo} (h1 : OfType t r.min) (h2 : OfType t r.max) :
    TexRange (latexRange (unsignedType t) r) (interp t r.min) (interp t r.max) := by
  unfold latexRange
  split
  · rename_i e
    rw [← e]; exact .one (number h1 0)
  · exact .both (number h1 0) (number h2 0)

theorem exists_iff (g : GVer) (s d : Nat) : doesExist g s d true = true ↔ s ≤ g.version ∧ g.minRemote < d := by
  unfold doesExist
  split
  · constructor
    · intro h; cases h
    · intro h; omega
  · split
    · rename_i h
      rw [Bool.true_and, decide_eq_true_eq] at h
      constructor
      · intro h; cases h
      · intro h; omega
    · rename_i h
      rw [Bool.true_and, decide_eq_true_eq] at h
      exact ⟨fun _ => by omega, fun _ => rfl⟩

/-- The values that exist in the schema version and were not given up before the oldest version supported. -/
def Existing (g : GVer) (l : List (Str × SpecialInfo)) : List (Str × SpecialInfo) := l.filter fun p => decide (p.2.since ≤ g.version ∧ g.minRemote < p.2.depr)

theorem existing_eq (g : GVer) (l : List (Str × SpecialInfo)) : l.filter (fun p => doesExist g p.2.since p.2.depr true) = Existing g l := by
  unfold Existing
  congr 1
  funext p
  rw [Bool.eq_iff_iff, exists_iff, decide_eq_true_eq]

theorem find_value {l : List (Str × SpecialInfo)} (hn : (l.map Prod.fst).Nodup) {p : Str × SpecialInfo} (hp : p ∈ l) : l.find? (fun q => q.1 == p.1) = some p := by
  induction l with
  | nil => simp at hp
  | cons a r ih =>
    simp only [List.map_cons, List.nodup_cons] at hn
    rcases List.mem_cons.1 hp with rfl | hp
    · simp
    · have : a.1 ≠ p.1 := fun e => hn.1 (e ▸ List.mem_map_of_mem hp)
      rw [List.find?_cons_of_neg (by simpa using this)]
      exact ih hn.2 hp

theorem filterMap_exist (g : GVer) {l : List (Str × SpecialInfo)} (m : List (Str × SpecialInfo)) (hn : (m.map Prod.fst).Nodup) (hl : ∀ p ∈ l, p ∈ m) (st : EnumF.State)
    (hm : st.values = m) : (l.map fun p => (p.2.value, p.1)).filterMap (enumRow g st) = (Existing g l).map rowOf := by
  induction l with
  | nil => rfl
  | cons p ps ih =>
    have ih := ih fun q hq => hl q (List.mem_cons_of_mem _ hq)
    have hf : enumRow g st (p.2.value, p.1) = if doesExist g p.2.since p.2.depr true then some (rowOf p) else none := by
      unfold enumRow
      dsimp only
      rw [hm, find_value hn (hl p (List.mem_cons_self ..))]
    unfold Existing
    rw [← existing_eq] at ih
    rw [List.map_cons, List.filterMap_cons, hf, show List.filter (fun p => decide (p.2.since ≤ g.version ∧ g.minRemote < p.2.depr)) (p :: ps) =
      Existing g (p :: ps) from rfl, ← existing_eq]
    by_cases h : doesExist g p.2.since p.2.depr true = true
    · rw [if_pos h, List.filter_cons_of_pos (p := fun p : Str × SpecialInfo => doesExist g p.2.since p.2.depr true) h, List.map_cons, ih]
    · rw [if_neg h, List.filter_cons_of_neg (p := fun p : Str × SpecialInfo => doesExist g p.2.since p.2.depr true) h, ih]

end LatexValueProofs
open LatexValueProofs

/-! ## C114 -/

/-- The text of a value of the type reads as that value. -/
theorem C114_number (t : IntType) (v : Int) (h : typeLo t ≤ interp t v ∧ interp t v ≤ typeHi t) (w : Nat) : TexNumber (latexInt v (unsignedType t) w) (interp t v) := number h w

/-- Identifiers and versions. -/
theorem C114_unsigned (n w : Nat) (h : n < 2 ^ 64) : TexNumber (latexInt n true w) n := by
  have e : castU64 n = n := by unfold castU64; omega
  unfold latexInt
  rw [if_pos (by rfl), e]
  exact number_unsigned w h

/-- The ranges that are listed read as the ranges that exist, one by one; so a value is in one of them exactly if one of these allows it. -/
theorem C114_ranges (g : GVer) (t : IntType) (rs : List RangeInfo) (h : ∀ r ∈ rs, (typeLo t ≤ interp t r.min ∧ interp t r.min ≤ typeHi t) ∧
    (typeLo t ≤ interp t r.max ∧ interp t r.max ≤ typeHi t)) : ∃ ps : List (Int × Int), (latexRanges g (unsignedType t) rs).length = ps.length ∧
      (∀ (i : Nat) s p, (latexRanges g (unsignedType t) rs)[i]? = some s → ps[i]? = some p → TexRange s p.1 p.2) ∧
      ∀ v, (∃ p ∈ ps, p.1 ≤ v ∧ v ≤ p.2) ↔ ∃ r ∈ rs, r.since ≤ g.version ∧ g.minRemote < r.depr ∧ interp t r.min ≤ v ∧ v ≤ interp t r.max := by
  refine ⟨(rs.filter fun r => doesExist g r.since r.depr true).map fun r => (interp t r.min, interp t r.max), by simp [latexRanges], ?_, ?_⟩
  · intro i s p hs hp
    unfold latexRanges at hs
    rw [List.getElem?_map, Option.map_eq_some_iff] at hs hp
    obtain ⟨r, hr, e⟩ := hs
    obtain ⟨r', hr', e'⟩ := hp
    rw [hr] at hr'
    injection hr' with hr'
    subst hr' e e'
    have hm := (List.mem_filter.1 (List.mem_of_getElem? hr)).1
    exact range (h r hm).1 (h r hm).2
  · intro v
    constructor
    · rintro ⟨p, hp, hv⟩
      obtain ⟨r, hr, e⟩ := List.mem_map.1 hp
      obtain ⟨h1, h2⟩ := List.mem_filter.1 hr
      subst e
      have := (exists_iff g _ _).1 h2
      exact ⟨r, h1, this.1, this.2, hv⟩
    · rintro ⟨r, hr, h1, h2, hv⟩
      exact ⟨_, List.mem_map.2 ⟨r, List.mem_filter.2 ⟨hr, (exists_iff g _ _).2 ⟨h1, h2⟩⟩, rfl⟩, hv⟩

/-- The text of a row: the value, the name and the description. -/
theorem C114_row_text (t : IntType) (w : Nat) (p : Str × SpecialInfo) (h : typeLo t ≤ interp t p.2.value ∧ interp t p.2.value ≤ typeHi t)
    (hd : '\\' ∉ p.2.displayName) (hn : '\\' ∉ p.1) : ∃ v n, (rowOf p).text (unsignedType t) w = v ++ " & ".toList ++ n ++ " & ".toList ++ p.2.description ∧
      TexNumber v (interp t p.2.value) ∧ TexText n (if p.2.displayName = [] ∨ p.2.displayName = "_".toList then p.1 else p.2.displayName) :=
  ⟨_, _, rfl, number h w, C111_names_partial _ _ hd hn⟩

/-- The table of an `<enum>` has one row for every value that exists in the schema version and was not given up before the oldest version supported. Rows
    are in order of the values, for all types but `uint64` and `uintvar`. Missing from the full claim: the order for those, see `C114_order_witness`. -/
theorem C114_enum_partial (g : GVer) (b : Bool) (st : EnumF.State) (h : EnumF.Accepted b st) : ∃ t, st.num.type = some t ∧
    (enumRows g st).Perm ((st.values.filter fun p => decide (p.2.since ≤ g.version ∧ g.minRemote < p.2.depr)).map rowOf) ∧
    (t ≠ .uint64 → t ≠ .uintvar → ((enumRows g st).map fun r => interp t r.value).Pairwise (· ≤ ·)) := by
  obtain ⟨t, hi⟩ := EnumProofs.accepted_inv h
  refine ⟨t, hi.ty, ?_, ?_⟩
  · have := (hi.table.perm.filterMap (enumRow g st))
    rw [filterMap_exist g st.values hi.table.names (fun _ h => h) st rfl] at this
    exact this
  · intro h1 h2
    have hv : ∀ e r, enumRow g st e = some r → e ∈ st.rev → r.value = e.1 := by
      intro e r hr he
      obtain ⟨p, hp, e'⟩ := List.mem_map.1 (hi.table.perm.mem_iff.1 he)
      subst e'
      unfold enumRow at hr
      dsimp only at hr
      rw [find_value hi.table.names hp] at hr
      dsimp only at hr
      split at hr
      · injection hr with hr; subst hr; rfl
      · cases hr
    have hs := hi.table.sorted
    rw [List.pairwise_map] at hs
    rw [List.pairwise_map]
    unfold enumRows
    refine List.Pairwise.filterMap (R := fun a b => a ∈ st.rev ∧ b ∈ st.rev ∧ a.1 ≤ b.1) _ ?_ ?_
    · rintro a a' ⟨ha, ha', hle⟩ r hr r' hr'
      rw [hv a r hr ha, hv a' r' hr' ha']
      unfold interp
      rw [if_neg (by simp [h1, h2]), if_neg (by simp [h1, h2])]
      exact hle
    · exact List.Pairwise.and_mem.1 hs |>.imp fun h => ⟨h.1, h.2.1, h.2.2⟩

/-- The table of special values has one row for every special value that exists in the schema version and was not given up before the oldest version supported,
    in order of the values. -/
theorem C114_specials (g : GVer) (st : IntF.State) (h : IntF.Accepted st) : ∃ t, st.type = some t ∧
    (specialRows g (unsignedType t) st.specials).Perm ((st.specials.filter fun p => decide (p.2.since ≤ g.version ∧ g.minRemote < p.2.depr)).map rowOf) ∧
    ((specialRows g (unsignedType t) st.specials).map fun r => interp t r.value).Pairwise (· ≤ ·) := by
  obtain ⟨t, ht, _, hs⟩ := C10_default_specials_of_type_partial st h
  refine ⟨t, ht, ?_, ?_⟩
  · unfold specialRows
    rw [existing_eq]
    exact sortBy_perm _ _
  · rw [List.pairwise_map]
    unfold specialRows
    refine sortBy_pairwise (rowLt (unsignedType t)) (fun r => OfType t r.value) (fun a b => interp t a.value ≤ interp t b.value)
      (fun a b c _ _ _ h1 h2 => Int.le_trans h1 h2) ?_ ?_ _ ?_
    · intro a b ha hb hlt
      unfold rowLt at hlt
      split at hlt
      · rename_i e; rw [e]; exact Int.le_refl _
      · split at hlt
        · rename_i hu
          have := of_decide_eq_true hlt
          rw [← cast_value ha hu, ← cast_value hb hu]
          omega
        · rename_i hu
          have := of_decide_eq_true hlt
          rw [interp_signed hu, interp_signed hu]
          omega
    · intro a b ha hb hlt
      unfold rowLt at hlt
      split at hlt
      · rename_i e; rw [e]; exact Int.le_refl _
      · split at hlt
        · rename_i hu
          have := of_decide_eq_false hlt
          rw [← cast_value ha hu, ← cast_value hb hu]
          omega
        · rename_i hu
          have := of_decide_eq_false hlt
          rw [interp_signed hu, interp_signed hu]
          omega
    · intro r hr
      obtain ⟨p, hp, rfl⟩ := List.mem_map.1 hr
      exact hs p (List.mem_filter.1 hp).1

namespace LatexValueProofs

/-- The environment and the context of the samples. -/
def env : Env := { dsl := 7, schemaVersion := 3, schemaEndian := .little, strToNumeric := fun _ => none }
def ctx (type : String) (children : List Xml) : Ctx :=
  { node := .elem "enum".toList [("type".toList, type.toList)] children, props := [("type".toList, type.toList)], since := 0, depr := Versions.notYet,
    bitfieldMember := false }
def value (tag n v : String) (more : List (String × String) := []) : Xml :=
  .elem tag.toList ([("name".toList, n.toList), ("val".toList, v.toList)] ++ more.map fun p => (p.1.toList, p.2.toList)) []
def okE (r : Res EnumF.State) (p : EnumF.State → Bool) : Bool := match r with
  | .ok st => p st
  | _ => false
theorem okE_spec {r : Res EnumF.State} {p : EnumF.State → Bool} (h : okE r p = true) : ∃ st, r = .ok st ∧ p st = true := by
  cases r with
  | ok st => exact ⟨st, rfl, h⟩
  | err => simp [okE] at h
  | ub => simp [okE] at h

end LatexValueProofs

/-- An `<enum>` of which one value is given up in version 2, the oldest version supported. -/
example : ∃ st, EnumF.Accepted false st ∧ (enumRows { parsed := 3, minRemote := 2 } st).map (fun r => (r.value, r.name)) = [(2, "A\\_1".toList), (7, "C".toList)] := by
  have h : okE (EnumF.parseImpl env (ctx "uint8" [value "validValue" "C" "7", value "validValue" "B" "1" [("deprecated", "2")], value "validValue" "A_1" "2"]) {})
      (fun st => decide ((enumRows { parsed := 3, minRemote := 2 } st).map (fun r => (r.value, r.name)) = [(2, "A\\_1".toList), (7, "C".toList)] ∧
        st.nonUnique = false)) = true := by decide +kernel
  obtain ⟨st, h1, h2⟩ := okE_spec h
  obtain ⟨a, d⟩ := of_decide_eq_true h2
  exact ⟨st, d ▸ .fresh h1, a⟩

/-- An `<int>` with special values: a negative one and one above. -/
example : ∃ st, IntF.Accepted st ∧ st.type = some .int8 ∧
    (specialRows { parsed := 3 } false st.specials).map (fun r => r.text false 2) = ["-5 & B & ".toList, "10 (0x0a) & A & ".toList] := by
  have h : okWith (IntF.parseImpl env (ctx "int8" [value "special" "A" "10", value "special" "B" "-5"]) {})
      (fun st => decide (st.type = some .int8 ∧
        (specialRows { parsed := 3 } false st.specials).map (fun r => r.text false 2) = ["-5 & B & ".toList, "10 (0x0a) & A & ".toList])) = true := by decide +kernel
  obtain ⟨st, h1, h2⟩ := okWith_spec h
  obtain ⟨a, d⟩ := of_decide_eq_true h2
  exact ⟨st, .fresh h1, a, d⟩

/-- Refutation for 64 bit unsigned enums: 2^64-1 is listed before 1. -/
theorem C114_order_witness : ∃ st, EnumF.Accepted false st ∧ st.num.type = some .uint64 ∧
    (enumRows { parsed := 3 } st).map (fun r => interp .uint64 r.value) = [18446744073709551615, 1] := by
  have h : okE (EnumF.parseImpl env (ctx "uint64" [value "validValue" "A" "1", value "validValue" "B" "0xffffffffffffffff"]) {})
      (fun st => decide (st.num.type = some .uint64 ∧ (enumRows { parsed := 3 } st).map (fun r => interp .uint64 r.value) = [18446744073709551615, 1] ∧
        st.nonUnique = false)) = true := by decide +kernel
  obtain ⟨st, h1, h2⟩ := okE_spec h
  obtain ⟨a, b, d⟩ := of_decide_eq_true h2
  exact ⟨st, d ▸ .fresh h1, a, b⟩

/-! ## C115 -/

namespace LatexValueProofs

theorem length_text {a b : Nat} (ha : a < 2 ^ 64) (hb : b < 2 ^ 64) (hne : ¬ (a = 2 ^ 64 - 1 ∧ b = 2 ^ 64 - 1)) (S : Nat → Prop) (hl : ∀ n, S n → a ≤ n)
    (hu : b ≠ 2 ^ 64 - 1 → ∀ n, S n → n ≤ b) : ∃ P, TexLength (lengthText a b) P ∧ ∀ n, S n → P n := by
  unfold lengthText
  have da := (GenNumProofs.toDec_spec ha).1
  have db := (GenNumProofs.toDec_spec hb).1
  split
  · rename_i e
    refine ⟨_, .fixed da, fun n hn => ?_⟩
    have h1 := hl n hn
    have h2 := hu (fun e' => hne ⟨e ▸ e', e'⟩) n hn
    show n = a
    omega
  · split
    · exact ⟨_, .atLeast da, hl⟩
    · rename_i hb'
      exact ⟨_, .range da db, fun n hn => ⟨hl n hn, hu hb' n hn⟩⟩

end LatexValueProofs

open Fld in
/-- The length given for a field allows every serialisation of its values in the version. Missing from the full claim: what is missing in C23, and
    lengths of 2^64 - 1 bytes or more. -/
theorem C115_field_partial (v : Nat) (f : Field) (h : Obj f) (hp : Hered (SerProofs.Present v) f) (hf : Hered SerProofs.BitsFit f) (a b : Nat)
    (ha : Fld.minLength f = .ok a) (hb : Fld.maxLength f = .ok b) (hne : a ≠ 2 ^ 64 - 1) :
    ∃ P, TexLength (lengthText a b) P ∧ ∀ n, ser v f n → P n := by
  obtain ⟨a', ha', hlt⟩ := C21_min_defined f h
  rw [ha] at ha'
  cases ha'
  exact length_text hlt ((LengthProofs.good f (obj_leaf h)).2.1 b hb) (fun e => hne e.1) (ser v f) (fun n hn => C23_lower_partial v f h hp a n ha hn)
    fun hb' n hn => C23_upper_partial v f h hf b n hb hb' hn

open Fld Msg in
/-- The same for messages. Missing: what is missing in C24. -/
theorem C115_message_partial (m : Message) (h : AcceptedMsg m) (v a b : Nat) (ha : m.minLength = .ok a) (hb : m.maxLength = .ok b)
    (hp : ∀ f ∈ m.fields, f.since ≤ m.w.since → existsIn v f = true ∧ Hered (SerProofs.Present v) f) (hf : ∀ f ∈ m.fields, Hered SerProofs.BitsFit f)
    (ha' : a < 2 ^ 64 - 1) (hb' : b < 2 ^ 64) : ∃ P, TexLength (lengthText a b) P ∧ ∀ n, serAll v m.fields n → P n :=
  length_text (by omega) hb' (fun e => by omega) (serAll v m.fields) (fun n hn => C24_lower_partial m h v a n ha hp hn)
    fun hne n hn => C24_upper_partial m h v b n hb hne hf hn

open Sample in
/-- A string with a length prefix, and data up to the end. -/
example : (∃ f, Spec.Accepted f ∧ ∃ a b, Fld.minLength f = .ok a ∧ Fld.maxLength f = .ok b ∧ lengthText a b = "1 - 256".toList) ∧
    (∃ f, Spec.Accepted f ∧ ∃ a b, Fld.minLength f = .ok a ∧ Fld.maxLength f = .ok b ∧ lengthText a b = "0+".toList) := by
  constructor
  · obtain ⟨f, h1, h2⟩ := accepted env0_ok (parent := .top)
      (x := el "string" [("name", "s")] [el "lengthPrefix" [] [el "int" [("name", "l"), ("type", "uint8")]]])
      (p := fun f => isNum (Fld.minLength f) 1 && isNum (Fld.maxLength f) 256) (by decide +kernel)
    simp only [Bool.and_eq_true] at h2
    exact ⟨f, h1, 1, 256, isNum_spec h2.1, isNum_spec h2.2, by decide +kernel⟩
  · obtain ⟨f, h1, h2⟩ := accepted env0_ok (parent := .top) (x := el "data" [("name", "s")] [])
      (p := fun f => isNum (Fld.minLength f) 0 && isNum (Fld.maxLength f) (2 ^ 64 - 1)) (by decide +kernel)
    simp only [Bool.and_eq_true] at h2
    exact ⟨f, h1, 0, 2 ^ 64 - 1, isNum_spec h2.1, isNum_spec h2.2, by decide +kernel⟩

open Sample Fld in
/-- Refutation of the full claim: the bundle of one byte and a pseudo field of one byte is said to have 2 bytes but takes 1. -/
theorem C115_pseudo_witness : ∃ f a b, Spec.Accepted f ∧ Fld.minLength f = .ok a ∧ Fld.maxLength f = .ok b ∧ lengthText a b = "2".toList ∧ ser 3 f 1 := by
  let shape : Field → Bool := fun f => match f with
    | .bundle c [.int c1 st1, .int c2 _] _ _ => !c.pseudo && !c1.pseudo && c2.pseudo && decide (c1.w.since = 0) && decide (c2.w.since = 0) &&
        !c1.w.removed && !c2.w.removed && decide (st1.type = some .uint8) && decide (st1.length = 1)
    | _ => false
  obtain ⟨f, h1, h2⟩ := accepted env0_ok (parent := .top)
    (x := el "bundle" [("name", "b")] [el "int" [("name", "i"), ("type", "uint8")],
      el "int" [("name", "p"), ("type", "uint8"), ("pseudo", "true")]])
    (p := fun f => shape f && (isNum (Fld.minLength f) 2 && isNum (Fld.maxLength f) 2)) (by decide +kernel)
  simp only [Bool.and_eq_true] at h2
  refine ⟨f, 2, 2, h1, isNum_spec h2.2.1, isNum_spec h2.2.2, by decide +kernel, ?_⟩
  have h3 := h2.1
  simp only [shape] at h3
  split at h3
  · simp only [Bool.and_eq_true, Bool.not_eq_true', decide_eq_true_eq] at h3
    obtain ⟨⟨⟨⟨⟨⟨⟨⟨a1, a2⟩, a3⟩, a4⟩, a5⟩, a6⟩, a7⟩, a8⟩, a9⟩ := h3
    simp [ser, serAll, existsIn, Field.since, Field.removed, Field.common, a1, a2, a3, a4, a5, a6, a7, a8, a9, numLen]
  · simp at h3

end Commsdsl.Props
