import Verif.Model.EnumField
import Verif.Lemmas.MultiMap
import Verif.Props.IntField
/-!
# Properties C16, C17: `<enum>` fields
-/
namespace Commsdsl.Props
open Commsdsl IntF Spec Text

namespace EnumProofs
open EnumF

theorem onNum_ok {f : IntF.State → Res IntF.State} {st st' : EnumF.State} (h : onNum f st = .ok st') :
    ∃ n, f st.num = .ok n ∧ st' = { st with num := n } := by
  unfold onNum at h
  rw [Res.bind_eq_ok] at h
  obtain ⟨n, h1, h2⟩ := h
  exact ⟨n, h1, by simpa using h2.symm⟩

/-- What holds of the table of values. -/
structure Table (t : IntType) (st : EnumF.State) : Prop where
  names : (st.values.map Prod.fst).Nodup
  valid : ∀ p ∈ st.values, isValidName p.1 = true
  range : ∀ p ∈ st.values, OfType t p.2.value
  perm : st.rev.Perm (st.values.map fun p => (p.2.value, p.1))
  sorted : (st.rev.map Prod.fst).Pairwise (· ≤ ·)

theorem inRange {t : IntType} {st : IntF.State} (h1 : st.typeMin = minTypeValue t) (h2 : st.typeMax = maxTypeValue t)
    {v : Int} (h : inTypeRange t st v = true) : OfType t v := by
  unfold inTypeRange at h
  rw [h1, h2] at h
  have h' : if isBigUnsigned t = true then True else minTypeValue t ≤ v ∧ v ≤ maxTypeValue t := by
    split
    · trivial
    · rename_i hb
      rw [if_neg hb, Bool.not_eq_true', Bool.or_eq_false_iff, decide_eq_false_iff_not, decide_eq_false_iff_not] at h
      omega
  unfold OfType typeLo typeHi interp
  cases t <;> simp [isBigUnsigned, minTypeValue, maxTypeValue, Signed, typeBits, i64Min, i64Max] at h' ⊢ <;> omega

theorem step {env : Env} {c : Ctx} {t : IntType} {x : Xml} {st st' : EnumF.State}
    (h : valueStep env c t x st = .ok st') (h1 : st.num.typeMin = minTypeValue t) (h2 : st.num.typeMax = maxTypeValue t)
    (hi : Table t st) :
    Table t st' ∧ st'.num = st.num ∧ st'.nonUnique = st.nonUnique ∧ st'.values ≠ [] ∧
      (st.nonUnique = false → (st.rev.map Prod.fst).Nodup → (st'.rev.map Prod.fst).Nodup) := by
  unfold valueStep at h
  simp only [Res.bind_eq_ok] at h
  obtain ⟨props, _, _, _, _, _, _, _, _, _, _, _, _, _, _, hvn, _, hns, val, _, _, hin, _, huniq, ⟨since, depr⟩, _, disp, _, h⟩ := h
  simp only [Res.pure_eq, Res.ok.injEq] at h
  subst h
  rw [Res.check_eq_ok] at hns huniq hin hvn
  have hP := MultiMap.insert_perm val (props.getStr "name".toList) st.rev
  refine ⟨⟨?_, ?_, ?_, ?_, ?_⟩, rfl, rfl, by simp, ?_⟩
  · simp only [List.map_append, List.map_cons, List.map_nil]
    rw [List.nodup_append]
    refine ⟨hi.names, by simp, ?_⟩
    intro a ha b hb hab
    simp only [List.mem_singleton] at hb
    subst hb; subst hab
    obtain ⟨p, hp, hpe⟩ := List.mem_map.1 ha
    unfold findSpecial at hns
    rw [Option.isNone_iff_eq_none, Option.map_eq_none_iff] at hns
    have := List.find?_eq_none.1 hns p hp
    simp [hpe] at this
  · intro p hp
    rcases List.mem_append.1 hp with hp | hp
    · exact hi.valid p hp
    · simp only [List.mem_singleton] at hp
      subst hp
      exact hvn
  · intro p hp
    rcases List.mem_append.1 hp with hp | hp
    · exact hi.range p hp
    · simp only [List.mem_singleton] at hp
      subst hp
      exact inRange h1 h2 hin
  · simp only [List.map_append, List.map_cons, List.map_nil]
    exact hP.trans ((hi.perm.cons _).trans (List.perm_append_singleton _ _).symm)
  · exact MultiMap.insert_sorted _ _ _ hi.sorted
  · intro hn hd
    rw [hn] at huniq
    simp only [Bool.false_or, Bool.not_eq_true'] at huniq
    rw [(hP.map Prod.fst).nodup_iff]
    simp only [List.map_cons, List.nodup_cons]
    refine ⟨?_, hd⟩
    intro hm
    rw [(MultiMap.has_iff _ _).2 hm] at huniq
    simp at huniq

theorem loop {env : Env} {c : Ctx} {t : IntType} (xs : List Xml) : ∀ {st st' : EnumF.State},
    valuesLoop env c t xs st = .ok st' → st.num.typeMin = minTypeValue t → st.num.typeMax = maxTypeValue t →
    Table t st → (xs = [] → st.values ≠ []) →
    Table t st' ∧ st'.num = st.num ∧ st'.nonUnique = st.nonUnique ∧ st'.values ≠ [] ∧
      (st.nonUnique = false → (st.rev.map Prod.fst).Nodup → (st'.rev.map Prod.fst).Nodup) := by
  induction xs with
  | nil =>
    intro st st' h _ _ hi hne
    simp only [valuesLoop, Res.ok.injEq] at h
    subst h
    exact ⟨hi, rfl, rfl, hne rfl, fun _ => id⟩
  | cons x xs ih =>
    intro st st' h h1 h2 hi _
    unfold valuesLoop at h
    rw [Res.bind_eq_ok] at h
    obtain ⟨s1, ha, hb⟩ := h
    obtain ⟨a1, a2, a3, a4, a5⟩ := step ha h1 h2 hi
    obtain ⟨b1, b2, b3, b4, b5⟩ := ih hb (by rw [a2]; exact h1) (by rw [a2]; exact h2) a1 (fun _ => a4)
    exact ⟨b1, b2.trans a2, b3.trans a3, b4, fun hn hd => b5 (by rw [a3]; exact hn) (a5 hn hd)⟩

/-- Invariant of accepted enums. -/
structure Inv (b : Bool) (st : EnumF.State) (t : IntType) : Prop where
  ty : st.num.type = some t
  len : 0 < st.num.length ∧ st.num.length ≤ maxTypeLength t
  table : Table t st
  ne : st.values ≠ []
  uniq : b = false → (st.rev.map Prod.fst).Nodup
  dflt : OfType t st.num.default
  bits : st.num.bitLength ≤ 8 * st.num.length

def Pre (b : Bool) (st : EnumF.State) : Prop :=
  (st.num.type = none ∧ st.num.length = 0 ∧ st.num.default = 0 ∧ st.values = [] ∧ st.rev = [] ∧ st.num.bitLength = 0) ∨ ∃ t, Inv b st t

theorem zero_ofType (t : IntType) : OfType t 0 := by
  unfold OfType; cases t <;> decide

theorem inv_step {env : Env} {c : Ctx} {b : Bool} {st0 st : EnumF.State} (hp : Pre b st0) (h : EnumF.parseImpl env c st0 = .ok st) :
    ∃ t, Inv (b || st.nonUnique) st t := by
  unfold EnumF.parseImpl at h
  rw [Res.bind_eq_ok] at h
  obtain ⟨s1, h1, h⟩ := h
  split at h
  · simp at h
  rename_i t ht
  simp only [Res.bind_eq_ok] at h
  obtain ⟨s2, h2, s3, h3, s4, h4, s5, h5, s6, h6, s7, h7, s8, h8, s9, h9, s10, h10, h11⟩ := h
  obtain ⟨n1, k1, rfl⟩ := onNum_ok h1
  obtain ⟨n2, k2, rfl⟩ := onNum_ok h2
  obtain ⟨n3, k3, rfl⟩ := onNum_ok h3
  obtain ⟨n4, k4, rfl⟩ := onNum_ok h4
  obtain ⟨ty, rfl, hty⟩ := updateType_ok k1
  simp only at ht
  subst ht
  obtain ⟨e, rfl⟩ := updateEndian_frame k2
  obtain ⟨len, rfl, hlen⟩ := updateLength_ok k3
  obtain ⟨bits, rfl, hbits⟩ := updateBitLength_ok k4
  have e5 : ∃ nu, s5 = { st0 with num := { st0.num with type := some t, endian := e, length := len, bitLength := bits }, nonUnique := nu } := by
    unfold EnumF.updateNonUnique at h5
    rw [Res.bind_eq_ok] at h5
    obtain ⟨nu, _, h5⟩ := h5
    exact ⟨nu, by simpa using h5.symm⟩
  obtain ⟨nu, rfl⟩ := e5
  obtain ⟨n6, k6, rfl⟩ := onNum_ok h6
  obtain ⟨n7, k7, rfl⟩ := onNum_ok h7
  obtain ⟨cv, rfl⟩ := updateValidCheckVersion_frame k6
  obtain ⟨mn, mx, rfl⟩ := updateMinMax_frame k7
  have key : ∀ {t0}, Inv b st0 t0 → t0 = t := by
    intro t0 hi
    rcases hty with hty | hty
    · rw [hi.ty] at hty; cases hty
    · rw [hi.ty] at hty; cases hty; rfl
  have htab : Table t st0 := by
    rcases hp with ⟨_, _, _, h3, h4, _⟩ | ⟨t0, hi⟩
    · constructor <;> simp [h3, h4]
    · have := key hi; subst this; exact hi.table
  generalize hs7 : ({ st0 with num := { st0.num with
    type := some t, endian := e, length := len, bitLength := bits, validCheckVersion := cv, typeMin := minTypeValue t,
    typeMax := maxTypeValue t, min := mn, max := mx }, nonUnique := nu } : EnumF.State) = s7 at h8
  have htab7 : Table t s7 := by
    subst hs7
    exact ⟨htab.names, htab.valid, htab.range, htab.perm, htab.sorted⟩
  have m1 : s7.num.typeMin = minTypeValue t := by subst hs7; rfl
  have m2 : s7.num.typeMax = maxTypeValue t := by subst hs7; rfl
  have r8 : Table t s8 ∧ s8.num = s7.num ∧ s8.nonUnique = s7.nonUnique ∧ s8.values ≠ [] ∧
      (s7.nonUnique = false → (s7.rev.map Prod.fst).Nodup → (s8.rev.map Prod.fst).Nodup) := by
    unfold updateValues at h8
    simp only at h8
    split at h8
    · split at h8
      · rename_i hv
        simp only [Res.ok.injEq] at h8
        subst h8
        exact ⟨htab7, rfl, rfl, by simpa using hv, fun _ => id⟩
      · simp at h8
    · rename_i hne
      exact loop _ h8 m1 m2 htab7 (fun hx => absurd (by rw [hx]; rfl) hne)
  obtain ⟨t8, n8, u8, v8, w8⟩ := r8
  unfold EnumF.updateDefault at h9
  rw [Res.bind_eq_ok] at h9
  obtain ⟨n9, k9, h9⟩ := h9
  simp only [Res.pure_eq, Res.ok.injEq] at h9
  obtain ⟨d, rfl, hd⟩ := updateDefault_ok k9
  subst h9
  unfold updateHexAssign at h10
  simp only [Res.bind_eq_ok] at h10
  obtain ⟨hx, _, _, _, h10⟩ := h10
  simp only [Res.pure_eq, Res.ok.injEq] at h10
  subst h10
  obtain ⟨n11, k11, rfl⟩ := onNum_ok h11
  have e11 : ∃ a, n11 = { s8.num with default := d, availableLengthLimit := a } := by
    unfold updateAvailableLengthLimit at k11
    rw [Res.bind_eq_ok] at k11
    obtain ⟨a, _, k11⟩ := k11
    exact ⟨a, by simpa using k11.symm⟩
  obtain ⟨a, rfl⟩ := e11
  refine ⟨t, ?_, ?_, ⟨t8.names, t8.valid, t8.range, t8.perm, t8.sorted⟩, v8, ?_, ?_, ?_⟩
  · show s8.num.type = _
    rw [n8, ← hs7]
  · show 0 < s8.num.length ∧ s8.num.length ≤ _
    rw [n8, ← hs7]
    rcases hlen with ⟨_, q1, q2⟩ | ⟨q1, q2⟩
    · exact ⟨q1, q2⟩
    · rcases hp with ⟨_, h0, _⟩ | ⟨t0, hi⟩
      · exact absurd h0 q1
      · have := key hi; subst this
        simp only [q2]
        exact hi.len
  · show (b || s8.nonUnique) = false → (s8.rev.map Prod.fst).Nodup
    intro hb
    rw [Bool.or_eq_false_iff] at hb
    refine w8 (by rw [← u8]; exact hb.2) ?_
    subst hs7
    rcases hp with ⟨_, _, _, _, h4, _⟩ | ⟨t0, hi⟩
    · simp [h4]
    · exact hi.uniq hb.1
  · show OfType t d
    rcases hd with hd | hd
    · rw [hd]
      show OfType t s8.num.default
      rw [n8, ← hs7]
      rcases hp with ⟨_, _, h0, _⟩ | ⟨t0, hi⟩
      · show OfType t st0.num.default
        rw [h0]; exact zero_ofType t
      · have := key hi; subst this; exact hi.dflt
    · refine inRange ?_ ?_ hd
      · simp only; rw [n8]; exact m1
      · simp only; rw [n8]; exact m2
  · show s8.num.bitLength ≤ 8 * s8.num.length
    rw [n8, ← hs7]
    show bits ≤ 8 * len
    rcases hbits with q | ⟨q1, q2⟩ | ⟨_, q, _⟩
    · simp only at q; omega
    · simp only at q1 q2
      rcases hp with ⟨_, _, _, _, _, h0⟩ | ⟨t0, hi⟩
      · exact absurd h0 q1
      · have hb := hi.bits
        have hl := hi.len
        rcases hlen with ⟨q3, _⟩ | ⟨_, q3⟩
        · simp only at q3; omega
        · simp only at q3; omega
    · simp only at q; omega

theorem accepted_inv {b : Bool} {st : EnumF.State} (h : EnumF.Accepted b st) : ∃ t, Inv b st t := by
  induction h with
  | fresh h =>
    obtain ⟨t, hi⟩ := inv_step (b := false) (Or.inl ⟨rfl, rfl, rfl, rfl, rfl, rfl⟩) h
    exact ⟨t, by simpa using hi⟩
  | reuse _ h ih => exact inv_step (Or.inr ih) h

theorem vals_eq {t : IntType} {st : EnumF.State} (h : Table t st) :
    (st.rev.map Prod.fst).Perm (st.values.map fun p => p.2.value) := by
  have := h.perm.map Prod.fst
  simpa [List.map_map, Function.comp_def] using this

end EnumProofs

open EnumProofs

/-! ## C16 -/

/-- Names of the values of an accepted enum differ, inherited ones included. -/
theorem C16_names_unique (b : Bool) (st : EnumF.State) (h : EnumF.Accepted b st) : (st.values.map Prod.fst).Nodup := by
  obtain ⟨t, hi⟩ := accepted_inv h
  exact hi.table.names

/-- The names of the values are valid names. -/
theorem C16_names_valid (b : Bool) (st : EnumF.State) (h : EnumF.Accepted b st) : ∀ p ∈ st.values, isValidName p.1 = true := by
  obtain ⟨t, hi⟩ := accepted_inv h
  exact hi.table.valid

/-- Values differ unless this definition or one it reuses allowed non-unique values. -/
theorem C16_values_unique (st : EnumF.State) (h : EnumF.Accepted false st) : (st.values.map fun p => p.2.value).Nodup := by
  obtain ⟨t, hi⟩ := accepted_inv h
  exact (vals_eq hi.table).nodup_iff.1 (hi.uniq rfl)

/-- Values and the default value belong to the type, and there is at least one value. Missing from the full claim: that they fit the length,
    see `C16_length_witness`. -/
theorem C16_values_of_type_partial (b : Bool) (st : EnumF.State) (h : EnumF.Accepted b st) :
    ∃ t, st.num.type = some t ∧ st.values ≠ [] ∧ (∀ p ∈ st.values, typeLo t ≤ interp t p.2.value ∧ interp t p.2.value ≤ typeHi t) ∧
      typeLo t ≤ interp t st.num.default ∧ interp t st.num.default ≤ typeHi t := by
  obtain ⟨t, hi⟩ := accepted_inv h
  exact ⟨t, hi.ty, hi.ne, hi.table.range, hi.dflt⟩

/-- The length of an accepted enum is within its type, and its bits are within the length. -/
theorem C16_accepted_length (b : Bool) (st : EnumF.State) (h : EnumF.Accepted b st) :
    ∃ t, st.num.type = some t ∧ 0 < st.num.length ∧ st.num.length ≤ maxTypeLength t ∧ st.num.bitLength ≤ 8 * st.num.length := by
  obtain ⟨t, hi⟩ := accepted_inv h
  exact ⟨t, hi.ty, hi.len.1, hi.len.2, hi.bits⟩

/-- `parseImpl` gives a state in which `p` holds. -/
def okWithE (r : Res EnumF.State) (p : EnumF.State → Bool) : Bool := match r with
  | .ok st => p st
  | _ => false

private theorem okWithE_spec {r : Res EnumF.State} {p : EnumF.State → Bool} (h : okWithE r p = true) : ∃ st, r = .ok st ∧ p st = true := by
  cases r with
  | ok st => exact ⟨st, rfl, h⟩
  | err => simp [okWithE] at h
  | ub => simp [okWithE] at h

private def ctx (attrs : List (Str × Str)) (children : List Xml := []) (bitfieldMember : Bool := false) : Ctx :=
  { node := .elem "enum".toList attrs children, props := attrs, since := 0, depr := Versions.notYet, bitfieldMember := bitfieldMember }
private def env0 : Env := { dsl := 7, schemaVersion := 0, schemaEndian := .little, strToNumeric := fun _ => none }
private def value (n v : String) : Xml := .elem "validValue".toList [("name".toList, n.toList), ("val".toList, v.toList)] []

/-- Refutation of "representable in the length": a `uint16` enum of length 1 accepts the value 256. -/
theorem C16_length_witness : ∃ st, EnumF.Accepted false st ∧ st.num.type = some .uint16 ∧ st.num.length = 1 ∧ hiBound .uint16 8 = 255 ∧
    st.values.map (fun p => p.2.value) = [256] := by
  have h : okWithE (EnumF.parseImpl env0 (ctx [("type".toList, "uint16".toList), ("length".toList, "1".toList)] [value "A" "256"]) {})
      (fun st => decide (st.num.type = some .uint16 ∧ st.num.length = 1 ∧ st.values.map (fun p => p.2.value) = [256] ∧ st.nonUnique = false))
      = true := by decide +kernel
  obtain ⟨st, h1, h2⟩ := okWithE_spec h
  obtain ⟨a, b, c, d⟩ := of_decide_eq_true h2
  exact ⟨st, d ▸ .fresh h1, a, b, by decide, c⟩

/-- Refutation of "unique unless this field allows duplicates": a reusing definition can withdraw the permission and keep the duplicates. -/
theorem C16_withdrawn_permission_witness : ∃ st, EnumF.Accepted true st ∧ st.nonUnique = false ∧
    st.values.map (fun p => p.2.value) = [1, 1] := by
  have h : okWithE (EnumF.parseImpl env0 (ctx [("type".toList, "uint8".toList), ("nonUniqueAllowed".toList, "true".toList)]
      [value "A" "1", value "B" "1"]) {}) (fun st => decide (st.nonUnique = true) &&
        okWithE (EnumF.parseImpl env0 (ctx [("nonUniqueAllowed".toList, "false".toList)]) st)
        (fun st => decide (st.nonUnique = false ∧ st.values.map (fun p => p.2.value) = [1, 1]))) = true := by decide +kernel
  obtain ⟨st, h1, h2⟩ := okWithE_spec h
  rw [Bool.and_eq_true] at h2
  obtain ⟨st', h3, h4⟩ := okWithE_spec h2.2
  have h4 := of_decide_eq_true h4
  have hn : st.nonUnique = true := of_decide_eq_true h2.1
  have := EnumF.Accepted.reuse (EnumF.Accepted.fresh h1) h3
  rw [hn] at this
  exact ⟨st', by simpa using this, h4⟩

/-! ## C17 -/

/-- The reverse table holds exactly the (value, name) pairs of the table of values, ordered by the stored number. -/
theorem C17_reverse_table (b : Bool) (st : EnumF.State) (h : EnumF.Accepted b st) :
    st.rev.Perm (st.values.map fun p => (p.2.value, p.1)) ∧ (st.rev.map Prod.fst).Pairwise (· ≤ ·) := by
  obtain ⟨t, hi⟩ := accepted_inv h
  exact ⟨hi.table.perm, hi.table.sorted⟩

/-- The order is the order of values for every type but `uint64` and `uintvar`. Missing from the full claim: those, see
    `C17_unsigned_order_witness`. -/
theorem C17_value_order_partial (b : Bool) (st : EnumF.State) (h : EnumF.Accepted b st) (t : IntType) (_ht : st.num.type = some t)
    (hb : t ≠ .uint64 ∧ t ≠ .uintvar) : (st.rev.map fun e => interp t e.1).Pairwise (· ≤ ·) := by
  have hs := (C17_reverse_table b st h).2
  have : ∀ x, interp t x = x := by
    intro x; unfold interp; rw [if_neg (by simp [hb.1, hb.2])]
  simpa [this] using hs

/-- The field reports to be unique exactly if no value occurs twice. -/
theorem C17_unique_iff (b : Bool) (st : EnumF.State) (h : EnumF.Accepted b st) :
    EnumF.isUnique st = true ↔ (st.values.map fun p => p.2.value).Nodup := by
  obtain ⟨t, hi⟩ := accepted_inv h
  unfold EnumF.isUnique
  rw [MultiMap.isUnique_iff _ hi.table.sorted]
  exact (vals_eq hi.table).nodup_iff

/-- Refutation for 64 bit unsigned enums: 2^64-1 comes before 1. -/
theorem C17_unsigned_order_witness : ∃ st, EnumF.Accepted false st ∧ st.num.type = some .uint64 ∧
    st.rev.map (fun e => interp .uint64 e.1) = [18446744073709551615, 1] := by
  have h : okWithE (EnumF.parseImpl env0 (ctx [("type".toList, "uint64".toList)] [value "A" "1", value "B" "0xffffffffffffffff"]) {})
      (fun st => decide (st.num.type = some .uint64 ∧ st.rev.map (fun e => interp .uint64 e.1) = [18446744073709551615, 1] ∧
        st.nonUnique = false)) = true := by decide +kernel
  obtain ⟨st, h1, h2⟩ := okWithE_spec h
  obtain ⟨a, b, d⟩ := of_decide_eq_true h2
  exact ⟨st, d ▸ .fresh h1, a, b⟩

/-- An accepted enum that reuses another one and adds values. -/
example : ∃ st, EnumF.Accepted false st ∧ st.values.map (fun p => (p.1, p.2.value)) = [("A".toList, 5), ("B".toList, 1), ("C".toList, 3)] ∧
    st.rev.map Prod.fst = [1, 3, 5] ∧ EnumF.isUnique st = true ∧ st.num.default = 5 := by
  have h : okWithE (EnumF.parseImpl env0 (ctx [("type".toList, "uint8".toList), ("defaultValue".toList, "A".toList)]
      [value "A" "5", value "B" "1"]) {}) (fun st => decide (st.nonUnique = false) &&
        okWithE (EnumF.parseImpl env0 (ctx [] [value "C" "3"]) st)
        (fun st => decide (st.nonUnique = false ∧ st.values.map (fun p => (p.1, p.2.value)) = [("A".toList, 5), ("B".toList, 1), ("C".toList, 3)] ∧
          st.rev.map Prod.fst = [1, 3, 5] ∧ EnumF.isUnique st = true ∧ st.num.default = 5))) = true := by decide +kernel
  obtain ⟨st, h1, h2⟩ := okWithE_spec h
  rw [Bool.and_eq_true] at h2
  obtain ⟨st', h3, h4⟩ := okWithE_spec h2.2
  obtain ⟨h5, h4⟩ := of_decide_eq_true h4
  have hn : st.nonUnique = false := of_decide_eq_true h2.1
  have := EnumF.Accepted.reuse (EnumF.Accepted.fresh h1) h3
  rw [hn, h5] at this
  exact ⟨st', this, h4⟩

end Commsdsl.Props
