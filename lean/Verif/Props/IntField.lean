import Verif.Lemmas.IntField
import Verif.Lemmas.Find
import Verif.Props.IntBounds
import Verif.Props.Text
/-!
# Properties C09, C10, C13, C14, C15 of accepted `<int>` fields
-/
namespace Commsdsl.Props
open Commsdsl IntF Spec Text

/-- The value, as stored by the parser, is a value of the type. -/
def OfType (t : IntType) (v : Int) : Prop := typeLo t ≤ interp t v ∧ interp t v ≤ typeHi t

private theorem inTypeRange_spec {t : IntType} {st : State} (h1 : st.typeMin = minTypeValue t) (h2 : st.typeMax = maxTypeValue t)
    {v : Int} (h : inTypeRange t st v = true) : OfType t v := by
  unfold inTypeRange at h
  rw [h1, h2] at h
  have h' : if isBigUnsigned t = true then True else minTypeValue t ≤ v ∧ v ≤ maxTypeValue t := by
    split
    · trivial
    · rename_i hb
      rw [if_neg hb, Bool.not_eq_true', Bool.or_eq_false_iff, decide_eq_false_iff_not, decide_eq_false_iff_not] at h
      omega
  unfold OfType typeLo typeHi interp
  cases t <;> simp [isBigUnsigned, minTypeValue, maxTypeValue, Signed, typeBits, i64Min, i64Max] at h' ⊢ <;> omega

/-- What holds of every accepted `<int>` field. -/
private structure Inv (st : State) (t : IntType) : Prop where
  ty : st.type = some t
  len : 0 < st.length ∧ st.length ≤ maxTypeLength t
  bits : st.bitLength ≤ 8 * st.length
  var : VarLen t → st.bitLength = 8 * st.length
  scal : st.scaling.1 ≠ 0 ∧ st.scaling.2 ≠ 0
  ser : i64Min ≤ st.serOffset ∧ st.serOffset ≤ i64Max
  dflt : OfType t st.default
  specs : ∀ p ∈ st.specials, OfType t p.2.value
  names : (st.specials.map Prod.fst).Nodup
  valid : ∀ p ∈ st.specials, isValidName p.1 = true
  bounds : ∃ s, s.bitLength = st.bitLength ∧ s.serOffset = st.serOffset ∧ updateMinMax t s = .ok { s with
    typeMin := minTypeValue t, typeMax := maxTypeValue t, min := st.min, max := st.max }

/-- What holds when `parseImpl` starts. -/
private def Pre (st : State) : Prop :=
  (st.type = none ∧ st.length = 0 ∧ st.bitLength = 0 ∧ st.serOffset = 0 ∧ st.default = 0 ∧ st.specials = []) ∨ ∃ t, Inv st t

private theorem zero_ofType (t : IntType) : OfType t 0 := by
  unfold OfType; cases t <;> decide

private theorem inv_step {env : Env} {c : Ctx} {st0 st : State} (hp : Pre st0) (h : parseImpl env c st0 = .ok st) : ∃ t, Inv st t := by
  obtain ⟨⟨t, s1, s2, s3, s4, s5, s6, s7, s8, s9, s10, s11, s12, s13, s14, s15, s16, s17, h1, ht, h2, h3, h4, h5, h6, h7, h8, h9, h10,
      h11, h12, h13, h14, h15, h16, h17, h18⟩⟩ := steps_of_ok h
  refine ⟨t, ?_⟩
  obtain ⟨ty, rfl, hty⟩ := updateType_ok h1
  simp only at ht
  subst ht
  obtain ⟨e, rfl⟩ := updateEndian_frame h2
  obtain ⟨len, rfl, hlen⟩ := updateLength_ok h3
  obtain ⟨bits, rfl, hbits⟩ := updateBitLength_ok h4
  have hscal : s5.scaling.1 ≠ 0 ∧ s5.scaling.2 ≠ 0 := by
    unfold updateScaling at h5
    split at h5
    · simp at h5
    simp only at h5
    split at h5
    · simp at h5
    · split at h5
      · simp at h5
      · rename_i hz
        simp only [Res.ok.injEq] at h5
        subst h5
        exact ⟨fun e => hz (Or.inl e), fun e => hz (Or.inr e)⟩
  obtain ⟨sc, rfl⟩ := updateScaling_frame h5
  obtain ⟨off, rfl, hoff⟩ := updateSerOffset_frame h6
  obtain ⟨a, b, rfl⟩ := updateMinMax_frame h7
  obtain ⟨nu, rfl⟩ := updateBool_frame h8
  obtain ⟨new, rfl, hnew, hnames, _⟩ := specialsLoop_ok _ h9
  obtain ⟨d1, rfl, hd1⟩ := updateDefault_ok h10
  obtain ⟨d2, r2, rfl, hd2⟩ := updateDefaultValid_ok h11
  obtain ⟨cv, rfl⟩ := updateValidCheckVersion_frame h12
  obtain ⟨r3, rfl⟩ := updateValidRanges_frame h13
  obtain ⟨u, dd, o, g, al, rfl⟩ := tail_frame h14 h15 h16 h17 h18
  simp only at hlen hbits hscal hoff hnew hnames hd1 hd2
  have rng : ∀ {s : State} {v : Int}, s.typeMin = minTypeValue t → s.typeMax = maxTypeValue t → inTypeRange t s v = true → OfType t v :=
    fun ha hb hc => inTypeRange_spec ha hb hc
  have hdef0 : OfType t st0.default := by
    rcases hp with ⟨_, _, _, _, h0, _⟩ | ⟨t0, hi⟩
    · rw [h0]; exact zero_ofType t
    · rcases hty with hty | hty
      · rw [hi.ty] at hty; cases hty
      · rw [hi.ty] at hty; cases hty; exact hi.dflt
  have hd1' : OfType t d1 := by
    rcases hd1 with h | h
    · rw [h]; exact hdef0
    · exact rng rfl rfl h
  refine ⟨rfl, ?_, ?_, ?_, hscal, ?_, ?_, ?_, ?_, ?_, ⟨_, ?_, ?_, h7⟩⟩
  · rcases hlen with ⟨_, h1, h2⟩ | ⟨h1, h2⟩
    · exact ⟨h1, h2⟩
    · rcases hp with ⟨_, h0, _⟩ | ⟨t0, hi⟩
      · exact absurd h0 h1
      · rcases hty with hty | hty
        · rw [hi.ty] at hty; cases hty
        · rw [hi.ty] at hty; cases hty; rw [h2]; exact hi.len
  · show bits ≤ 8 * len
    rcases hbits with h | ⟨h1, h2⟩ | ⟨_, h, _⟩
    · omega
    · rcases hp with ⟨_, _, h0, _⟩ | ⟨t0, hi⟩
      · exact absurd h0 h1
      · have := hi.bits; have := hi.len; omega
    · omega
  · intro hv
    show bits = 8 * len
    rcases hbits with h | ⟨h1, h2⟩ | ⟨_, h, h3, h4⟩
    · omega
    · rcases hp with ⟨_, _, h0, _⟩ | ⟨t0, hi⟩
      · exact absurd h0 h1
      · rcases hty with hty | hty
        · rw [hi.ty] at hty; cases hty
        · rw [hi.ty] at hty; cases hty; have := hi.var hv; have := hi.len; omega
    · rcases hv with hv | hv
      · exact absurd hv h3
      · exact absurd hv h4
  · show i64Min ≤ off ∧ off ≤ i64Max
    rcases hoff with h | ⟨s, hs⟩
    · rw [h]
      rcases hp with ⟨_, _, _, h0, _⟩ | ⟨t0, hi⟩
      · rw [h0]; decide
      · exact hi.ser
    · obtain ⟨_, _, _, _, _, _, h1, h2⟩ := C01_intmax_sound s off hs
      have e1 : i64Min = -9223372036854775808 := rfl
      have e2 : i64Max = 9223372036854775807 := rfl
      omega
  · show OfType t d2
    rcases hd2 with h | h
    · rw [h]; exact hd1'
    · exact rng rfl rfl h
  · show ∀ p ∈ st0.specials ++ new, _
    intro p hpm
    rcases List.mem_append.1 hpm with hpm | hpm
    · rcases hp with ⟨_, _, _, _, _, h0⟩ | ⟨t0, hi⟩
      · rw [h0] at hpm; simp at hpm
      · rcases hty with hty | hty
        · rw [hi.ty] at hty; cases hty
        · rw [hi.ty] at hty; cases hty; exact hi.specs p hpm
    · exact rng rfl rfl (hnew p hpm).1
  · apply hnames
    rcases hp with ⟨_, _, _, _, _, h0⟩ | ⟨t0, hi⟩
    · rw [h0]; simp
    · exact hi.names
  · show ∀ p ∈ st0.specials ++ new, _
    intro p hpm
    rcases List.mem_append.1 hpm with hpm | hpm
    · rcases hp with ⟨_, _, _, _, _, h0⟩ | ⟨t0, hi⟩
      · rw [h0] at hpm; simp at hpm
      · exact hi.valid p hpm
    · exact (hnew p hpm).2
  · rfl
  · rfl

private theorem pre_init (env : Env) : Pre (initState env) := Or.inl ⟨rfl, rfl, rfl, rfl, rfl, rfl⟩

private theorem accepted_inv {st : State} (h : Accepted st) : ∃ t, Inv st t := by
  induction h with
  | fresh h => exact inv_step (pre_init _) h
  | reuse _ h ih => exact inv_step (Or.inr ih) h

/-- All bounds are `std::intmax_t`. -/
theorem accepted_max_le {st : State} (h : Accepted st) : st.max ≤ 9223372036854775807 := by
  obtain ⟨t, hi⟩ := accepted_inv h
  obtain ⟨s, _, _, hm⟩ := hi.bounds
  have cast : ∀ x : Int, castI64 x ≤ 9223372036854775807 := by intro x; unfold castI64; omega
  have hcalc : ∀ {t : IntType} {b : Nat} {x : Int}, calcMaxValue t b = .ok x → x ≤ 9223372036854775807 := by
    intro t b x h
    unfold calcMaxValue at h
    split at h
    · simp only [Res.bind_eq_ok, Res.pure_eq, Res.ok.injEq] at h
      obtain ⟨_, _, rfl⟩ := h; exact cast _
    · split at h
      · unfold calcMaxVarSigned at h
        split at h
        · cases h; decide
        · simp only [Res.bind_eq_ok, Res.pure_eq, Res.ok.injEq] at h
          obtain ⟨_, _, rfl⟩ := h; exact cast _
      · split at h
        · simp only [Res.bind_eq_ok, Res.pure_eq, Res.ok.injEq] at h
          obtain ⟨_, _, rfl⟩ := h; exact cast _
        · unfold calcMaxFixedSigned at h
          split at h
          · cases h; decide
          · split at h
            · cases h
            · simp only [Res.bind_eq_ok, Res.pure_eq, Res.ok.injEq] at h
              obtain ⟨_, _, rfl⟩ := h; exact cast _
  have hsub : ∀ {a b r : Int}, subI64 a b = .ok r → r ≤ 9223372036854775807 := by
    intro a b r h
    unfold subI64 at h
    split at h
    · cases h
    · rename_i hn
      cases h
      have e2 : i64Max = 9223372036854775807 := rfl
      omega
  unfold updateMinMax at hm
  simp only [Res.bind_eq_ok] at hm
  obtain ⟨mn, h1, mx, h2, hm⟩ := hm
  split at hm
  · simp only [Res.pure_eq, Res.ok.injEq] at hm
    have := congrArg State.max hm
    simp only at this
    rw [← this]; exact hcalc h2
  · rw [Res.bind_eq_ok] at hm
    obtain ⟨_, _, hm⟩ := hm
    split at hm
    · simp only [Res.bind_eq_ok] at hm
      obtain ⟨a, _, b, hb, hm⟩ := hm
      simp only [Res.pure_eq, Res.ok.injEq] at hm
      have := congrArg State.max hm
      simp only at this
      rw [← this]
      unfold maxUpdateS at hb
      split at hb
      · split at hb
        · exact hsub hb
        · cases hb; exact hcalc h2
      · exact hsub hb
    · simp only [Res.pure_eq, Res.ok.injEq] at hm
      have := congrArg State.max hm
      simp only at this
      rw [← this]; exact cast _

/-! ## C09 -/

/-- An accepted field has a type, a length within it and, for variable length types, whole bytes; together with `C09_accepted_bounds` this
    makes the bounds of accepted fields exact. -/
theorem C09_accepted_length (st : State) (h : Accepted st) :
    ∃ t, st.type = some t ∧ 0 < st.length ∧ st.length ≤ maxTypeLength t ∧ st.bitLength ≤ 8 * st.length ∧
      (0 < st.bitLength → WireBits t st.bitLength) := by
  obtain ⟨t, hi⟩ := accepted_inv h
  have := hi.len; have := hi.bits
  refine ⟨t, hi.ty, hi.len.1, hi.len.2, hi.bits, fun h0 => ⟨h0, by omega, fun hv => ⟨_, hi.var hv⟩⟩⟩

/-- The bounds reported for an accepted field without serialisation offset are exactly those of its type and wire bits. -/
theorem C09_accepted_bounds (st : State) (h : Accepted st) (h0 : 0 < st.bitLength) (hs : st.serOffset = 0) :
    ∃ t, st.type = some t ∧ interp t st.min = loBound t st.bitLength ∧ interp t st.max = hiBound t st.bitLength := by
  obtain ⟨t, hi⟩ := accepted_inv h
  have hl := hi.len; have hb := hi.bits
  obtain ⟨s, e1, e2, hu⟩ := hi.bounds
  refine ⟨t, hi.ty, ?_⟩
  obtain ⟨lo, hi', ha, hb', hc, hd⟩ := C09_bounds_exact t st.bitLength ⟨h0, by omega, fun hv => ⟨_, hi.var hv⟩⟩
  unfold updateMinMax at hu
  rw [e1, ha, hb'] at hu
  simp only [Res.bind_ok] at hu
  rw [if_pos (by rw [e2]; exact hs)] at hu
  simp only [Res.pure_eq, Res.ok.injEq, State.mk.injEq] at hu
  rw [← hc, ← hd]
  obtain ⟨_, _, _, _, _, _, _, h3, h4, _⟩ := hu
  rw [h3, h4]
  exact ⟨rfl, rfl⟩

/-- An `<int>` element with the given attributes. -/
private def ctx (attrs : List (Str × Str)) (children : List Xml := []) (bitfieldMember : Bool := false) : Ctx :=
  { node := .elem "int".toList attrs children, props := attrs, since := 0, depr := Versions.notYet, bitfieldMember := bitfieldMember }
private def env0 : Env := { dsl := 7, schemaVersion := 0, schemaEndian := .little, strToNumeric := fun _ => none }

/-- Refutation of "acceptance is decided without undefined behaviour": `bitLength="0"` on a signed bitfield member passes the length check and
    shifts by -1. -/
theorem C09_zero_bits_accepted_witness :
    parseImpl env0 (ctx [("type".toList, "int8".toList), ("bitLength".toList, "0".toList)] [] true) (initState env0) = .ub := by
  decide +kernel

/-! ## C10 -/

/-- Default and special values of an accepted field belong to the field's type. Missing from the full claim: to its length, see
    `C10_length_witness`. -/
theorem C10_default_specials_of_type_partial (st : State) (h : Accepted st) :
    ∃ t, st.type = some t ∧ (typeLo t ≤ interp t st.default ∧ interp t st.default ≤ typeHi t) ∧
      ∀ p ∈ st.specials, typeLo t ≤ interp t p.2.value ∧ interp t p.2.value ≤ typeHi t := by
  obtain ⟨t, hi⟩ := accepted_inv h
  exact ⟨t, hi.ty, hi.dflt, hi.specs⟩

/-- `parseImpl` gives a state in which `p` holds. -/
def okWith (r : Res State) (p : State → Bool) : Bool := match r with
  | .ok st => p st
  | _ => false

theorem okWith_spec {r : Res State} {p : State → Bool} (h : okWith r p = true) : ∃ st, r = .ok st ∧ p st = true := by
  cases r with
  | ok st => exact ⟨st, rfl, h⟩
  | err => simp [okWith] at h
  | ub => simp [okWith] at h

/-- Refutation of the full claim: a `uint32` of length 1 (bounds 0..255) accepts the default value 300 and the special value 1000. -/
theorem C10_length_witness : ∃ st, Accepted st ∧ st.type = some .uint32 ∧ st.length = 1 ∧ hiBound .uint32 8 = 255 ∧ st.default = 300 ∧
    st.specials.map (fun p => p.2.value) = [1000] := by
  have h : okWith (parseImpl env0 (ctx [("type".toList, "uint32".toList), ("length".toList, "1".toList), ("defaultValue".toList, "300".toList)]
      [.elem "special".toList [("name".toList, "S".toList), ("val".toList, "1000".toList)] []]) (initState env0))
      (fun st => decide (st.type = some .uint32 ∧ st.length = 1 ∧ st.default = 300 ∧ st.specials.map (fun p => p.2.value) = [1000])) = true := by
    decide +kernel
  obtain ⟨st, h1, h2⟩ := okWith_spec h
  obtain ⟨a, b, c, d⟩ := of_decide_eq_true h2
  exact ⟨st, .fresh h1, a, b, by decide, c, d⟩

/-! ## C13 on accepted fields -/

/-- Every value between the reported bounds of an accepted field, shifted by the offset, is representable on the wire, for signed types and for
    unsigned types whose offset does not exceed the largest wire value. -/
theorem C13_accepted_partial (st : State) (h : Accepted st) (h0 : 0 < st.bitLength) (t : IntType) (ht : st.type = some t)
    (hsmall : ¬ Signed t → st.serOffset ≤ hiBound t st.bitLength)
    (v : Int) (hlo : interp t st.min ≤ v) (hhi : v ≤ interp t st.max) :
    loBound t st.bitLength ≤ v + st.serOffset ∧ v + st.serOffset ≤ hiBound t st.bitLength := by
  obtain ⟨t', hi⟩ := accepted_inv h
  have : t' = t := by have := hi.ty; rw [ht] at this; cases this; rfl
  subst this
  have hl := hi.len; have hb := hi.bits
  obtain ⟨s, e1, e2, hu⟩ := hi.bounds
  have hw : WireBits t' s.bitLength := by rw [e1]; exact ⟨h0, by omega, fun hv => ⟨_, hi.var hv⟩⟩
  have := C13_wire_value_fits_partial t' s _ hw (by rw [e2]; exact hi.ser) (by rw [e1, e2]; exact hsmall) hu v hlo hhi
  rw [e1, e2] at this
  exact this

/-! ## C14 -/

/-- No two special values of an accepted field, inherited ones included, have the same name. -/
theorem C14_names_unique (st : State) (h : Accepted st) : (st.specials.map Prod.fst).Nodup := by
  obtain ⟨t, hi⟩ := accepted_inv h
  exact hi.names

/-- The names of special values are valid names. -/
theorem C14_names_valid (st : State) (h : Accepted st) : ∀ p ∈ st.specials, isValidName p.1 = true := by
  obtain ⟨t, hi⟩ := accepted_inv h
  exact hi.valid

/-- In a new definition that does not allow duplicates no two special values are equal. Missing from the full claim: the comparison with
    inherited ones, see `C14_inherited_value_witness`. -/
theorem C14_values_unique_partial (env : Env) (c : Ctx) (st : State) (h : parseImpl env c (initState env) = .ok st)
    (hn : st.nonUniqueSpecials = false) : (st.specials.map fun p => p.2.value).Nodup := by
  obtain ⟨⟨t, s1, s2, s3, s4, s5, s6, s7, s8, s9, s10, s11, s12, s13, s14, s15, s16, s17, h1, ht, h2, h3, h4, h5, h6, h7, h8, h9, h10,
      h11, h12, h13, h14, h15, h16, h17, h18⟩⟩ := steps_of_ok h
  obtain ⟨ty, rfl, hty⟩ := updateType_ok h1
  obtain ⟨e, rfl⟩ := updateEndian_frame h2
  obtain ⟨len, rfl, hlen⟩ := updateLength_ok h3
  obtain ⟨bits, rfl, hbits⟩ := updateBitLength_ok h4
  obtain ⟨sc, rfl⟩ := updateScaling_frame h5
  obtain ⟨off, rfl, hoff⟩ := updateSerOffset_frame h6
  obtain ⟨a, b, rfl⟩ := updateMinMax_frame h7
  obtain ⟨nu, rfl⟩ := updateBool_frame h8
  obtain ⟨new, rfl, hnew, _, hvals⟩ := specialsLoop_ok _ h9
  obtain ⟨d1, rfl, hd1⟩ := updateDefault_ok h10
  obtain ⟨d2, r2, rfl, hd2⟩ := updateDefaultValid_ok h11
  obtain ⟨cv, rfl⟩ := updateValidCheckVersion_frame h12
  obtain ⟨r3, rfl⟩ := updateValidRanges_frame h13
  obtain ⟨u, dd, o, g, al, rfl⟩ := tail_frame h14 h15 h16 h17 h18
  simpa [initState] using hvals hn (by simp)

/-- Refutation of the full claim: a field that reuses one with special `A = 5` can add `B = 5`. -/
theorem C14_inherited_value_witness : ∃ st, Accepted st ∧ st.nonUniqueSpecials = false ∧
    st.specials.map (fun p => (p.1, p.2.value)) = [("A".toList, 5), ("B".toList, 5)] := by
  let base := parseImpl env0 (ctx [("type".toList, "uint8".toList)]
      [.elem "special".toList [("name".toList, "A".toList), ("val".toList, "5".toList)] []]) (initState env0)
  let c2 := ctx [] [.elem "special".toList [("name".toList, "B".toList), ("val".toList, "5".toList)] []]
  have h : okWith base (fun st => okWith (parseImpl env0 c2 st) (fun st => decide (st.nonUniqueSpecials = false ∧
      st.specials.map (fun p => (p.1, p.2.value)) = [("A".toList, 5), ("B".toList, 5)]))) = true := by
    decide +kernel
  obtain ⟨st, h1, h2⟩ := okWith_spec h
  obtain ⟨st', h3, h4⟩ := okWith_spec h2
  exact ⟨st', .reuse (.fresh h1) h3, of_decide_eq_true h4⟩

/-! ## C15 -/

/-- Numerator and denominator of an accepted field are not zero. -/
theorem C15_nonzero (st : State) (h : Accepted st) : st.scaling.1 ≠ 0 ∧ st.scaling.2 ≠ 0 := by
  obtain ⟨t, hi⟩ := accepted_inv h
  exact hi.scal

private theorem scaling_of_ok {env : Env} {c : Ctx} {st0 st : State} (h : parseImpl env c st0 = .ok st) :
    ∃ s s', updateScaling c s = .ok s' ∧ s'.scaling = st.scaling ∧ s.scaling = st0.scaling := by
  obtain ⟨⟨t, s1, s2, s3, s4, s5, s6, s7, s8, s9, s10, s11, s12, s13, s14, s15, s16, s17, h1, ht, h2, h3, h4, h5, h6, h7, h8, h9, h10,
      h11, h12, h13, h14, h15, h16, h17, h18⟩⟩ := steps_of_ok h
  refine ⟨s4, s5, h5, ?_, ?_⟩
  · obtain ⟨off, rfl, hoff⟩ := updateSerOffset_frame h6
    obtain ⟨a, b, rfl⟩ := updateMinMax_frame h7
    obtain ⟨nu, rfl⟩ := updateBool_frame h8
    obtain ⟨new, rfl, hnew, _, hvals⟩ := specialsLoop_ok _ h9
    obtain ⟨d1, rfl, hd1⟩ := updateDefault_ok h10
    obtain ⟨d2, r2, rfl, hd2⟩ := updateDefaultValid_ok h11
    obtain ⟨cv, rfl⟩ := updateValidCheckVersion_frame h12
    obtain ⟨r3, rfl⟩ := updateValidRanges_frame h13
    obtain ⟨u, dd, o, g, al, rfl⟩ := tail_frame h14 h15 h16 h17 h18
    rfl
  · obtain ⟨ty, rfl, hty⟩ := updateType_ok h1
    obtain ⟨e, rfl⟩ := updateEndian_frame h2
    obtain ⟨len, rfl, hlen⟩ := updateLength_ok h3
    obtain ⟨bits, rfl, hbits⟩ := updateBitLength_ok h4
    rfl

private theorem denotesU_noslash {s : Str} {n : Nat} (h : DenotesU s n) : '/' ∉ s := by
  have hd : ¬ DecDigit '/' := by decide
  have ho : ¬ OctDigit '/' := by decide
  have hh : ¬ HexDigit '/' := by decide
  cases h with
  | dec c cs _ h => intro hm; exact hd (h _ hm)
  | oct cs h =>
    intro hm
    rcases List.mem_cons.1 hm with hm | hm
    · exact absurd hm (by decide)
    · exact ho (h _ hm)
  | hex x cs hx _ h =>
    intro hm
    rcases List.mem_cons.1 hm with hm | hm
    · exact absurd hm (by decide)
    · rcases List.mem_cons.1 hm with hm | hm
      · rcases hx with rfl | rfl <;> exact absurd hm (by decide)
      · exact hh (h _ hm)

private theorem denotes_noslash {s : Str} {v : Int} (h : Denotes s v) : '/' ∉ s := by
  cases h with
  | plain h => exact denotesU_noslash h
  | plus h =>
    intro hm
    rcases List.mem_cons.1 hm with hm | hm
    · exact absurd hm (by decide)
    · exact denotesU_noslash h hm
  | minus h =>
    intro hm
    rcases List.mem_cons.1 hm with hm | hm
    · exact absurd hm (by decide)
    · exact denotesU_noslash h hm

private theorem denotes_ne {s : Str} {v : Int} (h : Denotes s v) : s ≠ [] := by
  rintro rfl
  cases h with
  | plain h => cases h

/-- The ratio of an accepted field is the one written. -/
theorem C15_ratio_exact (env : Env) (c : Ctx) (st0 st : State) (h : parseImpl env c st0 = .ok st) (a b : Str) (x y : Int)
    (ha : Denotes a x) (hb : Denotes b y) (hx : -2 ^ 63 ≤ x ∧ x < 2 ^ 63) (hy : -2 ^ 63 ≤ y ∧ y < 2 ^ 63) :
    (c.props.getStr "scaling".toList = a ++ '/' :: b → st.scaling = (x, y)) ∧
    (c.props.getStr "scaling".toList = a → st.scaling = (x, 1)) := by
  obtain ⟨s, s', hu, he, _⟩ := scaling_of_ok h
  have hane := denotes_ne ha
  have hbne := denotes_ne hb
  have hans := denotes_noslash ha
  have hbns := denotes_noslash hb
  rw [← he]
  unfold updateScaling at hu
  split at hu
  · simp at hu
  simp only at hu
  constructor
  · intro hs
    rw [hs] at hu
    have hp : parseScaling (a ++ '/' :: b) = some (x, y) := by
      unfold parseScaling
      have hf : findFrom '/' (a ++ '/' :: b) 0 = some a.length := by
        unfold findFrom
        simp only [List.drop_zero, Nat.add_zero, Option.map_id']
        rw [List.findIdx?_eq_some_iff_getElem]
        refine ⟨by simp, by simp, ?_⟩
        intro j hj
        rw [List.getElem_append_left hj]
        simp only [beq_iff_eq]
        intro e
        exact hans (e ▸ List.getElem_mem hj)
      have hf2 : findFrom '/' (a ++ '/' :: b) (a.length + 1) = none := by
        rw [findFrom_none]
        simpa using hbns
      rw [hf]
      simp only [hf2]
      have e1 : (a ++ '/' :: b).take a.length = a := by simp
      have e2 : (a ++ '/' :: b).drop (a.length + 1) = b := by simp
      rw [e1, e2]
      simp [hane, hbne, C01_intmax_exact a x ha hx.1 hx.2, C01_intmax_exact b y hb hy.1 hy.2]
    rw [if_neg (by simp), hp] at hu
    simp only at hu
    split at hu
    · simp at hu
    · simp only [Res.ok.injEq] at hu; rw [← hu]
  · intro hs
    rw [hs] at hu
    have hp : parseScaling a = some (x, 1) := by
      unfold parseScaling
      rw [(findFrom_none (c := '/') (s := a) (k := 0)).2 (by simpa using hans)]
      simp [C01_intmax_exact a x ha hx.1 hx.2]
    rw [if_neg (by simpa using hane), hp] at hu
    simp only at hu
    split at hu
    · simp at hu
    · simp only [Res.ok.injEq] at hu; rw [← hu]

/-- Without a `scaling` property a new field has ratio 1 and a reusing one keeps the ratio. -/
theorem C15_default (env : Env) (c : Ctx) (st0 st : State) (h : parseImpl env c st0 = .ok st)
    (hs : c.props.getStr "scaling".toList = []) :
    (st0 = initState env → st.scaling = (1, 1)) ∧ (Accepted st0 → st.scaling = st0.scaling) := by
  obtain ⟨s, s', hu, he, he0⟩ := scaling_of_ok h
  rw [← he]
  unfold updateScaling at hu
  split at hu
  · simp at hu
  simp only [hs, he0] at hu
  simp only [List.isEmpty_nil, if_true] at hu
  constructor
  · rintro rfl
    simp only [initState, if_true] at hu
    rw [if_neg (by decide)] at hu
    simp only [Res.ok.injEq] at hu
    rw [← hu]
  · intro ha
    have := C15_nonzero st0 ha
    rw [if_neg this.1, if_neg this.2, if_neg (fun h => h.elim this.1 this.2)] at hu
    simp only [Res.ok.injEq] at hu
    rw [← hu]

/-- A zero numerator or denominator and a second slash are rejected. -/
example : ∀ s ∈ ["0".toList, "1/0".toList, "0/7".toList, "1/2/3".toList, "/2".toList, "3/".toList],
    parseImpl env0 (ctx [("type".toList, "uint8".toList), ("scaling".toList, s)]) (initState env0) = .err := by
  decide +kernel

/-- Accepted fields with all of it exist: offset, scaling, specials and a default given by a special. -/
example : ∃ st, Accepted st ∧ st.type = some .uint8 ∧ st.bitLength = 8 ∧ st.scaling = (1, 100) ∧ st.default = 255 ∧ st.serOffset = -5 ∧
    st.nonUniqueSpecials = false ∧ st.specials.map (fun p => (p.1, p.2.value)) = [("A".toList, 255), ("B".toList, 0)] := by
  have h : okWith (parseImpl env0 (ctx [("type".toList, "uint8".toList), ("scaling".toList, "1/100".toList), ("serOffset".toList, "-5".toList),
      ("defaultValue".toList, "A".toList)]
      [.elem "special".toList [("name".toList, "A".toList), ("val".toList, "0xff".toList)] [],
       .elem "special".toList [("name".toList, "B".toList), ("val".toList, "0".toList)] []]) (initState env0))
      (fun st => decide (st.type = some .uint8 ∧ st.bitLength = 8 ∧ st.scaling = (1, 100) ∧ st.default = 255 ∧ st.serOffset = -5 ∧
        st.nonUniqueSpecials = false ∧ st.specials.map (fun p => (p.1, p.2.value)) = [("A".toList, 255), ("B".toList, 0)])) = true := by
    decide +kernel
  obtain ⟨st, h1, h2⟩ := okWith_spec h
  exact ⟨st, .fresh h1, of_decide_eq_true h2⟩

end Commsdsl.Props
