import Verif.Spec.Reuse
import Verif.Lemmas.Message
import Verif.Lemmas.FieldObj
import Verif.Lemmas.FloatField
import Verif.Props.IntDeclared
/-!
# Reuse: what each step of parsing leaves alone when the element says nothing about it
-/
namespace Commsdsl.Props
open Commsdsl Text Spec Fld Msg

namespace ReuseProofs

/-! ## Attributes -/

theorem supported_plain {dsl : Nat} {key : Str} (h : (Dsl.supportedTable.find? fun p => p.1 == key) = none) : Dsl.propertySupported dsl key = true := by
  unfold Dsl.propertySupported
  rw [h]

theorem known_plain {dsl : Nat} {props : Props} {key : Str} (h : (Dsl.supportedTable.find? fun p => p.1 == key) = none) : known dsl props key = props.find key := by
  unfold known
  rw [if_pos (supported_plain h)]

theorem bool_takes {dsl : Nat} {props : Props} {key : Str} {cur b : Bool} (h : IntF.updateBool dsl props key cur = .ok b) : Takes (known dsl props key) cur BoolText b := by
  unfold IntF.updateBool at h
  split at h
  · cases h
  unfold known
  cases hf : props.find key with
  | none =>
    rw [hf] at h
    cases h
    split <;> rfl
  | some s =>
    rw [hf] at h
    dsimp only at h
    cases hp : Dsl.propertySupported dsl key with
    | false =>
      rw [hp] at h
      cases h
      rfl
    | true =>
      rw [hp] at h
      exact (C06_bool_iff s b).1 (Res.ofOption_eq_ok.1 h)

theorem deref_takes {env : FEnv} {props : Props} {key cur r : Str} (h : derefProp env props key cur = .ok r) :
    Takes (props.find key) cur (fun s r => stringValue env s = some r) r := by
  unfold derefProp at h
  split at h
  · cases h
  cases hf : props.find key with
  | none => rw [hf] at h; cases h; rfl
  | some s => rw [hf] at h; exact Res.ofOption_eq_ok.1 h

theorem name_takes {props : Props} {cur r : Str} (h : nameProp props cur = .ok r) : Takes (props.find "name".toList) cur (fun s r => r = s) r := by
  unfold nameProp at h
  split at h
  · cases h
  dsimp only at h
  split at h
  · cases h
    cases hf : props.find "name".toList <;> rfl
  · cases h

theorem str_takes {props : Props} {key cur r : Str} (h : strProp props key cur = .ok r) : Takes (props.find key) cur (fun s r => r = s) r := by
  unfold strProp at h
  split at h
  · cases h
  · cases h
    cases hf : props.find key <;> rfl

theorem order_takes {props : Props} {cur r : Nat} (h : msgOrder props cur = .ok r) : Takes (props.find "order".toList) cur (fun s r => strToUnsigned s = some r) r := by
  unfold msgOrder at h
  split at h
  · cases h
  cases hf : props.find "order".toList with
  | none => rw [hf] at h; cases h; rfl
  | some s => rw [hf] at h; exact Res.ofOption_eq_ok.1 h

theorem sender_takes {props : Props} {cur r : Sender} (h : msgSender props cur = .ok r) : Takes (props.find "sender".toList) cur SenderText r := by
  unfold msgSender at h
  split at h
  · cases h
  cases hf : props.find "sender".toList with
  | none => rw [hf] at h; cases h; rfl
  | some s =>
    rw [hf] at h
    dsimp only at h
    split at h
    · cases h; rename_i e; exact .both e
    split at h
    · cases h; rename_i e; exact .client e
    split at h
    · cases h; rename_i e; exact .server e
    · cases h

theorem msgMinLen_takes {dsl : Nat} {props : Props} {cur r : Int} (h : msgMinLen dsl props cur = .ok r) :
    Takes (known dsl props "validateMinLength".toList) cur (fun s r => ∃ v, strToUnsigned s = some v ∧ r = castI32 v) r := by
  unfold msgMinLen at h
  split at h
  · cases h
  unfold known
  cases hf : props.find "validateMinLength".toList with
  | none => rw [hf] at h; cases h; split <;> rfl
  | some s =>
    rw [hf] at h
    dsimp only at h
    cases hp : Dsl.propertySupported dsl "validateMinLength".toList with
    | false => rw [hp] at h; cases h; rfl
    | true =>
      rw [hp] at h
      simp only [Bool.not_true, Bool.false_eq_true, if_false] at h
      cases hv : strToUnsigned s with
      | none => rw [hv] at h; cases h
      | some v => rw [hv] at h; exact ⟨v, hv, (Res.ok.inj h).symm⟩

theorem sem_takes {props : Props} {cur r : Sem} (h : updateSem props cur = .ok r) : Takes (props.find "semanticType".toList) cur SemText r := by
  unfold updateSem at h
  split at h
  · cases h
  cases hf : props.find "semanticType".toList with
  | none => rw [hf] at h; cases h; rfl
  | some s =>
    rw [hf] at h
    dsimp only at h
    split at h
    · cases h
      rename_i e
      rw [List.isEmpty_iff.1 e]
      exact .empty
    split at h
    · cases h; rename_i e; exact .none e
    split at h
    · cases h; rename_i e; exact .version e
    split at h
    · cases h; rename_i e; exact .messageId e
    split at h
    · cases h; rename_i e; exact .length e
    · cases h

/-- The two properties of reuse. -/
theorem extras_code {dsl : Nat} {props : Props} {s : Str} {b : Bool} (hs : props.find "reuse".toList = some s)
    (h : IntF.updateBool dsl props "reuseCode".toList false = .ok b) : CodeReused dsl props (if b then s else []) := by
  have := bool_takes h
  unfold Takes at this
  unfold CodeReused
  cases hk : known dsl props "reuseCode".toList with
  | none =>
    rw [hk] at this
    dsimp only at this
    subst this
    exact .inr ⟨fun ⟨t, ht, _⟩ => (by cases ht), rfl⟩
  | some t =>
    rw [hk] at this
    dsimp only at this
    cases b with
    | true => exact .inl ⟨⟨t, rfl, this⟩, hs⟩
    | false =>
      refine .inr ⟨fun ⟨t', ht, h1⟩ => ?_, rfl⟩
      cases ht
      have e1 := (C06_bool_iff t true).2 h1
      have e2 := (C06_bool_iff t false).2 this
      rw [e1] at e2
      cases e2

theorem msgCode_takes {env : MEnv} {props : Props} {cur r : Str} (h : msgCopyCode env props cur = .ok r) :
    Takes (known env.dsl props "copyCodeFrom".toList) cur (fun s r => r = s) r := by
  unfold msgCopyCode at h
  split at h
  · cases h
  unfold known
  cases hf : props.find "copyCodeFrom".toList with
  | none => rw [hf] at h; cases h; split <;> rfl
  | some s =>
    rw [hf] at h
    dsimp only at h
    cases hp : Dsl.propertySupported env.dsl "copyCodeFrom".toList with
    | false => rw [hp] at h; cases h; rfl
    | true =>
      rw [hp] at h
      simp only [Bool.not_true, Bool.false_eq_true, if_false] at h
      split at h
      · cases h
      · cases h; rfl

theorem fieldCode_takes {env : FEnv} {props : Props} {cur r : Str} (h : updateCopyCode env props cur = .ok r) :
    Takes (known env.dsl props "copyCodeFrom".toList) cur (fun s r => r = s) r := by
  unfold updateCopyCode at h
  split at h
  · cases h
  unfold known
  cases hf : props.find "copyCodeFrom".toList with
  | none => rw [hf] at h; cases h; split <;> rfl
  | some s =>
    rw [hf] at h
    dsimp only at h
    cases hp : Dsl.propertySupported env.dsl "copyCodeFrom".toList with
    | false => rw [hp] at h; cases h; rfl
    | true =>
      rw [hp] at h
      simp only [Bool.not_true, Bool.false_eq_true, if_false] at h
      split at h
      · cases h
      · cases h; rfl

/-! ## Content -/

/-- Only common properties, no children. -/
structure Bare (c : IntF.Ctx) : Prop where
  find : ∀ k, k ∉ commonProps → c.props.find k = none
  kids : ∀ names skip, getChildren c.node names skip = []
  attr : ∀ k, k ∉ commonProps → (nodeProps c.node).find k = none

theorem vs_none {p : Props} {k : Str} (h : p.find k = none) : p.validateSingle k = true := by
  have : p.count k = 0 := by
    unfold Props.count
    rw [List.countP_eq_zero]
    unfold Props.find at h
    rw [Option.map_eq_none_iff, List.find?_eq_none] at h
    intro a ha
    exact h a ha
  unfold Props.validateSingle
  rw [this]
  simp

theorem gs_none {p : Props} {k : Str} (h : p.find k = none) : p.getStr k = [] := by
  unfold Props.getStr
  rw [h]
  rfl

theorem bool_none {dsl : Nat} {p : Props} {k : Str} {cur : Bool} (h : p.find k = none) : IntF.updateBool dsl p k cur = .ok cur := by
  unfold IntF.updateBool
  rw [vs_none h, h]
  rfl

section
open IntF
variable {env : IntF.Env} {c : IntF.Ctx} (hb : Bare c) {st : IntF.State} {t : IntType}
include hb

theorem type_bare (h : st.type = some t) : updateType c st = .ok st := by
  unfold updateType
  have hf := hb.find "type".toList (by decide)
  rw [h]
  dsimp only [Option.isNone]
  rw [vs_none hf, hf]
  rfl

theorem endian_bare (h : st.endian.isSome = true) : updateEndian env c st = .ok st := by
  unfold updateEndian
  have hf := hb.find "endian".toList (by decide)
  rw [vs_none hf, gs_none hf, h]
  rfl

theorem length_bare (h : st.length ≠ 0) : updateLength c t st = .ok st := by
  unfold updateLength
  have hf := hb.find "length".toList (by decide)
  rw [vs_none hf, gs_none hf]
  dsimp only
  rw [if_neg (by simp), if_pos (by rfl), if_neg h]

theorem bits_bare (h : st.bitLength ≠ 0) : updateBitLength c t st = .ok st := by
  unfold updateBitLength
  have hf := hb.find "bitLength".toList (by decide)
  rw [vs_none hf, gs_none hf]
  dsimp only
  rw [if_neg (by simp), if_pos (by rfl), if_neg h]

theorem scaling_bare (h1 : st.scaling.1 ≠ 0) (h2 : st.scaling.2 ≠ 0) : updateScaling c st = .ok st := by
  unfold updateScaling
  have hf := hb.find "scaling".toList (by decide)
  rw [vs_none hf, gs_none hf]
  dsimp only
  rw [if_neg (by simp), if_pos (by rfl), if_neg h1, if_neg h2]
  dsimp only
  rw [if_neg (by simp [h1, h2])]

theorem offset_bare : updateSerOffset c st = .ok st := by
  unfold updateSerOffset
  have hf := hb.find "serOffset".toList (by decide)
  rw [vs_none hf, gs_none hf]
  rfl

theorem nonUnique_bare : updateNonUnique env c st = .ok st := by
  unfold updateNonUnique
  rw [bool_none (hb.find "nonUniqueSpecialsAllowed".toList (by decide))]
  rfl

theorem specials_bare : updateSpecials env c t st = .ok st := by
  unfold updateSpecials
  rw [hb.kids]
  rfl

theorem default_bare : updateDefault env c t st = .ok st := by
  unfold updateDefault
  have hf := hb.find "defaultValue".toList (by decide)
  rw [vs_none hf, gs_none hf]
  rfl

theorem defaultValid_bare : updateDefaultValid env c t st = .ok st := by
  unfold updateDefaultValid
  have hf := hb.find "defaultValidValue".toList (by decide)
  dsimp only
  rw [vs_none hf, hf]
  rfl

theorem vcv_bare : updateValidCheckVersion env c st = .ok st := by
  unfold updateValidCheckVersion
  rw [bool_none (hb.find "validCheckVersion".toList (by decide))]
  rfl

theorem rangeProps_bare (p : RangeProp) : checkRangeProps env c t p st = .ok st := by
  unfold checkRangeProps checkRangeAttr
  rw [hb.kids, hb.attr p.name (by cases p <;> decide)]
  rfl

theorem ranges_bare {rs : List RangeInfo} (h : normaliseRanges t st.validRanges = .ok rs) : updateValidRanges env c t st = .ok { st with validRanges := rs } := by
  unfold updateValidRanges
  rw [rangeProps_bare hb, Res.bind_ok, rangeProps_bare hb, Res.bind_ok, rangeProps_bare hb, Res.bind_ok, rangeProps_bare hb, Res.bind_ok, h]
  rfl

theorem tail_bare : (do
    let st ← updateUnits c st
    let st ← updateDisplayDecimals c st
    let st ← updateDisplayOffset c st
    let st ← updateSignExt env c st
    updateAvailableLengthLimit env c st) = Res.ok st := by
  have h1 := hb.find "units".toList (by decide)
  have h2 := hb.find "displayDecimals".toList (by decide)
  have h3 := hb.find "displayOffset".toList (by decide)
  have h4 := hb.find "signExt".toList (by decide)
  have h5 := hb.find "availableLengthLimit".toList (by decide)
  unfold updateUnits
  rw [vs_none h1, h1]
  dsimp only
  rw [if_neg (by simp), Res.bind_ok]
  unfold updateDisplayDecimals
  rw [vs_none h2, h2]
  dsimp only
  rw [if_neg (by simp), Res.bind_ok]
  unfold updateDisplayOffset
  rw [vs_none h3, h3]
  dsimp only
  rw [if_neg (by simp), Res.bind_ok]
  unfold updateSignExt updateAvailableLengthLimit
  rw [bool_none h4]
  simp only [Res.bind_ok, Res.pure_eq]
  rw [bool_none h5]
  rfl
end


theorem endian_some {env : IntF.Env} {c : IntF.Ctx} {st st' : IntF.State} (h : IntF.updateEndian env c st = .ok st') : st'.endian.isSome = true := by
  unfold IntF.updateEndian at h
  split at h
  · cases h
  dsimp only at h
  split at h
  · rename_i h1
    cases h
    exact (Bool.and_eq_true _ _ ▸ h1).2
  · split at h
    · cases h
    · cases h
      rfl

theorem scaling_ne {c : IntF.Ctx} {st st' : IntF.State} (h : IntF.updateScaling c st = .ok st') : st'.scaling.1 ≠ 0 ∧ st'.scaling.2 ≠ 0 := by
  unfold IntF.updateScaling at h
  split at h
  · cases h
  dsimp only at h
  split at h
  · cases h
  · split at h
    · cases h
    · rename_i h1
      cases h
      exact ⟨fun e => h1 (.inl e), fun e => h1 (.inr e)⟩

theorem bits_ne {c : IntF.Ctx} {t : IntF.IntType} {st st' : IntF.State} (h : IntF.updateBitLength c t st = .ok st') (hl : st.length ≠ 0) (hc : c.bitfieldMember = false) :
    st'.bitLength ≠ 0 := by
  unfold IntF.updateBitLength at h
  split at h
  · cases h
  dsimp only at h
  split at h
  · split at h
    · cases h; dsimp only; omega
    · cases h; assumption
  · rw [hc, if_pos (by rfl)] at h
    cases h
    dsimp only
    omega

/-- The limits depend on type, number of bits and offset only. -/
theorem minMax_again {t : IntF.IntType} {a a' b : IntF.State} (h : IntF.updateMinMax t a = .ok a') (h1 : b.bitLength = a.bitLength) (h2 : b.serOffset = a.serOffset)
    (h3 : b.typeMin = a'.typeMin) (h4 : b.typeMax = a'.typeMax) (h5 : b.min = a'.min) (h6 : b.max = a'.max) : IntF.updateMinMax t b = .ok b := by
  obtain ⟨x, y, e⟩ := IntF.updateMinMax_frame h
  unfold IntF.updateMinMax at h ⊢
  rw [Res.bind_eq_ok] at h
  obtain ⟨mn, k1, h⟩ := h
  rw [Res.bind_eq_ok] at h
  obtain ⟨mx, k2, h⟩ := h
  rw [h1, k1, Res.bind_ok, k2, Res.bind_ok]
  cases a
  cases b
  cases a'
  dsimp only at *
  subst h1 h2 h3 h4 h5 h6
  injection e
  subst_vars
  split at h
  · rw [if_pos (by assumption)]
    simp only [Res.pure_eq] at h ⊢
    cases h
    rfl
  · rw [if_neg (by assumption)]
    simp only [Res.bind_eq_ok] at h
    obtain ⟨u, k3, h⟩ := h
    unfold IntF.checkSerOffset at k3 ⊢
    dsimp only at k3 ⊢
    rw [k3, Res.bind_ok]
    split at h
    · rw [if_pos (by assumption)]
      simp only [Res.bind_eq_ok, Res.pure_eq] at h ⊢
      obtain ⟨m1, q1, m2, q2, h⟩ := h
      cases h
      exact ⟨_, q1, _, q2, rfl⟩
    · rw [if_neg (by assumption)]
      simp only [Res.pure_eq] at h ⊢
      have e1 := congrArg IntF.State.min (Res.ok.inj h)
      have e2 := congrArg IntF.State.max (Res.ok.inj h)
      dsimp only at e1 e2
      rw [e1, e2]


/-- What `parseImpl` of an int leaves: enough to run again. -/
structure Settled (t : IntF.IntType) (st : IntF.State) : Prop where
  type : st.type = some t
  endian : st.endian.isSome = true
  length : st.length ≠ 0
  bits : st.bitLength ≠ 0
  scaling : st.scaling.1 ≠ 0 ∧ st.scaling.2 ≠ 0
  minMax : IntF.updateMinMax t st = .ok st

theorem int_settled {env : IntF.Env} {c : IntF.Ctx} {st0 st : IntF.State} (h : IntF.parseImpl env c st0 = .ok st) (hc : c.bitfieldMember = false) :
    ∃ t, Settled t st := by
  obtain ⟨⟨t, s1, s2, s3, s4, s5, s6, s7, s8, s9, s10, s11, s12, s13, s14, s15, s16, s17, h1, ht, h2, h3, h4, h5, h6, h7, h8, h9, h10,
      h11, h12, h13, h14, h15, h16, h17, h18⟩⟩ := IntF.steps_of_ok h
  refine ⟨t, ?_⟩
  have he := endian_some h2
  have hs := scaling_ne h5
  have hl : s3.length ≠ 0 := by
    obtain ⟨n, rfl, hn⟩ := IntF.updateLength_ok h3
    dsimp only
    omega
  have hbn := bits_ne h4 hl hc
  obtain ⟨e, rfl⟩ := IntF.updateEndian_frame h2
  obtain ⟨len, rfl, hlen⟩ := IntF.updateLength_ok h3
  obtain ⟨bits, rfl, hbits⟩ := IntF.updateBitLength_ok h4
  obtain ⟨sc, rfl⟩ := IntF.updateScaling_frame h5
  obtain ⟨so, rfl, _⟩ := IntF.updateSerOffset_frame h6
  have h7' := h7
  obtain ⟨mn, mx, rfl⟩ := IntF.updateMinMax_frame h7
  obtain ⟨nu, rfl⟩ := IntF.updateBool_frame h8
  obtain ⟨new, rfl, _⟩ := IntF.specialsLoop_ok _ h9
  obtain ⟨v, rfl, _⟩ := IntF.updateDefault_ok h10
  obtain ⟨v2, r2, rfl, _⟩ := IntF.updateDefaultValid_ok h11
  obtain ⟨b, rfl⟩ := IntF.updateValidCheckVersion_frame h12
  obtain ⟨r3, rfl⟩ := IntF.updateValidRanges_frame h13
  obtain ⟨u, d, o, g, a, rfl⟩ := IntF.tail_frame h14 h15 h16 h17 h18
  exact ⟨ht, he, hl, hbn, hs, minMax_again h7' rfl rfl rfl rfl rfl rfl⟩

/-- Running again without properties. -/
theorem int_bare {env : IntF.Env} {c : IntF.Ctx} (hb : Bare c) {t : IntF.IntType} {st st' : IntF.State} (hs : Settled t st) (h : IntF.parseImpl env c st = .ok st') :
    ∃ rs, IntF.normaliseRanges t st.validRanges = .ok rs ∧ st' = { st with validRanges := rs } := by
  unfold IntF.parseImpl at h
  rw [type_bare hb hs.type, Res.bind_ok, hs.type] at h
  dsimp only at h
  rw [endian_bare hb hs.endian, Res.bind_ok, length_bare hb hs.length, Res.bind_ok, bits_bare hb hs.bits, Res.bind_ok, scaling_bare hb hs.scaling.1 hs.scaling.2, Res.bind_ok,
    offset_bare hb, Res.bind_ok, hs.minMax, Res.bind_ok, nonUnique_bare hb, Res.bind_ok, specials_bare hb, Res.bind_ok, default_bare hb, Res.bind_ok, defaultValid_bare hb,
    Res.bind_ok, vcv_bare hb, Res.bind_ok, Res.bind_eq_ok] at h
  obtain ⟨s1, h1, h⟩ := h
  rw [tail_bare hb] at h
  cases h
  unfold IntF.updateValidRanges at h1
  rw [rangeProps_bare hb, Res.bind_ok, rangeProps_bare hb, Res.bind_ok, rangeProps_bare hb, Res.bind_ok, rangeProps_bare hb, Res.bind_ok, Res.bind_eq_ok] at h1
  obtain ⟨rs, h2, h1⟩ := h1
  exact ⟨rs, h2, (Res.ok.inj h1).symm⟩


/-! ### Enumerations -/

structure EnumSettled (t : IntF.IntType) (st : EnumF.State) : Prop where
  type : st.num.type = some t
  endian : st.num.endian.isSome = true
  length : st.num.length ≠ 0
  bits : st.num.bitLength ≠ 0
  minMax : IntF.updateMinMax t st.num = .ok st.num

theorem onNum_ok {f : IntF.State → Res IntF.State} {st st' : EnumF.State} (h : EnumF.onNum f st = .ok st') : ∃ n, f st.num = .ok n ∧ st' = { st with num := n } := by
  unfold EnumF.onNum at h
  simp only [Res.bind_eq_ok, Res.pure_eq] at h
  obtain ⟨n, h1, h2⟩ := h
  exact ⟨n, h1, (Res.ok.inj h2).symm⟩

theorem onNum_bare {f : IntF.State → Res IntF.State} {st : EnumF.State} (h : f st.num = .ok st.num) : EnumF.onNum f st = .ok st := by
  unfold EnumF.onNum
  rw [h]
  rfl

theorem avail_frame {env : IntF.Env} {c : IntF.Ctx} {st st' : IntF.State} (h : IntF.updateAvailableLengthLimit env c st = .ok st') :
    ∃ b, st' = { st with availableLengthLimit := b } := by
  unfold IntF.updateAvailableLengthLimit at h
  simp only [Res.bind_eq_ok, Res.pure_eq] at h
  obtain ⟨b, _, h⟩ := h
  exact ⟨b, (Res.ok.inj h).symm⟩

theorem values_num {env : IntF.Env} {c : IntF.Ctx} {t : IntF.IntType} : ∀ (vs : List Xml) {st st' : EnumF.State}, EnumF.valuesLoop env c t vs st = .ok st' → st'.num = st.num
  | [], _, _, h => by cases h; rfl
  | v :: vs, st, st', h => by
    unfold EnumF.valuesLoop at h
    rw [Res.bind_eq_ok] at h
    obtain ⟨s1, h1, h2⟩ := h
    rw [values_num vs h2]
    unfold EnumF.valueStep at h1
    simp only [Res.bind_eq_ok, Res.pure_eq] at h1
    obtain ⟨_, _, _, _, _, _, _, _, _, _, _, _, _, _, _, _, _, _, _, _, _, _, _, _, _, _, _, _, h1⟩ := h1
    rw [← Res.ok.inj h1]

theorem enum_settled {env : IntF.Env} {c : IntF.Ctx} {st0 st : EnumF.State} (h : EnumF.parseImpl env c st0 = .ok st) (hc : c.bitfieldMember = false) : ∃ t, EnumSettled t st := by
  unfold EnumF.parseImpl at h
  rw [Res.bind_eq_ok] at h
  obtain ⟨s1, h1, h⟩ := h
  split at h
  · cases h
  rename_i t ht
  simp only [Res.bind_eq_ok] at h
  obtain ⟨s2, h2, s3, h3, s4, h4, s5, h5, s6, h6, s7, h7, s8, h8, s9, h9, s10, h10, h11⟩ := h
  refine ⟨t, ?_⟩
  obtain ⟨n2, k2, rfl⟩ := onNum_ok h2
  obtain ⟨n3, k3, rfl⟩ := onNum_ok h3
  obtain ⟨n4, k4, rfl⟩ := onNum_ok h4
  unfold EnumF.updateNonUnique at h5
  simp only [Res.bind_eq_ok, Res.pure_eq] at h5
  obtain ⟨b5, _, h5⟩ := h5
  have h5 := (Res.ok.inj h5).symm
  subst h5
  obtain ⟨n6, k6, rfl⟩ := onNum_ok h6
  obtain ⟨n7, k7, rfl⟩ := onNum_ok h7
  have v8 : s8.num = n7 := by
    unfold EnumF.updateValues at h8
    dsimp only at h8
    split at h8
    · split at h8
      · cases h8; rfl
      · cases h8
    · exact values_num _ h8
  unfold EnumF.updateDefault at h9
  simp only [Res.bind_eq_ok, Res.pure_eq] at h9
  obtain ⟨n9, k9, h9⟩ := h9
  obtain ⟨v, k9, _⟩ := IntF.updateDefault_ok k9
  have h9 := (Res.ok.inj h9).symm
  subst h9 k9
  unfold EnumF.updateHexAssign at h10
  simp only [Res.bind_eq_ok, Res.pure_eq] at h10
  obtain ⟨b10, _, _, _, h10⟩ := h10
  have h10 := (Res.ok.inj h10).symm
  subst h10
  obtain ⟨n11, k11, rfl⟩ := onNum_ok h11
  obtain ⟨b11, rfl⟩ := avail_frame k11
  dsimp only at *
  have he := endian_some k2
  have hl : n3.length ≠ 0 := by
    obtain ⟨n, rfl, hn⟩ := IntF.updateLength_ok k3
    dsimp only
    omega
  have hbn := bits_ne k4 hl hc
  subst v8
  obtain ⟨e, e2⟩ := IntF.updateEndian_frame k2
  obtain ⟨len, e3, _⟩ := IntF.updateLength_ok k3
  obtain ⟨bits, e4, _⟩ := IntF.updateBitLength_ok k4
  obtain ⟨b, e6⟩ := IntF.updateValidCheckVersion_frame k6
  obtain ⟨mn, mx, e7⟩ := IntF.updateMinMax_frame k7
  have type0 : s8.num.type = n6.type := by rw [e7]
  have type1 : n6.type = n4.type := by rw [e6]
  have type2 : n4.type = n3.type := by rw [e4]
  have type3 : n3.type = n2.type := by rw [e3]
  have type4 : n2.type = s1.num.type := by rw [e2]
  have endian0 : s8.num.endian = n6.endian := by rw [e7]
  have endian1 : n6.endian = n4.endian := by rw [e6]
  have endian2 : n4.endian = n3.endian := by rw [e4]
  have endian3 : n3.endian = n2.endian := by rw [e3]
  have length0 : s8.num.length = n6.length := by rw [e7]
  have length1 : n6.length = n4.length := by rw [e6]
  have length2 : n4.length = n3.length := by rw [e4]
  have bitLength0 : s8.num.bitLength = n6.bitLength := by rw [e7]
  have bitLength1 : n6.bitLength = n4.bitLength := by rw [e6]
  have off : s8.num.serOffset = n6.serOffset := by rw [e7]
  refine ⟨?_, ?_, ?_, ?_, ?_⟩
  · rw [← ht, ← type4, ← type3, ← type2, ← type1, ← type0]
  · rw [← endian3, ← endian2, ← endian1, ← endian0] at he; exact he
  · rw [← length2, ← length1, ← length0] at hl; exact hl
  · rw [← bitLength1, ← bitLength0] at hbn; exact hbn
  · exact minMax_again (b := { s8.num with default := v, availableLengthLimit := b11 }) k7 bitLength0 off rfl rfl rfl rfl

theorem enum_bare {env : IntF.Env} {c : IntF.Ctx} (hb : Bare c) {t : IntF.IntType} {st st' : EnumF.State} (hs : EnumSettled t st) (h : EnumF.parseImpl env c st = .ok st') : st' = st := by
  unfold EnumF.parseImpl at h
  rw [onNum_bare (type_bare hb hs.type), Res.bind_ok, hs.type] at h
  dsimp only at h
  rw [onNum_bare (endian_bare hb hs.endian), Res.bind_ok, onNum_bare (length_bare hb hs.length), Res.bind_ok, onNum_bare (bits_bare hb hs.bits), Res.bind_ok] at h
  have h1 : EnumF.updateNonUnique env c st = .ok st := by
    unfold EnumF.updateNonUnique
    rw [bool_none (hb.find "nonUniqueAllowed".toList (by decide))]
    rfl
  rw [h1, Res.bind_ok, onNum_bare (vcv_bare hb), Res.bind_ok, onNum_bare hs.minMax, Res.bind_ok, Res.bind_eq_ok] at h
  obtain ⟨s8, h8, h⟩ := h
  have e8 : s8 = st := by
    unfold EnumF.updateValues at h8
    rw [hb.kids] at h8
    dsimp only at h8
    rw [if_pos (by rfl)] at h8
    split at h8
    · exact (Res.ok.inj h8).symm
    · cases h8
  subst e8
  have h2 : EnumF.updateDefault env c t s8 = .ok s8 := by
    unfold EnumF.updateDefault
    rw [default_bare hb]
    rfl
  have h3 : EnumF.updateHexAssign env c t s8 = .ok s8 := by
    unfold EnumF.updateHexAssign
    have hf := hb.find "hexAssign".toList (by decide)
    rw [bool_none hf, gs_none hf]
    rfl
  rw [h2, Res.bind_ok, h3, Res.bind_ok] at h
  have h4 : IntF.updateAvailableLengthLimit env c s8.num = .ok s8.num := by
    unfold IntF.updateAvailableLengthLimit
    rw [bool_none (hb.find "availableLengthLimit".toList (by decide))]
    rfl
  rw [onNum_bare h4] at h
  exact (Res.ok.inj h).symm

/-! ### Sets -/

structure SetSettled (st : SetF.State) : Prop where
  type : st.type.isSome = true
  endian : st.endian.isSome = true
  length : st.length ≠ 0
  bits : st.bitLength ≠ 0

theorem bits_frame {env : IntF.Env} {c : IntF.Ctx} : ∀ (bs : List Xml) {st st' : SetF.State}, SetF.bitsLoop env c bs st = .ok st' →
    st'.type = st.type ∧ st'.endian = st.endian ∧ st'.length = st.length ∧ st'.bitLength = st.bitLength
  | [], _, _, h => by cases h; exact ⟨rfl, rfl, rfl, rfl⟩
  | b :: bs, st, st', h => by
    unfold SetF.bitsLoop at h
    rw [Res.bind_eq_ok] at h
    obtain ⟨s1, h1, h2⟩ := h
    obtain ⟨a1, a2, a3, a4⟩ := bits_frame bs h2
    unfold SetF.bitStep at h1
    simp only [Res.bind_eq_ok, Res.pure_eq] at h1
    obtain ⟨_, _, _, _, _, _, _, _, _, _, _, _, _, _, _, _, _, _, _, _, _, _, _, _, _, _, _, _, _, _, _, _, _, _, _, _, _, _, _, _, _, _, _, _, _, _, h1⟩ := h1
    rw [← Res.ok.inj h1] at a1 a2 a3 a4
    exact ⟨a1, a2, a3, a4⟩

theorem set_settled {env : IntF.Env} {c : IntF.Ctx} {st0 st : SetF.State} (h : SetF.parseImpl env c st0 = .ok st) (hc : c.bitfieldMember = false) : SetSettled st := by
  unfold SetF.parseImpl at h
  simp only [Res.bind_eq_ok] at h
  obtain ⟨s1, h1, s2, h2, s3, h3, s4, h4, vcv, _, db, _, rb, _, al, _, h5⟩ := h
  obtain ⟨a1, a2, a3, a4⟩ := bits_frame _ h5
  dsimp only at a1 a2 a3 a4
  have e4 : s4.type = s3.type ∧ s4.endian = s3.endian ∧ s4.length = s3.length ∧ s4.bitLength = s3.bitLength := by
    unfold SetF.updateNonUnique at h4
    rw [Res.bind_eq_ok] at h4
    obtain ⟨b, _, h4⟩ := h4
    split at h4
    · cases h4; exact ⟨rfl, rfl, rfl, rfl⟩
    split at h4
    · cases h4
    · cases h4; exact ⟨rfl, rfl, rfl, rfl⟩
  have e1 : s1.endian.isSome = true := by
    unfold SetF.updateEndian at h1
    split at h1
    · cases h1
    dsimp only at h1
    split at h1
    · rename_i q
      cases h1
      exact (Bool.and_eq_true _ _ ▸ q).2
    split at h1
    · cases h1
    · cases h1; rfl
  have e2 : s2.endian = s1.endian := by
    unfold SetF.updateType at h2
    split at h2
    · cases h2
    split at h2
    · cases h2; rfl
    split at h2
    · cases h2
    split at h2
    · cases h2
    split at h2
    · cases h2; rfl
    split at h2
    · cases h2
    · cases h2; rfl
  unfold SetF.updateLength at h3
  simp only [Res.bind_eq_ok] at h3
  obtain ⟨t1, k1, t2, k2, k3⟩ := h3
  have q1 : t1.endian = s2.endian ∧ (t1.length = 0 → t1.type = none) := by
    unfold SetF.updateByteLength at k1
    dsimp only at k1
    split at k1
    · cases k1
    split at k1
    · split at k1
      · rename_i ht
        cases k1
        refine ⟨rfl, fun h0 => ?_⟩
        dsimp only at h0
        cases hty : s2.type with
        | none => rfl
        | some t => rw [hty] at h0; revert h0; cases t <;> decide
      · rename_i ht
        cases k1
        refine ⟨rfl, fun h0 => ?_⟩
        cases hty : s2.type with
        | some t => exact absurd ⟨h0, by rw [hty]; rfl⟩ ht
        | none => rfl
    split at k1
    · cases k1
    split at k1
    · cases k1
    rename_i hn
    split at k1
    · cases k1; rename_i e; exact ⟨rfl, fun e2 => absurd (.inl (e ▸ e2)) hn⟩
    split at k1
    · cases k1
    · cases k1; exact ⟨rfl, fun e2 => absurd (.inl e2) hn⟩
  have q2 : t2.endian = t1.endian ∧ t2.length = t1.length ∧ t2.type = t1.type ∧ (t2.bitLength = 0 → t2.length = 0) := by
    unfold SetF.updateBitLength at k2
    dsimp only at k2
    split at k2
    · cases k2
    split at k2
    · split at k2
      · cases k2; refine ⟨rfl, rfl, rfl, ?_⟩; dsimp only; omega
      · cases k2; exact ⟨rfl, rfl, rfl, fun e => absurd e (by assumption)⟩
    · rw [hc, if_pos (by rfl)] at k2
      cases k2
      refine ⟨rfl, rfl, rfl, ?_⟩
      dsimp only
      omega
  have q3 : s3.type.isSome = true ∧ s3.endian = t2.endian ∧ s3.length ≠ 0 ∧ s3.bitLength ≠ 0 := by
    unfold SetF.deriveType at k3
    dsimp only at k3
    have nolen : t2.length = 0 → t2.type = none := fun e => q2.2.2.1 ▸ q1.2 (q2.2.1 ▸ e)
    by_cases hz : t2.length = 0 ∧ t2.bitLength ≠ 0
    · rw [if_pos hz] at k3
      dsimp only at k3
      rw [nolen hz.1] at k3
      dsimp only at k3
      split at k3
      · cases k3
      · rename_i hl
        split at k3
        · cases k3
        · cases k3; exact ⟨rfl, rfl, hl, hz.2⟩
    · rw [if_neg hz] at k3
      have hl : t2.length ≠ 0 := by
        intro e
        rw [nolen e, e] at k3
        cases k3
      have hbn : t2.bitLength ≠ 0 := fun e => hl (q2.2.2.2 e)
      split at k3
      · rename_i hty
        cases k3
        exact ⟨by rw [hty]; rfl, rfl, hl, hbn⟩
      split at k3
      · cases k3
      split at k3
      · cases k3
      · cases k3; exact ⟨rfl, rfl, hl, hbn⟩
  refine ⟨?_, ?_, ?_, ?_⟩
  · rw [a1, e4.1]; exact q3.1
  · rw [a2, e4.2.1, q3.2.1, q2.1, q1.1, e2]; exact e1
  · rw [a3, e4.2.2.1]; exact q3.2.2.1
  · rw [a4, e4.2.2.2]; exact q3.2.2.2

theorem set_bare {env : IntF.Env} {c : IntF.Ctx} (hb : Bare c) {st st' : SetF.State} (hs : SetSettled st) (h : SetF.parseImpl env c st = .ok st') : st' = st := by
  have h1 : SetF.updateEndian env c st = .ok st := by
    unfold SetF.updateEndian
    have hf := hb.find "endian".toList (by decide)
    rw [vs_none hf, gs_none hf, hs.endian]
    rfl
  have h2 : SetF.updateType c st = .ok st := by
    unfold SetF.updateType
    have hf := hb.find "type".toList (by decide)
    rw [vs_none hf, hf]
    rfl
  have h3 : SetF.updateLength c st = .ok st := by
    unfold SetF.updateLength SetF.updateByteLength
    have hf := hb.find "length".toList (by decide)
    have hg := hb.find "bitLength".toList (by decide)
    dsimp only
    rw [show (st.type.isNone && decide (st.length = 0) && !c.bitfieldMember) = false by simp [hs.length], vs_none hf, gs_none hf, if_neg (by simp), if_pos (by rfl),
      if_neg (fun e => hs.length e.1), Res.bind_ok]
    unfold SetF.updateBitLength
    dsimp only
    rw [show (c.bitfieldMember && decide (st.bitLength = 0) && decide (st.length = 0)) = false by simp [hs.length], vs_none hg, gs_none hg, if_neg (by simp), if_pos (by rfl),
      if_neg hs.bits, Res.bind_ok]
    unfold SetF.deriveType
    rw [if_neg (fun e => hs.length e.1)]
    dsimp only
    have := hs.type
    split
    · rfl
    · rename_i e
      rw [e] at this
      cases this
  have h4 : SetF.updateNonUnique env c st = .ok st := by
    unfold SetF.updateNonUnique
    have hf := hb.find "nonUniqueAllowed".toList (by decide)
    rw [bool_none hf, gs_none hf]
    rfl
  have h5 : ∀ k cur, k ∉ commonProps → SetF.boolProp env c.props k cur = some cur := by
    intro k cur hk
    unfold SetF.boolProp
    rw [hb.find k hk]
  unfold SetF.parseImpl at h
  rw [h1, Res.bind_ok, h2, Res.bind_ok, h3, Res.bind_ok, h4, Res.bind_ok, bool_none (hb.find "validCheckVersion".toList (by decide)), Res.bind_ok,
    h5 "defaultValue".toList _ (by decide), h5 "reservedValue".toList _ (by decide), bool_none (hb.find "availableLengthLimit".toList (by decide)), hb.kids] at h
  exact (Res.ok.inj h).symm

/-! ### Floating point numbers -/

structure FloatSettled (st : FloatState) : Prop where
  length : ∃ d, st.double = some d ∧ st.length = (if d then 8 else 4)
  minMax : FloatF.updateMinMax st = st


theorem float_settled {env : IntF.Env} {fp : FloatF.Fp} {c : IntF.Ctx} {st0 st : FloatState} (h : FloatF.parseImpl env fp c st0 = .ok st) : FloatSettled st := by
  obtain ⟨d, e, nu, new, dv, cv, rs, u, dd, s5, _, _, rfl, _, _, _, rfl⟩ := FloatF.parseImpl_ok h
  refine ⟨⟨d, rfl, rfl⟩, ?_⟩
  rw [FloatF.updateMinMax_eq (d := d) rfl]

theorem floatProps_bare {env : IntF.Env} {fp : FloatF.Fp} {c : IntF.Ctx} (hb : Bare c) (p : FloatF.RangeProp) (st : FloatState) : FloatF.checkRangeProps env fp c p st = .ok st := by
  unfold FloatF.checkRangeProps FloatF.checkRangeAttr
  rw [hb.kids, hb.attr p.name (by cases p <;> decide)]
  rfl

theorem float_bare {env : IntF.Env} {fp : FloatF.Fp} {c : IntF.Ctx} (hb : Bare c) {st st' : FloatState} (hs : FloatSettled st) (h : FloatF.parseImpl env fp c st = .ok st') :
    st' = { st with endian := some env.schemaEndian, validRanges := FloatF.normaliseRanges st.validRanges } := by
  obtain ⟨⟨d, hd, hl⟩, hm⟩ := hs
  have h1 : FloatF.updateType c st = .ok st := by
    unfold FloatF.updateType
    have hf := hb.find "type".toList (by decide)
    rw [show st.double.isNone = false by rw [hd]; rfl, vs_none hf, if_neg (by simp), hf]
  have h2 : FloatF.updateEndian env c st = .ok { st with endian := some env.schemaEndian } := by
    unfold FloatF.updateEndian
    have hf := hb.find "endian".toList (by decide)
    rw [vs_none hf, gs_none hf]
    rfl
  unfold FloatF.parseImpl at h
  rw [h1, Res.bind_ok, h2, Res.bind_ok] at h
  generalize hst : ({ st with endian := some env.schemaEndian } : FloatState) = s at h
  have h3 : FloatF.updateLength s = .ok s := by
    subst hst
    unfold FloatF.updateLength
    dsimp only
    rw [hd]
    dsimp only
    rw [← hl]
  have h4 : FloatF.updateMinMax s = s := by
    subst hst
    unfold FloatF.updateMinMax at hm ⊢
    dsimp only
    have e1 := congrArg FloatF.State.typeMin hm
    have e2 := congrArg FloatF.State.typeMax hm
    dsimp only at e1 e2
    rw [e1, e2]
  have h5 : FloatF.updateNonUnique env c s = .ok s := by
    unfold FloatF.updateNonUnique
    rw [bool_none (hb.find "nonUniqueSpecialsAllowed".toList (by decide))]
    rfl
  have h6 : FloatF.updateSpecials env fp c s = .ok s := by
    unfold FloatF.updateSpecials
    rw [hb.kids]
    rfl
  have h7 : FloatF.updateDefault fp c s = .ok s := by
    unfold FloatF.updateDefault
    have hf := hb.find "defaultValue".toList (by decide)
    rw [vs_none hf, gs_none hf]
    rfl
  have h8 : FloatF.updateValidCheckVersion env c s = .ok s := by
    unfold FloatF.updateValidCheckVersion
    rw [bool_none (hb.find "validCheckVersion".toList (by decide))]
    rfl
  have h9 : FloatF.updateValidRanges env fp c s = .ok { s with validRanges := FloatF.normaliseRanges s.validRanges } := by
    unfold FloatF.updateValidRanges
    rw [vs_none (hb.find "validFullRange".toList (by decide))]
    show (do
      let st ← FloatF.checkRangeProps env fp c .full s
      let st ← FloatF.checkRangeProps env fp c .range st
      let st ← FloatF.checkRangeProps env fp c .value st
      let st ← FloatF.checkRangeProps env fp c .min st
      let st ← FloatF.checkRangeProps env fp c .max st
      pure { st with validRanges := FloatF.normaliseRanges st.validRanges }) = _
    rw [floatProps_bare hb, Res.bind_ok, floatProps_bare hb, Res.bind_ok, floatProps_bare hb, Res.bind_ok, floatProps_bare hb, Res.bind_ok, floatProps_bare hb]
    rfl
  have h10 : ∀ s, FloatF.updateUnits c s = .ok s := by
    intro s
    unfold FloatF.updateUnits
    have hf := hb.find "units".toList (by decide)
    rw [vs_none hf, hf]
    rfl
  have h11 : ∀ s, FloatF.updateDisplayDecimals c s = .ok s := by
    intro s
    unfold FloatF.updateDisplayDecimals
    have hf := hb.find "displayDecimals".toList (by decide)
    rw [vs_none hf, hf]
    rfl
  rw [h3, Res.bind_ok, h4, h5, Res.bind_ok, h6, Res.bind_ok, h7, Res.bind_ok, h8, Res.bind_ok, h9, Res.bind_ok, h10, Res.bind_ok, h11] at h
  rw [← Res.ok.inj h, ← hst]

/-! ### Strings, data and lists -/

theorem slotReused_eq (s : Slot Field) : slotReused s = cloneSlot s := by cases s <;> rfl

theorem pfx_bare {env : FEnv} {b : BCtx} (hb : Bare b.ic) {k : Str} (hk : k ∉ commonProps) (cur : Pfx) : updatePfx env b k cur = .ok cur := by
  unfold updatePfx prefixFromRef
  have hf : b.props.find k = none := hb.find k hk
  rw [vs_none hf, hf]
  dsimp only
  rw [if_neg (by simp), Res.bind_ok]
  unfold prefixAsChild
  rw [show getChildren b.node [k] = [] from hb.kids _ _]

theorem seq_steps {α : Type} {env : FEnv} {b : BCtx} (hb : Bare b.ic) (val : Str → Option (List α)) (lt : α → α → Bool) (st : SeqState α) (p : Slot Field) :
    updateEncoding b st = .ok st ∧ seqUpdateLength b p st = .ok st ∧ updateZeroTerm b p st = .ok st ∧ seqUpdateDefault val b st = .ok st ∧
      seqUpdateDefaultValid env.dsl val b st = .ok st ∧ seqUpdateValid env val lt b st = .ok { st with valid := sortBy (fun x y => lexLt lt x.1 y.1) st.valid } := by
  refine ⟨?_, ?_, ?_, ?_, ?_, ?_⟩
  · unfold updateEncoding
    have hf : b.props.find "encoding".toList = none := hb.find _ (by decide)
    rw [vs_none hf, hf]; rfl
  · unfold seqUpdateLength
    have hf : b.props.find "length".toList = none := hb.find _ (by decide)
    rw [vs_none hf, hf]; rfl
  · unfold updateZeroTerm
    have hf : b.props.find "zeroTermSuffix".toList = none := hb.find _ (by decide)
    rw [vs_none hf, hf]; rfl
  · unfold seqUpdateDefault
    have hf : b.props.find "defaultValue".toList = none := hb.find _ (by decide)
    rw [vs_none hf, hf]; rfl
  · unfold seqUpdateDefaultValid
    have hf : b.props.find "defaultValidValue".toList = none := hb.find _ (by decide)
    rw [vs_none hf, hf]; rfl
  · unfold seqUpdateValid validAsAttr
    rw [show (nodeProps b.node).find "validValue".toList = none from hb.attr _ (by decide), show getChildren b.node ["validValue".toList] = [] from hb.kids _ _]
    rfl

theorem prefix_bare {α : Type} {env : FEnv} {b : BCtx} (hb : Bare b.ic) {st : SeqState α} {p : Slot Field} {x : SeqState α × Slot Field}
    (h : seqUpdatePrefix env b st p = .ok x) : x = (st, p) := by
  unfold seqUpdatePrefix at h
  rw [pfx_bare hb (by decide), Res.bind_ok] at h
  simp only [Res.bind_eq_ok, Res.pure_eq] at h
  obtain ⟨_, _, _, _, h⟩ := h
  exact (Res.ok.inj h).symm

theorem string_bare {env : FEnv} {b : BCtx} (hb : Bare b.ic) {st : SeqState Char} {p : Slot Field} {x : SeqState Char × Slot Field} (h : stringImpl env b st p = .ok x) :
    { x.1 with valid := [] } = { st with valid := [] } ∧ x.1.valid.Perm st.valid ∧ x.2 = p := by
  obtain ⟨h1, h2, h3, h4, h5, h6⟩ := seq_steps (env := env) hb (stringValue env) (fun a b => decide (a < b)) st p
  unfold stringImpl at h
  rw [h1, Res.bind_ok, h2, Res.bind_ok, Res.bind_eq_ok] at h
  obtain ⟨y, hy, h⟩ := h
  rw [prefix_bare hb hy] at h
  dsimp only at h
  rw [h3, Res.bind_ok, h4, Res.bind_ok, h5, Res.bind_ok, h6, Res.bind_ok] at h
  cases h
  exact ⟨rfl, sortBy_perm _ _, rfl⟩

theorem data_bare {env : FEnv} {b : BCtx} (hb : Bare b.ic) {st : SeqState Nat} {p : Slot Field} {x : SeqState Nat × Slot Field} (h : dataImpl env b st p = .ok x) :
    { x.1 with valid := [] } = { st with valid := [] } ∧ x.1.valid.Perm st.valid ∧ x.2 = p := by
  obtain ⟨h1, h2, h3, h4, h5, h6⟩ := seq_steps (env := env) hb (dataValue env) (fun a b => decide (a < b)) st p
  unfold dataImpl at h
  rw [h2, Res.bind_ok, Res.bind_eq_ok] at h
  obtain ⟨y, hy, h⟩ := h
  rw [prefix_bare hb hy] at h
  dsimp only at h
  rw [h4, Res.bind_ok, h5, Res.bind_ok, h6, Res.bind_ok] at h
  cases h
  exact ⟨rfl, sortBy_perm _ _, rfl⟩

theorem list_bare {env : FEnv} {b : BCtx} (hb : Bare b.ic) {st : ListState} {sl : ListSlots} {x : ListState × ListSlots} (h : listImpl env b st sl = .ok x) :
    x = (if Dsl.propertySupported env.dsl "termSuffix".toList = true then (st, sl) else ({ st with detachedTerm := [] }, { sl with term := .none })) := by
  unfold listImpl at h
  simp only [Res.bind_eq_ok] at h
  obtain ⟨e, h1, st1, h2, x1, h3, x2, h4, st2, h5, x3, h6, h7⟩ := h
  have e1 : e = sl.elem := by
    unfold updateElement elementFromRef at h1
    have hf : b.props.find "element".toList = none := hb.find _ (by decide)
    rw [vs_none hf, hf] at h1
    dsimp only at h1
    rw [if_neg (by simp), Res.bind_ok] at h1
    unfold elementAsChild elementNode at h1
    rw [show getChildren b.node ["element".toList] = [] from hb.kids _ _, show getChildren b.node fieldTypes = [] from hb.kids _ _] at h1
    simp only [Res.bind_eq_ok, Res.pure_eq] at h1
    obtain ⟨e', ⟨a, ha, h1⟩, _, _, h1'⟩ := h1
    rw [if_neg (by simp), if_neg (by simp)] at ha
    rw [← Res.ok.inj ha] at h1
    rw [← Res.ok.inj h1', ← Res.ok.inj h1]
  subst e1
  have e2 : st1 = st := by
    unfold updateCount at h2
    have hf : b.props.find "count".toList = none := hb.find _ (by decide)
    rw [vs_none hf, hf] at h2
    exact (Res.ok.inj h2).symm
  subst e2
  have e3 : x1 = (st1, sl) := by
    unfold updateCountPrefix at h3
    rw [pfx_bare hb (by decide), Res.bind_ok] at h3
    simp only [Res.bind_eq_ok, Res.pure_eq] at h3
    obtain ⟨_, _, h3⟩ := h3
    exact (Res.ok.inj h3).symm
  subst e3
  have e4 : x2 = (st1, sl) := by
    unfold updateLengthPrefix at h4
    rw [pfx_bare hb (by decide), Res.bind_ok] at h4
    simp only [Res.bind_eq_ok, Res.pure_eq] at h4
    obtain ⟨_, _, h4⟩ := h4
    exact (Res.ok.inj h4).symm
  subst e4
  have e5 : st2 = st1 := by
    unfold updateElemFixed elemFixedProp at h5
    have hf : b.props.find "elemFixedLength".toList = none := hb.find _ (by decide)
    rw [vs_none hf, hf] at h5
    dsimp only at h5
    rw [if_neg (by simp), Res.bind_ok] at h5
    split at h5
    · exact (Res.ok.inj h5).symm
    · simp only [Res.bind_eq_ok, Res.pure_eq] at h5
      obtain ⟨_, _, _, _, _, _, h5⟩ := h5
      exact (Res.ok.inj h5).symm
  subst e5
  have e6 : x3 = (st2, sl) := by
    unfold updateElemLenPrefix at h6
    rw [pfx_bare hb (by decide), Res.bind_ok] at h6
    simp only [Res.bind_eq_ok, Res.pure_eq] at h6
    obtain ⟨_, _, h6⟩ := h6
    exact (Res.ok.inj h6).symm
  subst e6
  unfold updateTermSuffix at h7
  rw [pfx_bare hb (by decide), Res.bind_ok] at h7
  cases hs : Dsl.propertySupported env.dsl "termSuffix".toList with
  | true =>
    rw [hs] at h7
    rw [if_neg (by simp)] at h7
    rw [if_pos rfl]
    simp only [Res.bind_eq_ok, Res.pure_eq] at h7
    obtain ⟨_, _, h7⟩ := h7
    exact (Res.ok.inj h7).symm
  | false =>
    rw [hs] at h7
    rw [if_neg (by simp)]
    split at h7
    · exact (Res.ok.inj h7).symm
    · rename_i hg
      simp only [Res.bind_eq_ok, Res.pure_eq] at h7
      obtain ⟨_, _, h7⟩ := h7
      have h7 := (Res.ok.inj h7).symm
      have hg : given sl.term st2.detachedTerm = false := by simpa using hg
      unfold given at hg
      rw [Bool.or_eq_false_iff] at hg
      have g1 : sl.term = .none := by
        cases ht : sl.term with
        | none => rfl
        | ext f => rw [ht] at hg; cases hg.1
        | own f => rw [ht] at hg; cases hg.1
      have g2 : st2.detachedTerm = [] := by
        have := hg.2
        cases hd : st2.detachedTerm with
        | nil => rfl
        | cons a l => rw [hd] at this; cases this
      rw [h7, g1, g2]

/-! ### Composite fields -/

theorem nodes_bare {b : BCtx} (hb : Bare b.ic) {types : List Str} {ms : List Field} {x : Option (List Xml)} (h : memberNodes b types ms = .ok x) : x = none := by
  unfold memberNodes at h
  rw [show getChildren b.node ["members".toList] = [] from hb.kids _ _, show getChildren b.node types = [] from hb.kids _ _] at h
  dsimp only at h
  rw [if_neg (by simp), if_neg (by simp), if_pos (by rfl)] at h
  split at h
  · cases h
  · exact (Res.ok.inj h).symm

theorem validCond_bare {env : FEnv} {b : BCtx} (hb : Bare b.ic) (k : Kind) (ms : List Field) (cd : Option CondM.Cond) : updateValidCond env b k ms cd = .ok cd := by
  unfold updateValidCond
  have h1 : copyValidCond env b k ms cd = .ok cd := by
    unfold copyValidCond
    have hf : b.props.find "copyValidCondFrom".toList = none := hb.find _ (by decide)
    dsimp only
    rw [vs_none hf, gs_none hf]
    rfl
  have h2 : singleValidCond env b ms cd = .ok cd := by
    unfold singleValidCond
    have hf : b.props.find "validCond".toList = none := hb.find _ (by decide)
    dsimp only
    rw [vs_none hf, hf]
    rfl
  have h3 : multiValidCond env b ms cd = .ok cd := by
    unfold multiValidCond
    dsimp only
    rw [show getChildren b.node ["validCond".toList] true = [] from hb.kids _ _]
  rw [h1, Res.bind_ok, h2, Res.bind_ok, h3]

theorem bitfieldEndian_some {env : FEnv} {b : BCtx} {e e' : Option IntF.Endian} (h : bitfieldEndian env b e = .ok e') : e'.isSome = true := by
  unfold bitfieldEndian at h
  split at h
  · cases h
  dsimp only at h
  split at h
  · rename_i hc
    cases h
    rw [Bool.and_eq_true] at hc
    exact hc.2
  split at h
  · cases h
  · cases h; rfl

theorem bitfield_bare {env : FEnv} {b : BCtx} (hb : Bare b.ic) {c : Common} {e : Option IntF.Endian} (he : e.isSome = true) {ms : List Field} {cd : Option CondM.Cond} {g : Field}
    (h : bitfieldImpl env b c e ms cd = .ok g) : g = .bitfield c e (ms.map (liftSince b.ic.since)) cd := by
  unfold bitfieldImpl at h
  have h1 : bitfieldEndian env b e = .ok e := by
    unfold bitfieldEndian
    have hf : b.props.find "endian".toList = none := hb.find _ (by decide)
    rw [vs_none hf, gs_none hf, he]
    rfl
  rw [h1, Res.bind_ok, Res.bind_eq_ok] at h
  obtain ⟨ms', h2, h⟩ := h
  rw [validCond_bare hb, Res.bind_ok] at h
  unfold bitfieldMembers at h2
  simp only [Res.bind_eq_ok] at h2
  obtain ⟨x, hx, h2⟩ := h2
  rw [nodes_bare hb hx] at h2
  rw [← Res.ok.inj h, ← Res.ok.inj h2]

theorem bundle_bare {env : FEnv} {b : BCtx} (hb : Bare b.ic) {c : Common} {ms : List Field} {al : List Alias} {cd : Option CondM.Cond} {g : Field}
    (h : bundleImpl env b c ms al cd = .ok g) :
    g = .bundle c (keepMembers b.ic.since ms) (al.filter fun a => (keepMembers b.ic.since ms).any fun m => m.name == a.fieldName) cd := by
  unfold bundleImpl at h
  rw [Res.bind_eq_ok] at h
  obtain ⟨ms', h2, h⟩ := h
  unfold bundleMembers at h2
  simp only [Res.bind_eq_ok] at h2
  obtain ⟨x, hx, all, h2, _, _, _, _, h3⟩ := h2
  rw [nodes_bare hb hx] at h2
  have e1 := (Res.ok.inj h3).symm
  have e2 := (Res.ok.inj h2).symm
  subst e2
  subst e1
  unfold bundleAliases at h
  rw [show getChildren b.node ["alias".toList] = [] from hb.kids _ _] at h
  dsimp only at h
  rw [Res.bind_ok, validCond_bare hb, Res.bind_ok] at h
  exact (Res.ok.inj h).symm

theorem variant_bare {env : FEnv} {b : BCtx} (hb : Bare b.ic) {c : Common} {d : Nat} {ms : List Field} {g : Field}
    (h : variantImpl env b c d ms = .ok g) : g = .variant c d (keepMembers b.ic.since ms) := by
  unfold variantImpl at h
  rw [Res.bind_eq_ok] at h
  obtain ⟨ms', h2, h⟩ := h
  unfold variantMembers at h2
  simp only [Res.bind_eq_ok] at h2
  obtain ⟨x, hx, all, h2, _, _, h3⟩ := h2
  rw [nodes_bare hb hx] at h2
  have e1 := (Res.ok.inj h3).symm
  have e2 := (Res.ok.inj h2).symm
  subst e2
  subst e1
  unfold variantDefault at h
  have hf : b.props.find "defaultMember".toList = none := hb.find _ (by decide)
  rw [vs_none hf, gs_none hf] at h
  exact (Res.ok.inj h).symm

theorem optional_bare {env : FEnv} {b : BCtx} (hb : Bare b.ic) {c : Common} {st : OptState} {f : Slot Field} {cd : Option CondM.Cond} {g : Field}
    (h : optionalImpl env b c st f cd = .ok g) : g = .optional c st f cd := by
  unfold optionalImpl at h
  have h1 : updateMode b st = .ok st := by
    unfold updateMode
    have hf : b.props.find "defaultMode".toList = none := hb.find _ (by decide)
    rw [vs_none hf, hf]
    rfl
  rw [h1, Res.bind_ok, bool_none (hb.find "missingOnReadFail".toList (by decide)), Res.bind_ok, bool_none (hb.find "missingOnInvalid".toList (by decide)), Res.bind_ok,
    Res.bind_eq_ok] at h
  obtain ⟨f', h2, h⟩ := h
  have e : f' = f := by
    unfold optField at h2
    have h3 : optFromRef env b f = .ok f := by
      unfold optFromRef
      have hf : b.props.find "field".toList = none := hb.find _ (by decide)
      rw [vs_none hf, hf]
      rfl
    have h4 : optAsChild b f = .ok f := by
      unfold optAsChild optNode
      rw [show getChildren b.node ["field".toList] = [] from hb.kids _ _, show getChildren b.node fieldTypes = [] from hb.kids _ _]
      rfl
    rw [h3, Res.bind_ok, h4, Res.bind_ok] at h2
    simp only [Res.bind_eq_ok] at h2
    obtain ⟨_, _, h2⟩ := h2
    exact (Res.ok.inj h2).symm
  subst e
  have h5 : optSingleCond env b cd = .ok cd := by
    unfold optSingleCond
    have hf : b.props.find "cond".toList = none := hb.find _ (by decide)
    rw [vs_none hf, hf]
    rfl
  have h6 : optMultiCond env b cd = .ok cd := by
    unfold optMultiCond
    rw [show getChildren b.node ["and".toList, "or".toList] = [] from hb.kids _ _]
  rw [h5, Res.bind_ok, h6, Res.bind_ok] at h
  exact (Res.ok.inj h).symm

theorem ref_bare {env : FEnv} {b : BCtx} (hb : Bare b.ic) {c : Common} {bl : Nat} {t : Slot Field} {g : Field} (h : refImpl env b c bl t = .ok g) : g = .ref c bl t := by
  unfold refImpl at h
  split at h
  · cases h
  rw [show b.props.find "field".toList = none from hb.find _ (by decide)] at h
  exact (Res.ok.inj h).symm

/-! ### Putting it together -/

/-- The node says nothing but common attributes. -/
theorem bare_ctx {env : FEnv} {pc : ParentInfo → Xml → Res Field} {parent : ParentInfo} {node : Xml} {f f1 f2 : Field} {b : BCtx} {c : Common} {props : Props}
    (hp : Prep env pc parent node f b c props f1 f2) (hk : ∀ names skip, getChildren node names skip = []) (ha : ∀ x ∈ nodeProps node, x.1 ∈ commonProps) :
    props = nodeProps node ∧ Bare b.ic := by
  have e : props = nodeProps node := by
    have h := hp.coll
    have hc : ∀ names p ck, childrenAsProps node names p ck = some p := by
      intro names p ck
      unfold childrenAsProps
      rw [hk]
      split <;> rfl
    unfold collectProps at h
    rw [hc, Option.bind_eq_bind, Option.bind_some, hc, Option.bind_some, hc] at h
    exact (Option.some.inj h).symm
  have hf : ∀ k, k ∉ commonProps → (nodeProps node).find k = none := by
    intro k hk
    unfold Props.find
    rw [Option.map_eq_none_iff, List.find?_eq_none]
    intro x hx he
    exact hk (eq_of_beq he ▸ ha x hx)
  subst e
  have hc := hp.ctx
  subst hc
  exact ⟨rfl, hf, hk, hf⟩

theorem updateCommon_bits {env : FEnv} {parent : ParentInfo} {props : Props} {c c' : Common} (h : updateCommon env parent props c = .ok c') : c'.inBitfield = c.inBitfield := by
  unfold updateCommon at h
  simp only [Res.bind_eq_ok, Res.pure_eq] at h
  obtain ⟨_, _, _, _, _, _, _, _, _, _, _, _, _, _, _, _, _, _, _, _, _, _, _, _, _, _, h⟩ := h
  rw [← Res.ok.inj h]

/-- The last call of `parseImpl` of a field, outside of bitfields. -/
theorem last_body {f : Field} (h : Spec.Accepted f) (hb : f.common.inBitfield = false) :
    ∃ env b f0, parseBody env b f0 = .ok f ∧ b.ic.bitfieldMember = false := by
  cases h with
  | parse henv hp =>
    rename_i env fuel parent node
    obtain ⟨n, rfl, hs⟩ := parseField_ok hp
    obtain ⟨b, c, props, f1, f2, pr⟩ := parseStep_prep hs
    refine ⟨env, b, _, pr.body, ?_⟩
    have := (parseBody_common pr.body).2.1
    rw [setCommon_common] at this
    rw [pr.ctx]
    show c.inBitfield = false
    rw [← this, hb]

theorem keep_reused (since : Nat) (ms : List Field) : keepMembers since (cloneAll ms) = membersReused since ms := by
  unfold keepMembers membersReused
  rw [cloneAll_eq_map]
  rfl

/-- The content of a field whose element gives common attributes only. -/
theorem content {env : FEnv} {pc : ParentInfo → Xml → Res Field} {parent : ParentInfo} {node : Xml} {f g : Field} {s : Str}
    (h : parseStep env pc parent node = .ok g) (hk : ∀ names skip, getChildren node names skip = []) (ha : ∀ x ∈ nodeProps node, x.1 ∈ commonProps)
    (hr : (nodeProps node).find "reuse".toList = some s) (hf : env.findField s = some f) (hacc : Spec.Accepted f) (hbits : f.common.inBitfield = false) :
    ContentReused env.dsl g.since f g := by
  obtain ⟨b, c, props, f1, f2, pr⟩ := parseStep_prep h
  obtain ⟨rfl, hb⟩ := bare_ctx pr hk ha
  have e2 : f2 = f1 := by
    rcases pr.replaced with h | ⟨r, rs, hr, _⟩
    · exact h
    · rw [hk] at hr; cases hr
  subst e2
  rcases checkReuse_ok pr.reuse with ⟨h1, _⟩ | ⟨s', f', code, h1, h2, hkind, _, hre⟩
  · rw [hr] at h1; cases h1
  rw [hr] at h1
  cases h1
  rw [hf] at h2
  cases h2
  obtain ⟨env0, b0, f0, hlast, hb0⟩ := last_body hacc hbits
  have hbody := pr.body
  have hsince : b.ic.since = c.w.since := by rw [pr.ctx]; rfl
  have hgs : g.since = b.ic.since := by
    have := (parseBody_common hbody).1
    rw [setCommon_common] at this
    rw [hsince, ← this]
    try rfl
  rw [hgs]
  cases f with
  | int cf st =>
    cases hre
    simp only [Field.setCommon, parseBody, Res.bind_eq_ok, Res.pure_eq] at hbody
    obtain ⟨st', hi, e⟩ := hbody
    cases e
    cases f0 with
    | int c0 st0 =>
      simp only [parseBody, Res.bind_eq_ok, Res.pure_eq] at hlast
      obtain ⟨st1, hl, e⟩ := hlast
      cases e
      obtain ⟨t, hs⟩ := int_settled hl hb0
      obtain ⟨rs, q1, q2⟩ := int_bare hb hs hi
      subst q2
      exact .int hs.type rfl q1
    | _ => exact absurd (parseBody_kind hlast) (by simp [Field.kind])
  | enum cf st =>
    cases hre
    simp only [Field.setCommon, parseBody, Res.bind_eq_ok, Res.pure_eq] at hbody
    obtain ⟨st', hi, e⟩ := hbody
    cases e
    cases f0 with
    | enum c0 st0 =>
      simp only [parseBody, Res.bind_eq_ok, Res.pure_eq] at hlast
      obtain ⟨st1, hl, e⟩ := hlast
      cases e
      obtain ⟨t, hs⟩ := enum_settled hl hb0
      rw [enum_bare hb hs hi]
      exact .enum
    | _ => exact absurd (parseBody_kind hlast) (by simp [Field.kind])
  | set cf st =>
    cases hre
    simp only [Field.setCommon, parseBody, Res.bind_eq_ok, Res.pure_eq] at hbody
    obtain ⟨st', hi, e⟩ := hbody
    cases e
    cases f0 with
    | set c0 st0 =>
      simp only [parseBody, Res.bind_eq_ok, Res.pure_eq] at hlast
      obtain ⟨st1, hl, e⟩ := hlast
      cases e
      rw [set_bare hb (set_settled hl hb0) hi]
      exact .set
    | _ => exact absurd (parseBody_kind hlast) (by simp [Field.kind])
  | float cf st =>
    cases hre
    simp only [Field.setCommon, parseBody, Res.bind_eq_ok, Res.pure_eq] at hbody
    obtain ⟨st', hi, e⟩ := hbody
    cases e
    cases f0 with
    | float c0 st0 =>
      simp only [parseBody, Res.bind_eq_ok, Res.pure_eq] at hlast
      obtain ⟨st1, hl, e⟩ := hlast
      cases e
      rw [float_bare hb (float_settled hl) hi]
      exact .float rfl rfl
    | _ => exact absurd (parseBody_kind hlast) (by simp [Field.kind])
  | bitfield cf e ms cd =>
    cases hre
    simp only [Field.setCommon, parseBody] at hbody
    cases f0 with
    | bitfield c0 e0 ms0 cd0 =>
      simp only [parseBody, bitfieldImpl, Res.bind_eq_ok, Res.pure_eq] at hlast
      obtain ⟨e1, he, _, _, _, _, el⟩ := hlast
      cases el
      rw [bitfield_bare hb (bitfieldEndian_some he) hbody, cloneAll_eq_map]
      exact .bitfield
    | _ => exact absurd (parseBody_kind hlast) (by simp [Field.kind])
  | bundle cf ms al cd =>
    simp only [reuseImpl, reusedAliases, Res.bind_eq_ok, Res.pure_eq] at hre
    obtain ⟨al', hal, hre⟩ := hre
    cases hre
    simp only [Field.setCommon, parseBody] at hbody
    rw [bundle_bare hb hbody, keep_reused]
    refine .bundle ?_
    have hra : (nodeProps node).find "reuseAliases".toList = none := by
      have := hb.find "reuseAliases".toList (by decide)
      rw [pr.ctx] at this
      exact this
    cases hsup : Dsl.isSupported env.dsl .fieldAlias with
    | false =>
      rw [hsup] at hal
      cases hal
      rfl
    | true =>
      rw [hsup] at hal
      rw [if_neg (by simp), bool_none hra] at hal
      cases hal
      rfl
  | string cf st p =>
    cases hre
    simp only [Field.setCommon, parseBody, Res.bind_eq_ok, Res.pure_eq] at hbody
    obtain ⟨x, hi, e⟩ := hbody
    cases e
    obtain ⟨q1, q2, q3⟩ := string_bare hb hi
    rw [q3, ← slotReused_eq]
    exact .string q1 q2
  | data cf st p =>
    cases hre
    simp only [Field.setCommon, parseBody, Res.bind_eq_ok, Res.pure_eq] at hbody
    obtain ⟨x, hi, e⟩ := hbody
    cases e
    obtain ⟨q1, q2, q3⟩ := data_bare hb hi
    rw [q3, ← slotReused_eq]
    exact .data q1 q2
  | list cf st e cn l el t =>
    cases hre
    simp only [Field.setCommon, parseBody, Res.bind_eq_ok, Res.pure_eq] at hbody
    obtain ⟨x, hi, e⟩ := hbody
    cases e
    have q := list_bare hb hi
    have := ContentReused.list (dsl := env.dsl) (since := b.ic.since) (c := cf) (c' := c) (st := st) (e := e) (cn := cn) (l := l) (el := el) (t := t)
    simp only [slotReused_eq] at this
    rw [q]
    cases hsup : Dsl.propertySupported env.dsl "termSuffix".toList with
    | false => rw [hsup] at this; exact this
    | true => rw [hsup] at this; exact this
  | ref cf bl t =>
    cases hre
    simp only [Field.setCommon, parseBody] at hbody
    rw [ref_bare hb hbody]
    exact .ref
  | optional cf st fs cd =>
    cases hre
    simp only [Field.setCommon, parseBody] at hbody
    rw [optional_bare hb hbody, ← slotReused_eq]
    exact .optional
  | variant cf d ms =>
    cases hre
    simp only [Field.setCommon, parseBody] at hbody
    rw [variant_bare hb hbody, keep_reused]
    exact .variant

theorem fieldMinLen_takes {dsl : Nat} {props : Props} {cur r : Int} (h : updateMinLen dsl props cur = .ok r) :
    Takes (if Dsl.isSupported dsl .validateMinLengthForFields = true then props.find "validateMinLength".toList else none) cur
      (fun s r => ∃ v, strToUnsigned s = some v ∧ r = castI32 v) r := by
  unfold updateMinLen at h
  split at h
  · cases h
  cases hf : props.find "validateMinLength".toList with
  | none => rw [hf] at h; cases h; split <;> rfl
  | some s =>
    rw [hf] at h
    dsimp only at h
    cases hp : Dsl.isSupported dsl .validateMinLengthForFields with
    | false => rw [hp] at h; cases h; rfl
    | true =>
      rw [hp] at h
      simp only [Bool.not_true, Bool.false_eq_true, if_false] at h
      cases hv : strToUnsigned s with
      | none => rw [hv] at h; cases h
      | some v => rw [hv] at h; exact ⟨v, hv, (Res.ok.inj h).symm⟩


/-- The common attributes, relative to those before. -/
structure Common.Taken (env : FEnv) (props : Props) (c0 c : Common) : Prop where
  name : Takes (props.find "name".toList) c0.name (fun s r => r = s) c.name
  disp : Takes (props.find "displayName".toList) c0.displayName (fun s r => stringValue env s = some r) c.displayName
  descr : Takes (props.find "description".toList) c0.description (fun s r => stringValue env s = some r) c.description
  sem : Takes (props.find "semanticType".toList) c0.sem SemText c.sem
  pseudo : Takes (known env.dsl props "pseudo".toList) c0.pseudo BoolText c.pseudo
  fixedV : Takes (known env.dsl props "fixedValue".toList) c0.fixedValue BoolText c.fixedValue
  cust : Takes (known env.dsl props "customizable".toList) c0.customizable BoolText c.customizable
  foi : Takes (known env.dsl props "failOnInvalid".toList) c0.failOnInvalid BoolText c.failOnInvalid
  fgen : Takes (known env.dsl props "forceGen".toList) c0.forceGen BoolText c.forceGen
  minLen : Takes (if Dsl.isSupported env.dsl .validateMinLengthForFields = true then props.find "validateMinLength".toList else none) c0.validateMinLength
    (fun s r => ∃ v, strToUnsigned s = some v ∧ r = castI32 v) c.validateMinLength
  code : Takes (known env.dsl props "copyCodeFrom".toList) c0.copyCodeFrom (fun s r => r = s) c.copyCodeFrom

theorem common_taken {env : FEnv} {parent : ParentInfo} {props : Props} {c0 c : Common} (h : updateCommon env parent props c0 = .ok c) : Common.Taken env props c0 c := by
  unfold updateCommon at h
  simp only [Res.bind_eq_ok, Res.pure_eq] at h
  obtain ⟨name, a1, disp, a2, descr, a3, w, a4, sem, a5, ps, a6, fx, a7, cu, a8, fo, a9, fg, a10, _, _, code, a11, ml, a12, hc⟩ := h
  have hc := (Res.ok.inj hc).symm
  subst hc
  exact ⟨str_takes a1, deref_takes a2, deref_takes a3, sem_takes a5, bool_takes a6, bool_takes a7, bool_takes a8, bool_takes a9, bool_takes a10, fieldMinLen_takes a12, fieldCode_takes a11⟩

/-- The common state at the end. -/
theorem final_common {env : FEnv} {pc : ParentInfo → Xml → Res Field} {parent : ParentInfo} {node : Xml} {g f1 f2 : Field} {b : BCtx} {c : Common} {props : Props}
    (pr : Prep env pc parent node g b c props f1 f2) :
    g.common = c ∨ ∃ s t, g.kind = .ref ∧ props.find "field".toList = some s ∧ env.findField s = some t ∧ g.common = refCommon env.dsl c t.common := by
  have hbody := pr.body
  by_cases hk : (f2.setCommon c).kind = .ref
  · cases f2 with
    | ref c0 bl tg =>
      simp only [Field.setCommon, parseBody] at hbody
      have hp : b.props = props := by rw [pr.ctx]; rfl
      unfold refImpl at hbody
      split at hbody
      · cases hbody
      rw [hp] at hbody
      split at hbody
      · rw [← Res.ok.inj hbody]; exact .inl rfl
      · rename_i s hs
        split at hbody
        · cases hbody
        · rename_i t ht
          simp only [Res.bind_eq_ok, Res.pure_eq] at hbody
          obtain ⟨bl', _, hbody⟩ := hbody
          rw [← Res.ok.inj hbody]
          exact .inr ⟨s, t, rfl, hs, ht, rfl⟩
    | _ => cases hk
  · have := (parseBody_common hbody).2.2.2 hk
    rw [setCommon_common] at this
    exact .inl this

/-- The common state of the reused field. -/
theorem reused_common {env : FEnv} {k : Kind} {props : Props} {bf : Bool} {f1 : Field} (h : checkReuse env k props { inBitfield := bf } = .ok f1) :
    ∃ x code, FieldReused env props k x ∧ f1.common = { x with copyCodeFrom := code, inBitfield := bf } ∧ ((x = {} ∧ code = []) ∨ CodeReused env.dsl props code) := by
  rcases checkReuse_ok h with ⟨h1, h2⟩ | ⟨s, f, cd, h1, h2, h3, h4, h5⟩
  · exact ⟨{}, [], .inl ⟨rfl, h1⟩, by rw [h2, initField_common], .inl ⟨rfl, rfl⟩⟩
  · refine ⟨f.common, cd, .inr ⟨s, f, h1, h2, h3, rfl⟩, (reuseImpl_ok h5).1, .inr ?_⟩
    unfold reuseCode at h4
    simp only [Res.bind_eq_ok, Res.pure_eq] at h4
    obtain ⟨bb, hb1, hb2⟩ := h4
    rw [← Res.ok.inj hb2]
    exact extras_code h1 hb1

end ReuseProofs
end Commsdsl.Props
