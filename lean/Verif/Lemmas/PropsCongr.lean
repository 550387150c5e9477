import Verif.Model.FieldParse
/-!
# What the parser of a field reads of its node and its properties

The parser reads the collected properties through `find`, `count` and what follows from them, and the node through the children of some
names, some attributes and the number of children. So it does the same on two nodes that agree on these.
-/
namespace Commsdsl.Same
open Commsdsl Text Fld

/-- The same instances of each property. -/
structure SameP (p p' : Props) : Prop where
  find : ∀ k, p'.find k = p.find k
  count : ∀ k, p'.count k = p.count k

theorem SameP.single {p p' : Props} (h : SameP p p') (k : Str) (m : Bool) : p'.validateSingle k m = p.validateSingle k m := by
  simp only [Props.validateSingle, h.count]

theorem SameP.getStr {p p' : Props} (h : SameP p p') (k : Str) : p'.getStr k = p.getStr k := by
  simp only [Props.getStr, h.find]

/-- Names of the children the parser looks for by name. -/
def structural : List Str := [
  "special".toList, "validRange".toList, "validValue".toList, "validMin".toList, "validMax".toList, "validFullRange".toList,
  "bit".toList, "lengthPrefix".toList, "countPrefix".toList, "elemLengthPrefix".toList, "termSuffix".toList, "element".toList,
  "members".toList, "validCond".toList, "alias".toList, "field".toList, "replace".toList]

/-- Names of the attributes the parser looks for without collecting. -/
def direct : List Str := [
  "validRange".toList, "validValue".toList, "validMin".toList, "validMax".toList, "validFullRange".toList, "fields".toList]

/-- The nodes agree on what is looked for. -/
structure SameN (n n' : Xml) : Prop where
  kid : ∀ s ∈ structural, ∀ b, getChildren n' [s] b = getChildren n [s] b
  types : getChildren n' fieldTypes = getChildren n fieldTypes
  bits : getChildren n' bitfieldTypes = getChildren n bitfieldTypes
  andOr : getChildren n' ["and".toList, "or".toList] = getChildren n ["and".toList, "or".toList]
  attr : ∀ s ∈ direct, (nodeProps n').find s = (nodeProps n).find s
  len : getChildren n fieldTypes = [] ∨ (getChildren n').length = (getChildren n).length

/-- What `parseImpl` of a scalar field reads. -/
structure SameCtx (c c' : IntF.Ctx) : Prop extends SameN c.node c'.node where
  props : SameP c.props c'.props
  since : c'.since = c.since
  depr : c'.depr = c.depr
  bf : c'.bitfieldMember = c.bitfieldMember

/-- What `parseImpl` of any field reads. -/
structure SameB (b b' : BCtx) : Prop where
  ic : SameCtx b.ic b'.ic
  det : b'.detachedAllowed = b.detachedAllowed
  child : b'.child = b.child

end Commsdsl.Same

namespace Commsdsl.Versions
open Commsdsl Text Same

theorem _root_.Commsdsl.Same.versions_numProp {props props' : Props} (h : SameP props props') (key : Str) (cur : Nat) :
    Versions.numProp props' key cur = Versions.numProp props key cur := by
  simp only [Versions.numProp, h.find]

theorem _root_.Commsdsl.Same.versions_getAndCheck {props props' : Props} (h : SameP props props') (schemaVersion : Nat) (since : Nat) (depr : Nat) :
    Versions.getAndCheck schemaVersion props' since depr = Versions.getAndCheck schemaVersion props since depr := by
  simp only [Versions.getAndCheck, versions_numProp h]

theorem _root_.Commsdsl.Same.versions_removedProp {props props' : Props} (h : SameP props props')  :
    Versions.removedProp props' = Versions.removedProp props := by
  simp only [Versions.removedProp, h.find]

theorem _root_.Commsdsl.Same.versions_fieldVersions {props props' : Props} (h : SameP props props') (schemaVersion : Nat) (parent : Parent) :
    Versions.fieldVersions schemaVersion parent props' = Versions.fieldVersions schemaVersion parent props := by
  simp only [Versions.fieldVersions, versions_getAndCheck h, versions_removedProp h, h.single]

end Commsdsl.Versions

namespace Commsdsl.IntF
open Commsdsl Text Same

theorem _root_.Commsdsl.Same.intf_updateBool {props props' : Props} (h : SameP props props') (dsl : Nat) (name : Str) (cur : Bool) :
    IntF.updateBool dsl props' name cur = IntF.updateBool dsl props name cur := by
  simp only [IntF.updateBool, h.single, h.find]

theorem _root_.Commsdsl.Same.intf_updateType {c c' : IntF.Ctx} (h : SameCtx c c') (st : State) :
    IntF.updateType c' st = IntF.updateType c st := by
  simp only [IntF.updateType, h.props.single, h.props.find]

theorem _root_.Commsdsl.Same.intf_updateEndian {c c' : IntF.Ctx} (h : SameCtx c c') (env : Env) (st : State) :
    IntF.updateEndian env c' st = IntF.updateEndian env c st := by
  simp only [IntF.updateEndian, h.props.single, h.props.getStr]

theorem _root_.Commsdsl.Same.intf_updateLength {c c' : IntF.Ctx} (h : SameCtx c c') (t : IntType) (st : State) :
    IntF.updateLength c' t st = IntF.updateLength c t st := by
  simp only [IntF.updateLength, h.props.single, h.props.getStr]

theorem _root_.Commsdsl.Same.intf_updateBitLength {c c' : IntF.Ctx} (h : SameCtx c c') (t : IntType) (st : State) :
    IntF.updateBitLength c' t st = IntF.updateBitLength c t st := by
  simp only [IntF.updateBitLength, h.props.single, h.props.getStr, h.bf]

theorem _root_.Commsdsl.Same.intf_updateScaling {c c' : IntF.Ctx} (h : SameCtx c c') (st : State) :
    IntF.updateScaling c' st = IntF.updateScaling c st := by
  simp only [IntF.updateScaling, h.props.single, h.props.getStr]

theorem _root_.Commsdsl.Same.intf_updateSerOffset {c c' : IntF.Ctx} (h : SameCtx c c') (st : State) :
    IntF.updateSerOffset c' st = IntF.updateSerOffset c st := by
  simp only [IntF.updateSerOffset, h.props.single, h.props.getStr]

theorem _root_.Commsdsl.Same.intf_updateNonUnique {c c' : IntF.Ctx} (h : SameCtx c c') (env : Env) (st : State) :
    IntF.updateNonUnique env c' st = IntF.updateNonUnique env c st := by
  simp only [IntF.updateNonUnique, intf_updateBool h.props]

theorem _root_.Commsdsl.Same.intf_specialStep {c c' : IntF.Ctx} (h : SameCtx c c') (env : Env) (t : IntType) (s : Xml) (st : State) (rec : List Int) :
    IntF.specialStep env c' t s st rec = IntF.specialStep env c t s st rec := by
  simp only [IntF.specialStep, versions_getAndCheck h.props, h.props.single, h.props.getStr, h.since, h.depr]

theorem _root_.Commsdsl.Same.intf_specialsLoop {c c' : IntF.Ctx} (h : SameCtx c c') (env : Env) (t : IntType) (x0 : List Xml) (x1 : State) (x2 : List Int) :
    IntF.specialsLoop env c' t x0 x1 x2 = IntF.specialsLoop env c t x0 x1 x2 := by
  induction x0 generalizing x1 x2 with
  | nil => rfl
  | cons y ys ih => simp only [IntF.specialsLoop, intf_specialStep h, ih]

theorem _root_.Commsdsl.Same.intf_updateSpecials {c c' : IntF.Ctx} (h : SameCtx c c') (env : Env) (t : IntType) (st : State) :
    IntF.updateSpecials env c' t st = IntF.updateSpecials env c t st := by
  simp only [IntF.updateSpecials, intf_specialsLoop h, h.kid "special".toList (by decide)]

theorem _root_.Commsdsl.Same.intf_updateDefault {c c' : IntF.Ctx} (h : SameCtx c c') (env : Env) (t : IntType) (st : State) :
    IntF.updateDefault env c' t st = IntF.updateDefault env c t st := by
  simp only [IntF.updateDefault, h.props.single, h.props.getStr]

theorem _root_.Commsdsl.Same.intf_updateDefaultValid {c c' : IntF.Ctx} (h : SameCtx c c') (env : Env) (t : IntType) (st : State) :
    IntF.updateDefaultValid env c' t st = IntF.updateDefaultValid env c t st := by
  simp only [IntF.updateDefaultValid, h.props.single, h.props.find, h.since, h.depr]

theorem _root_.Commsdsl.Same.intf_updateValidCheckVersion {c c' : IntF.Ctx} (h : SameCtx c c') (env : Env) (st : State) :
    IntF.updateValidCheckVersion env c' st = IntF.updateValidCheckVersion env c st := by
  simp only [IntF.updateValidCheckVersion, intf_updateBool h.props]

theorem _root_.Commsdsl.Same.intf_checkRangeAttr {c c' : IntF.Ctx} (h : SameCtx c c') (env : Env) (t : IntType) (p : RangeProp) (st : State) :
    IntF.checkRangeAttr env c' t p st = IntF.checkRangeAttr env c t p st := by
  have ha : (nodeProps c'.node).find p.name = (nodeProps c.node).find p.name := h.attr _ (by cases p <;> decide)
  simp only [IntF.checkRangeAttr, ha, h.since, h.depr]

theorem _root_.Commsdsl.Same.intf_checkRangeChild {c c' : IntF.Ctx} (h : SameCtx c c') (env : Env) (t : IntType) (p : RangeProp) (child : Xml) (st : State) :
    IntF.checkRangeChild env c' t p child st = IntF.checkRangeChild env c t p child st := by
  simp only [IntF.checkRangeChild, h.since, h.depr]

theorem _root_.Commsdsl.Same.intf_checkRangeChildren {c c' : IntF.Ctx} (h : SameCtx c c') (env : Env) (t : IntType) (p : RangeProp) (x0 : List Xml) (x1 : State) :
    IntF.checkRangeChildren env c' t p x0 x1 = IntF.checkRangeChildren env c t p x0 x1 := by
  induction x0 generalizing x1 with
  | nil => rfl
  | cons y ys ih => simp only [IntF.checkRangeChildren, intf_checkRangeChild h, ih]

theorem _root_.Commsdsl.Same.intf_checkRangeProps {c c' : IntF.Ctx} (h : SameCtx c c') (env : Env) (t : IntType) (p : RangeProp) (st : State) :
    IntF.checkRangeProps env c' t p st = IntF.checkRangeProps env c t p st := by
  have hk : getChildren c'.node [p.name] = getChildren c.node [p.name] := h.kid _ (by cases p <;> decide) _
  simp only [IntF.checkRangeProps, hk, intf_checkRangeAttr h, intf_checkRangeChildren h]

theorem _root_.Commsdsl.Same.intf_updateValidRanges {c c' : IntF.Ctx} (h : SameCtx c c') (env : Env) (t : IntType) (st : State) :
    IntF.updateValidRanges env c' t st = IntF.updateValidRanges env c t st := by
  simp only [IntF.updateValidRanges, intf_checkRangeProps h]

theorem _root_.Commsdsl.Same.intf_updateUnits {c c' : IntF.Ctx} (h : SameCtx c c') (st : State) :
    IntF.updateUnits c' st = IntF.updateUnits c st := by
  simp only [IntF.updateUnits, h.props.single, h.props.find]

theorem _root_.Commsdsl.Same.intf_updateDisplayDecimals {c c' : IntF.Ctx} (h : SameCtx c c') (st : State) :
    IntF.updateDisplayDecimals c' st = IntF.updateDisplayDecimals c st := by
  simp only [IntF.updateDisplayDecimals, h.props.single, h.props.find]

theorem _root_.Commsdsl.Same.intf_updateDisplayOffset {c c' : IntF.Ctx} (h : SameCtx c c') (st : State) :
    IntF.updateDisplayOffset c' st = IntF.updateDisplayOffset c st := by
  simp only [IntF.updateDisplayOffset, h.props.single, h.props.find]

theorem _root_.Commsdsl.Same.intf_updateSignExt {c c' : IntF.Ctx} (h : SameCtx c c') (env : Env) (st : State) :
    IntF.updateSignExt env c' st = IntF.updateSignExt env c st := by
  simp only [IntF.updateSignExt, intf_updateBool h.props]

theorem _root_.Commsdsl.Same.intf_updateAvailableLengthLimit {c c' : IntF.Ctx} (h : SameCtx c c') (env : Env) (st : State) :
    IntF.updateAvailableLengthLimit env c' st = IntF.updateAvailableLengthLimit env c st := by
  simp only [IntF.updateAvailableLengthLimit, intf_updateBool h.props]

theorem _root_.Commsdsl.Same.intf_parseImpl {c c' : IntF.Ctx} (h : SameCtx c c') (env : Env) (st0 : State) :
    IntF.parseImpl env c' st0 = IntF.parseImpl env c st0 := by
  simp only [IntF.parseImpl, intf_updateType h, intf_updateEndian h, intf_updateLength h, intf_updateBitLength h, intf_updateScaling h, intf_updateSerOffset h, intf_updateNonUnique h, intf_updateSpecials h, intf_updateDefault h, intf_updateDefaultValid h, intf_updateValidCheckVersion h, intf_updateValidRanges h, intf_updateUnits h, intf_updateDisplayDecimals h, intf_updateDisplayOffset h, intf_updateSignExt h, intf_updateAvailableLengthLimit h]

end Commsdsl.IntF

namespace Commsdsl.FloatF
open Commsdsl Text Same

theorem _root_.Commsdsl.Same.floatf_updateType {c c' : IntF.Ctx} (h : SameCtx c c') (st : State) :
    FloatF.updateType c' st = FloatF.updateType c st := by
  simp only [FloatF.updateType, h.props.single, h.props.find]

theorem _root_.Commsdsl.Same.floatf_updateEndian {c c' : IntF.Ctx} (h : SameCtx c c') (env : IntF.Env) (st : State) :
    FloatF.updateEndian env c' st = FloatF.updateEndian env c st := by
  simp only [FloatF.updateEndian, h.props.single, h.props.getStr]

theorem _root_.Commsdsl.Same.floatf_updateNonUnique {c c' : IntF.Ctx} (h : SameCtx c c') (env : IntF.Env) (st : State) :
    FloatF.updateNonUnique env c' st = FloatF.updateNonUnique env c st := by
  simp only [FloatF.updateNonUnique, intf_updateBool h.props]

theorem _root_.Commsdsl.Same.floatf_specialStep {c c' : IntF.Ctx} (h : SameCtx c c') (env : IntF.Env) (fp : Fp) (s : Xml) (st : State) (rec : List Dbl) :
    FloatF.specialStep env fp c' s st rec = FloatF.specialStep env fp c s st rec := by
  simp only [FloatF.specialStep, versions_getAndCheck h.props, h.props.single, h.props.getStr, h.since, h.depr]

theorem _root_.Commsdsl.Same.floatf_specialsLoop {c c' : IntF.Ctx} (h : SameCtx c c') (env : IntF.Env) (fp : Fp) (x0 : List Xml) (x1 : State) (x2 : List Dbl) :
    FloatF.specialsLoop env fp c' x0 x1 x2 = FloatF.specialsLoop env fp c x0 x1 x2 := by
  induction x0 generalizing x1 x2 with
  | nil => rfl
  | cons y ys ih => simp only [FloatF.specialsLoop, floatf_specialStep h, ih]

theorem _root_.Commsdsl.Same.floatf_updateSpecials {c c' : IntF.Ctx} (h : SameCtx c c') (env : IntF.Env) (fp : Fp) (st : State) :
    FloatF.updateSpecials env fp c' st = FloatF.updateSpecials env fp c st := by
  simp only [FloatF.updateSpecials, floatf_specialsLoop h, h.kid "special".toList (by decide)]

theorem _root_.Commsdsl.Same.floatf_updateDefault {c c' : IntF.Ctx} (h : SameCtx c c') (fp : Fp) (st : State) :
    FloatF.updateDefault fp c' st = FloatF.updateDefault fp c st := by
  simp only [FloatF.updateDefault, h.props.single, h.props.getStr]

theorem _root_.Commsdsl.Same.floatf_updateValidCheckVersion {c c' : IntF.Ctx} (h : SameCtx c c') (env : IntF.Env) (st : State) :
    FloatF.updateValidCheckVersion env c' st = FloatF.updateValidCheckVersion env c st := by
  simp only [FloatF.updateValidCheckVersion, intf_updateBool h.props]

theorem _root_.Commsdsl.Same.floatf_checkRangeAttr {c c' : IntF.Ctx} (h : SameCtx c c') (fp : Fp) (p : RangeProp) (st : State) :
    FloatF.checkRangeAttr fp c' p st = FloatF.checkRangeAttr fp c p st := by
  have ha : (nodeProps c'.node).find p.name = (nodeProps c.node).find p.name := h.attr _ (by cases p <;> decide)
  simp only [FloatF.checkRangeAttr, ha, h.since, h.depr]

theorem _root_.Commsdsl.Same.floatf_childRange {c c' : IntF.Ctx} (h : SameCtx c c') (env : IntF.Env) (child : Xml) (st : State) (x0 : Option (Dbl × Dbl)) :
    FloatF.childRange env c' child st x0 = FloatF.childRange env c child st x0 := by
  simp only [FloatF.childRange, h.since, h.depr]

theorem _root_.Commsdsl.Same.floatf_checkRangeChild {c c' : IntF.Ctx} (h : SameCtx c c') (env : IntF.Env) (fp : Fp) (p : RangeProp) (child : Xml) (st : State) :
    FloatF.checkRangeChild env fp c' p child st = FloatF.checkRangeChild env fp c p child st := by
  simp only [FloatF.checkRangeChild, floatf_childRange h]

theorem _root_.Commsdsl.Same.floatf_checkRangeChildren {c c' : IntF.Ctx} (h : SameCtx c c') (env : IntF.Env) (fp : Fp) (p : RangeProp) (x0 : List Xml) (x1 : State) :
    FloatF.checkRangeChildren env fp c' p x0 x1 = FloatF.checkRangeChildren env fp c p x0 x1 := by
  induction x0 generalizing x1 with
  | nil => rfl
  | cons y ys ih => simp only [FloatF.checkRangeChildren, floatf_checkRangeChild h, ih]

theorem _root_.Commsdsl.Same.floatf_checkRangeProps {c c' : IntF.Ctx} (h : SameCtx c c') (env : IntF.Env) (fp : Fp) (p : RangeProp) (st : State) :
    FloatF.checkRangeProps env fp c' p st = FloatF.checkRangeProps env fp c p st := by
  have hk : getChildren c'.node [p.name] = getChildren c.node [p.name] := h.kid _ (by cases p <;> decide) _
  simp only [FloatF.checkRangeProps, hk, floatf_checkRangeAttr h, floatf_checkRangeChildren h]

theorem _root_.Commsdsl.Same.floatf_updateValidRanges {c c' : IntF.Ctx} (h : SameCtx c c') (env : IntF.Env) (fp : Fp) (st : State) :
    FloatF.updateValidRanges env fp c' st = FloatF.updateValidRanges env fp c st := by
  simp only [FloatF.updateValidRanges, floatf_checkRangeProps h, h.props.single]

theorem _root_.Commsdsl.Same.floatf_updateUnits {c c' : IntF.Ctx} (h : SameCtx c c') (st : State) :
    FloatF.updateUnits c' st = FloatF.updateUnits c st := by
  simp only [FloatF.updateUnits, h.props.single, h.props.find]

theorem _root_.Commsdsl.Same.floatf_updateDisplayDecimals {c c' : IntF.Ctx} (h : SameCtx c c') (st : State) :
    FloatF.updateDisplayDecimals c' st = FloatF.updateDisplayDecimals c st := by
  simp only [FloatF.updateDisplayDecimals, h.props.single, h.props.find]

theorem _root_.Commsdsl.Same.floatf_parseImpl {c c' : IntF.Ctx} (h : SameCtx c c') (env : IntF.Env) (fp : Fp) (st : State) :
    FloatF.parseImpl env fp c' st = FloatF.parseImpl env fp c st := by
  simp only [FloatF.parseImpl, floatf_updateType h, floatf_updateEndian h, floatf_updateNonUnique h, floatf_updateSpecials h, floatf_updateDefault h, floatf_updateValidCheckVersion h, floatf_updateValidRanges h, floatf_updateUnits h, floatf_updateDisplayDecimals h]

end Commsdsl.FloatF

namespace Commsdsl.EnumF
open Commsdsl Text Same IntF

theorem _root_.Commsdsl.Same.enumf_updateNonUnique {c c' : IntF.Ctx} (h : SameCtx c c') (env : Env) (st : State) :
    EnumF.updateNonUnique env c' st = EnumF.updateNonUnique env c st := by
  simp only [EnumF.updateNonUnique, intf_updateBool h.props]

theorem _root_.Commsdsl.Same.enumf_valueStep {c c' : IntF.Ctx} (h : SameCtx c c') (env : Env) (t : IntType) (v : Xml) (st : State) :
    EnumF.valueStep env c' t v st = EnumF.valueStep env c t v st := by
  simp only [EnumF.valueStep, versions_getAndCheck h.props, h.props.single, h.props.getStr, h.since, h.depr]

theorem _root_.Commsdsl.Same.enumf_valuesLoop {c c' : IntF.Ctx} (h : SameCtx c c') (env : Env) (t : IntType) (x0 : List Xml) (x1 : State) :
    EnumF.valuesLoop env c' t x0 x1 = EnumF.valuesLoop env c t x0 x1 := by
  induction x0 generalizing x1 with
  | nil => rfl
  | cons y ys ih => simp only [EnumF.valuesLoop, enumf_valueStep h, ih]

theorem _root_.Commsdsl.Same.enumf_updateValues {c c' : IntF.Ctx} (h : SameCtx c c') (env : Env) (t : IntType) (st : State) :
    EnumF.updateValues env c' t st = EnumF.updateValues env c t st := by
  simp only [EnumF.updateValues, enumf_valuesLoop h, h.kid "validValue".toList (by decide)]

theorem _root_.Commsdsl.Same.enumf_updateDefault {c c' : IntF.Ctx} (h : SameCtx c c') (env : Env) (t : IntType) (st : State) :
    EnumF.updateDefault env c' t st = EnumF.updateDefault env c t st := by
  simp only [EnumF.updateDefault, intf_updateDefault h]

theorem _root_.Commsdsl.Same.enumf_updateHexAssign {c c' : IntF.Ctx} (h : SameCtx c c') (env : Env) (t : IntType) (st : State) :
    EnumF.updateHexAssign env c' t st = EnumF.updateHexAssign env c t st := by
  simp only [EnumF.updateHexAssign, intf_updateBool h.props, h.props.getStr]

theorem _root_.Commsdsl.Same.enumf_parseImpl {c c' : IntF.Ctx} (h : SameCtx c c') (env : Env) (st0 : State) :
    EnumF.parseImpl env c' st0 = EnumF.parseImpl env c st0 := by
  have h1 : IntF.updateType c' = IntF.updateType c := funext (intf_updateType h)
  have h2 : IntF.updateEndian env c' = IntF.updateEndian env c := funext (intf_updateEndian h env)
  have h3 : ∀ t, IntF.updateLength c' t = IntF.updateLength c t := fun t => funext (intf_updateLength h t)
  have h4 : ∀ t, IntF.updateBitLength c' t = IntF.updateBitLength c t := fun t => funext (intf_updateBitLength h t)
  have h5 : IntF.updateValidCheckVersion env c' = IntF.updateValidCheckVersion env c := funext (intf_updateValidCheckVersion h env)
  have h6 : IntF.updateAvailableLengthLimit env c' = IntF.updateAvailableLengthLimit env c :=
    funext (intf_updateAvailableLengthLimit h env)
  simp only [EnumF.parseImpl, h1, h2, h3, h4, h5, h6, enumf_updateNonUnique h, enumf_updateValues h, enumf_updateDefault h, enumf_updateHexAssign h]

end Commsdsl.EnumF

namespace Commsdsl.SetF
open Commsdsl Text Same IntF

theorem _root_.Commsdsl.Same.setf_updateEndian {c c' : IntF.Ctx} (h : SameCtx c c') (env : Env) (st : State) :
    SetF.updateEndian env c' st = SetF.updateEndian env c st := by
  simp only [SetF.updateEndian, h.props.single, h.props.getStr]

theorem _root_.Commsdsl.Same.setf_updateType {c c' : IntF.Ctx} (h : SameCtx c c') (st : State) :
    SetF.updateType c' st = SetF.updateType c st := by
  simp only [SetF.updateType, h.props.single, h.props.find]

theorem _root_.Commsdsl.Same.setf_updateByteLength {c c' : IntF.Ctx} (h : SameCtx c c') (st : State) :
    SetF.updateByteLength c' st = SetF.updateByteLength c st := by
  simp only [SetF.updateByteLength, h.props.single, h.props.getStr, h.bf]

theorem _root_.Commsdsl.Same.setf_updateBitLength {c c' : IntF.Ctx} (h : SameCtx c c') (st : State) :
    SetF.updateBitLength c' st = SetF.updateBitLength c st := by
  simp only [SetF.updateBitLength, h.props.single, h.props.getStr, h.bf]

theorem _root_.Commsdsl.Same.setf_updateLength {c c' : IntF.Ctx} (h : SameCtx c c') (st : State) :
    SetF.updateLength c' st = SetF.updateLength c st := by
  simp only [SetF.updateLength, setf_updateByteLength h, setf_updateBitLength h]

theorem _root_.Commsdsl.Same.setf_updateNonUnique {c c' : IntF.Ctx} (h : SameCtx c c') (env : Env) (st : State) :
    SetF.updateNonUnique env c' st = SetF.updateNonUnique env c st := by
  simp only [SetF.updateNonUnique, intf_updateBool h.props, h.props.getStr]

theorem _root_.Commsdsl.Same.setf_boolProp {props props' : Props} (h : SameP props props') (env : Env) (name : Str) (cur : Bool) :
    SetF.boolProp env props' name cur = SetF.boolProp env props name cur := by
  simp only [SetF.boolProp, h.find]

theorem _root_.Commsdsl.Same.setf_bitStep {c c' : IntF.Ctx} (h : SameCtx c c') (env : Env) (b : Xml) (st : State) :
    SetF.bitStep env c' b st = SetF.bitStep env c b st := by
  simp only [SetF.bitStep, versions_getAndCheck h.props, h.props.single, h.props.getStr, h.since, h.depr]

theorem _root_.Commsdsl.Same.setf_bitsLoop {c c' : IntF.Ctx} (h : SameCtx c c') (env : Env) (x0 : List Xml) (x1 : State) :
    SetF.bitsLoop env c' x0 x1 = SetF.bitsLoop env c x0 x1 := by
  induction x0 generalizing x1 with
  | nil => rfl
  | cons y ys ih => simp only [SetF.bitsLoop, setf_bitStep h, ih]

theorem _root_.Commsdsl.Same.setf_parseImpl {c c' : IntF.Ctx} (h : SameCtx c c') (env : Env) (st0 : State) :
    SetF.parseImpl env c' st0 = SetF.parseImpl env c st0 := by
  simp only [SetF.parseImpl, intf_updateBool h.props, setf_updateEndian h, setf_updateType h, setf_updateLength h, setf_updateNonUnique h, setf_boolProp h.props, setf_bitsLoop h, h.kid "bit".toList (by decide)]

end Commsdsl.SetF

namespace Commsdsl.Fld
open Commsdsl Text Same

theorem _root_.Commsdsl.Same.fld_prefixFromRef {b b' : BCtx} (h : SameB b b') (env : FEnv) (key : Str) (cur : Pfx) :
    Fld.prefixFromRef env b' key cur = Fld.prefixFromRef env b key cur := by
  simp only [Fld.prefixFromRef, BCtx.props, BCtx.node, h.ic.props.single, h.ic.props.find, h.det]

theorem _root_.Commsdsl.Same.fld_prefixAsChild {b b' : BCtx} (h : SameB b b') (key : Str) (hk : key ∈ structural) (cur : Pfx) :
    Fld.prefixAsChild b' key cur = Fld.prefixAsChild b key cur := by
  simp only [Fld.prefixAsChild, BCtx.props, BCtx.node, h.ic.kid key hk, h.ic.props.find, h.child]

theorem _root_.Commsdsl.Same.fld_updatePfx {b b' : BCtx} (h : SameB b b') (env : FEnv) (key : Str) (hk : key ∈ structural) (cur : Pfx) :
    Fld.updatePfx env b' key cur = Fld.updatePfx env b key cur := by
  simp only [Fld.updatePfx, BCtx.props, BCtx.node, fld_prefixFromRef h, fld_prefixAsChild h key hk]

theorem _root_.Commsdsl.Same.fld_updateEncoding {α : Type} {b b' : BCtx} (h : SameB b b') (st : SeqState α) :
    Fld.updateEncoding b' st = Fld.updateEncoding b st := by
  simp only [Fld.updateEncoding, BCtx.props, BCtx.node, h.ic.props.single, h.ic.props.find]

theorem _root_.Commsdsl.Same.fld_seqUpdateLength {α : Type} {b b' : BCtx} (h : SameB b b') (pfx : Slot Field) (st : SeqState α) :
    Fld.seqUpdateLength b' pfx st = Fld.seqUpdateLength b pfx st := by
  simp only [Fld.seqUpdateLength, BCtx.props, BCtx.node, h.ic.props.single, h.ic.props.find]

theorem _root_.Commsdsl.Same.fld_seqUpdatePrefix {α : Type} {b b' : BCtx} (h : SameB b b') (env : FEnv) (st : SeqState α) (pfx : Slot Field) :
    Fld.seqUpdatePrefix env b' st pfx = Fld.seqUpdatePrefix env b st pfx := by
  simp only [Fld.seqUpdatePrefix, BCtx.props, BCtx.node, fld_updatePfx h env "lengthPrefix".toList (by decide)]

theorem _root_.Commsdsl.Same.fld_updateZeroTerm {α : Type} {b b' : BCtx} (h : SameB b b') (pfx : Slot Field) (st : SeqState α) :
    Fld.updateZeroTerm b' pfx st = Fld.updateZeroTerm b pfx st := by
  simp only [Fld.updateZeroTerm, BCtx.props, BCtx.node, h.ic.props.single, h.ic.props.find]

theorem _root_.Commsdsl.Same.fld_seqUpdateDefault {α : Type} {b b' : BCtx} (h : SameB b b') (val : Str → Option (List α)) (st : SeqState α) :
    Fld.seqUpdateDefault val b' st = Fld.seqUpdateDefault val b st := by
  simp only [Fld.seqUpdateDefault, BCtx.props, BCtx.node, h.ic.props.single, h.ic.props.find]

theorem _root_.Commsdsl.Same.fld_seqUpdateDefaultValid {α : Type} {b b' : BCtx} (h : SameB b b') (dsl : Nat) (val : Str → Option (List α)) (st : SeqState α) :
    Fld.seqUpdateDefaultValid dsl val b' st = Fld.seqUpdateDefaultValid dsl val b st := by
  simp only [Fld.seqUpdateDefaultValid, BCtx.props, BCtx.node, h.ic.props.single, h.ic.props.find, h.ic.since, h.ic.depr]

theorem _root_.Commsdsl.Same.fld_validAsAttr {α : Type} {b b' : BCtx} (h : SameB b b') (dsl : Nat) (val : Str → Option (List α)) (st : SeqState α) :
    Fld.validAsAttr dsl val b' st = Fld.validAsAttr dsl val b st := by
  simp only [Fld.validAsAttr, BCtx.props, BCtx.node, h.ic.props.find, h.ic.attr "validValue".toList (by decide), h.ic.since, h.ic.depr]

theorem _root_.Commsdsl.Same.fld_validAsChild {α : Type} {b b' : BCtx} (h : SameB b b') (env : FEnv) (val : Str → Option (List α)) (ch : Xml) (st : SeqState α) :
    Fld.validAsChild env val b' ch st = Fld.validAsChild env val b ch st := by
  simp only [Fld.validAsChild, BCtx.props, BCtx.node, h.ic.since, h.ic.depr]

theorem _root_.Commsdsl.Same.fld_validChildren {α : Type} {b b' : BCtx} (h : SameB b b') (env : FEnv) (val : Str → Option (List α)) (x0 : List Xml) (x1 : SeqState α) :
    Fld.validChildren env val b' x0 x1 = Fld.validChildren env val b x0 x1 := by
  induction x0 generalizing x1 with
  | nil => rfl
  | cons y ys ih => simp only [Fld.validChildren, fld_validAsChild h, ih]

theorem _root_.Commsdsl.Same.fld_seqUpdateValid {α : Type} {b b' : BCtx} (h : SameB b b') (env : FEnv) (val : Str → Option (List α)) (lt : α → α → Bool) (st : SeqState α) :
    Fld.seqUpdateValid env val lt b' st = Fld.seqUpdateValid env val lt b st := by
  simp only [Fld.seqUpdateValid, BCtx.props, BCtx.node, fld_validAsAttr h, fld_validChildren h, h.ic.kid "validValue".toList (by decide)]

theorem _root_.Commsdsl.Same.fld_stringImpl {b b' : BCtx} (h : SameB b b') (env : FEnv) (st : SeqState Char) (pfx : Slot Field) :
    Fld.stringImpl env b' st pfx = Fld.stringImpl env b st pfx := by
  simp only [Fld.stringImpl, BCtx.props, BCtx.node, fld_updateEncoding h, fld_seqUpdateLength h, fld_seqUpdatePrefix h, fld_updateZeroTerm h, fld_seqUpdateDefault h, fld_seqUpdateDefaultValid h, fld_seqUpdateValid h]

theorem _root_.Commsdsl.Same.fld_dataImpl {b b' : BCtx} (h : SameB b b') (env : FEnv) (st : SeqState Nat) (pfx : Slot Field) :
    Fld.dataImpl env b' st pfx = Fld.dataImpl env b st pfx := by
  simp only [Fld.dataImpl, BCtx.props, BCtx.node, fld_seqUpdateLength h, fld_seqUpdatePrefix h, fld_seqUpdateDefault h, fld_seqUpdateDefaultValid h, fld_seqUpdateValid h]

theorem _root_.Commsdsl.Same.fld_elementFromRef {b b' : BCtx} (h : SameB b b') (env : FEnv) (cur : Slot Field) :
    Fld.elementFromRef env b' cur = Fld.elementFromRef env b cur := by
  simp only [Fld.elementFromRef, BCtx.props, BCtx.node, h.ic.props.single, h.ic.props.find]

theorem _root_.Commsdsl.Same.fld_elementNode {b b' : BCtx} (h : SameB b b')  :
    Fld.elementNode b' = Fld.elementNode b := by
  have hl := h.ic.len
  simp only [Fld.elementNode, BCtx.props, BCtx.node, h.ic.props.find, h.ic.attr "fields".toList (by decide),
    h.ic.kid "element".toList (by decide), h.ic.types]
  rcases hl with hl | hl
  · simp only [hl]
  · simp only [hl]

theorem _root_.Commsdsl.Same.fld_elementAsChild {b b' : BCtx} (h : SameB b b') (cur : Slot Field) :
    Fld.elementAsChild b' cur = Fld.elementAsChild b cur := by
  simp only [Fld.elementAsChild, BCtx.props, BCtx.node, fld_elementNode h, h.child]

theorem _root_.Commsdsl.Same.fld_updateElement {b b' : BCtx} (h : SameB b b') (env : FEnv) (cur : Slot Field) :
    Fld.updateElement env b' cur = Fld.updateElement env b cur := by
  simp only [Fld.updateElement, BCtx.props, BCtx.node, fld_elementFromRef h, fld_elementAsChild h]

theorem _root_.Commsdsl.Same.fld_updateCount {b b' : BCtx} (h : SameB b b') (sl : ListSlots) (st : ListState) :
    Fld.updateCount b' sl st = Fld.updateCount b sl st := by
  simp only [Fld.updateCount, BCtx.props, BCtx.node, h.ic.props.single, h.ic.props.find]

theorem _root_.Commsdsl.Same.fld_updateCountPrefix {b b' : BCtx} (h : SameB b b') (env : FEnv) (x : ListState × ListSlots) :
    Fld.updateCountPrefix env b' x = Fld.updateCountPrefix env b x := by
  simp only [Fld.updateCountPrefix, BCtx.props, BCtx.node, fld_updatePfx h env "countPrefix".toList (by decide)]

theorem _root_.Commsdsl.Same.fld_updateLengthPrefix {b b' : BCtx} (h : SameB b b') (env : FEnv) (x : ListState × ListSlots) :
    Fld.updateLengthPrefix env b' x = Fld.updateLengthPrefix env b x := by
  simp only [Fld.updateLengthPrefix, BCtx.props, BCtx.node, fld_updatePfx h env "lengthPrefix".toList (by decide)]

theorem _root_.Commsdsl.Same.fld_elemFixedProp {b b' : BCtx} (h : SameB b b') (cur : Bool) :
    Fld.elemFixedProp b' cur = Fld.elemFixedProp b cur := by
  simp only [Fld.elemFixedProp, BCtx.props, BCtx.node, h.ic.props.single, h.ic.props.find]

theorem _root_.Commsdsl.Same.fld_updateElemFixed {b b' : BCtx} (h : SameB b b') (elem : Slot Field) (st : ListState) :
    Fld.updateElemFixed b' elem st = Fld.updateElemFixed b elem st := by
  simp only [Fld.updateElemFixed, BCtx.props, BCtx.node, fld_elemFixedProp h]

theorem _root_.Commsdsl.Same.fld_updateElemLenPrefix {b b' : BCtx} (h : SameB b b') (env : FEnv) (x : ListState × ListSlots) :
    Fld.updateElemLenPrefix env b' x = Fld.updateElemLenPrefix env b x := by
  simp only [Fld.updateElemLenPrefix, BCtx.props, BCtx.node, fld_updatePfx h env "elemLengthPrefix".toList (by decide)]

theorem _root_.Commsdsl.Same.fld_updateTermSuffix {b b' : BCtx} (h : SameB b b') (env : FEnv) (x : ListState × ListSlots) :
    Fld.updateTermSuffix env b' x = Fld.updateTermSuffix env b x := by
  simp only [Fld.updateTermSuffix, BCtx.props, BCtx.node, fld_updatePfx h env "termSuffix".toList (by decide)]

theorem _root_.Commsdsl.Same.fld_listImpl {b b' : BCtx} (h : SameB b b') (env : FEnv) (st : ListState) (sl : ListSlots) :
    Fld.listImpl env b' st sl = Fld.listImpl env b st sl := by
  simp only [Fld.listImpl, BCtx.props, BCtx.node, fld_updateElement h, fld_updateCount h, fld_updateCountPrefix h, fld_updateLengthPrefix h, fld_updateElemFixed h, fld_updateElemLenPrefix h, fld_updateTermSuffix h]

theorem _root_.Commsdsl.Same.fld_memberNodes {b b' : BCtx} (h : SameB b b') (types : List Str)
    (ht : getChildren b'.ic.node types = getChildren b.ic.node types)
    (hl : getChildren b.ic.node types = [] ∨ (getChildren b'.ic.node).length = (getChildren b.ic.node).length) (members : List Field) :
    Fld.memberNodes b' types members = Fld.memberNodes b types members := by
  simp only [Fld.memberNodes, BCtx.node, h.ic.kid "members".toList (by decide), ht]
  rcases hl with hl | hl
  · simp only [hl, List.isEmpty_nil, if_true]
  · simp only [hl]

theorem _root_.Commsdsl.Same.no_bits {n : Xml} (h : getChildren n fieldTypes = []) : getChildren n bitfieldTypes = [] := by
  have hsub : ∀ s ∈ bitfieldTypes, s ∈ fieldTypes := by decide
  refine List.filter_eq_nil_iff.2 fun c hc hp => ?_
  refine List.filter_eq_nil_iff.1 h c hc ?_
  simp only [Bool.and_eq_true, Bool.or_eq_true, Bool.false_and, Bool.not_false, true_and, List.contains_iff_mem] at hp ⊢
  refine ⟨hp.1, .inr ?_⟩
  rcases hp.2 with h2 | h2
  · cases h2
  · exact hsub _ h2

theorem _root_.Commsdsl.Same.fld_memberNodesT {b b' : BCtx} (h : SameB b b') (members : List Field) :
    Fld.memberNodes b' fieldTypes members = Fld.memberNodes b fieldTypes members :=
  fld_memberNodes h _ h.ic.types h.ic.len _

theorem _root_.Commsdsl.Same.fld_memberNodesB {b b' : BCtx} (h : SameB b b') (members : List Field) :
    Fld.memberNodes b' bitfieldTypes members = Fld.memberNodes b bitfieldTypes members :=
  fld_memberNodes h _ h.ic.bits (h.ic.len.imp no_bits id) _

theorem _root_.Commsdsl.Same.fld_newMembers {b b' : BCtx} (h : SameB b b') (chk : List Field → Field → Res Bool) (x0 : List Xml) (x1 : List Field) :
    Fld.newMembers b' chk x0 x1 = Fld.newMembers b chk x0 x1 := by
  induction x0 generalizing x1 with
  | nil => rfl
  | cons y ys ih => simp only [Fld.newMembers, h.child, ih]

theorem _root_.Commsdsl.Same.fld_copyValidCond {b b' : BCtx} (h : SameB b b') (env : FEnv) (k : Kind) (ms : List Field) (cur : Option CondM.Cond) :
    Fld.copyValidCond env b' k ms cur = Fld.copyValidCond env b k ms cur := by
  simp only [Fld.copyValidCond, BCtx.props, BCtx.node, h.ic.props.single, h.ic.props.getStr]

theorem _root_.Commsdsl.Same.fld_singleValidCond {b b' : BCtx} (h : SameB b b') (env : FEnv) (ms : List Field) (cur : Option CondM.Cond) :
    Fld.singleValidCond env b' ms cur = Fld.singleValidCond env b ms cur := by
  simp only [Fld.singleValidCond, BCtx.props, BCtx.node, h.ic.props.single, h.ic.props.find]

theorem _root_.Commsdsl.Same.fld_multiValidCond {b b' : BCtx} (h : SameB b b') (env : FEnv) (ms : List Field) (cur : Option CondM.Cond) :
    Fld.multiValidCond env b' ms cur = Fld.multiValidCond env b ms cur := by
  simp only [Fld.multiValidCond, BCtx.props, BCtx.node, h.ic.props.find, h.ic.kid "validCond".toList (by decide)]

theorem _root_.Commsdsl.Same.fld_updateValidCond {b b' : BCtx} (h : SameB b b') (env : FEnv) (k : Kind) (ms : List Field) (cur : Option CondM.Cond) :
    Fld.updateValidCond env b' k ms cur = Fld.updateValidCond env b k ms cur := by
  simp only [Fld.updateValidCond, BCtx.props, BCtx.node, fld_copyValidCond h, fld_singleValidCond h, fld_multiValidCond h]

theorem _root_.Commsdsl.Same.fld_bitfieldEndian {b b' : BCtx} (h : SameB b b') (env : FEnv) (cur : Option IntF.Endian) :
    Fld.bitfieldEndian env b' cur = Fld.bitfieldEndian env b cur := by
  simp only [Fld.bitfieldEndian, BCtx.props, BCtx.node, h.ic.props.single, h.ic.props.getStr]

theorem _root_.Commsdsl.Same.fld_sameVersions {b b' : BCtx} (h : SameB b b') (f : Field) :
    Fld.sameVersions b' f = Fld.sameVersions b f := by
  simp only [Fld.sameVersions, BCtx.props, BCtx.node, h.ic.since, h.ic.depr]

theorem _root_.Commsdsl.Same.fld_bitfieldNew {b b' : BCtx} (h : SameB b b') (ms : List Field) (nodes : List Xml) :
    Fld.bitfieldNew b' ms nodes = Fld.bitfieldNew b ms nodes := by
  simp only [Fld.bitfieldNew, BCtx.props, BCtx.node, fld_newMembers h, fld_sameVersions h]

theorem _root_.Commsdsl.Same.fld_bitfieldMembers {b b' : BCtx} (h : SameB b b') (members : List Field) :
    Fld.bitfieldMembers b' members = Fld.bitfieldMembers b members := by
  simp only [Fld.bitfieldMembers, fld_memberNodesB h, fld_bitfieldNew h, h.ic.since]

theorem _root_.Commsdsl.Same.fld_bitfieldImpl {b b' : BCtx} (h : SameB b b') (env : FEnv) (c : Common) (e : Option IntF.Endian) (ms : List Field) (cd : Option CondM.Cond) :
    Fld.bitfieldImpl env b' c e ms cd = Fld.bitfieldImpl env b c e ms cd := by
  simp only [Fld.bitfieldImpl, BCtx.props, BCtx.node, fld_updateValidCond h, fld_bitfieldEndian h, fld_bitfieldMembers h, h.ic.bf]

theorem _root_.Commsdsl.Same.fld_hasSameVersion {b b' : BCtx} (h : SameB b b') (ms : List Field) :
    Fld.hasSameVersion b' ms = Fld.hasSameVersion b ms := by
  simp only [Fld.hasSameVersion, BCtx.props, BCtx.node, h.ic.since]

theorem _root_.Commsdsl.Same.fld_bundleNew {b b' : BCtx} (h : SameB b b') (env : FEnv) (ms : List Field) (nodes : List Xml) :
    Fld.bundleNew env b' ms nodes = Fld.bundleNew env b ms nodes := by
  simp only [Fld.bundleNew, BCtx.props, BCtx.node, fld_newMembers h]

theorem _root_.Commsdsl.Same.fld_bundleAll {b b' : BCtx} (h : SameB b b') (env : FEnv) (ms : List Field) (x0 : Option (List Xml)) :
    Fld.bundleAll env b' ms x0 = Fld.bundleAll env b ms x0 := by
  simp only [Fld.bundleAll, BCtx.props, BCtx.node, fld_bundleNew h]

theorem _root_.Commsdsl.Same.fld_bundleMembers {b b' : BCtx} (h : SameB b b') (env : FEnv) (members : List Field) :
    Fld.bundleMembers env b' members = Fld.bundleMembers env b members := by
  simp only [Fld.bundleMembers, fld_memberNodesT h, fld_hasSameVersion h, fld_bundleAll h, h.ic.since]

theorem _root_.Commsdsl.Same.fld_derefProp {props props' : Props} (h : SameP props props') (env : FEnv) (key : Str) (cur : Str) :
    Fld.derefProp env props' key cur = Fld.derefProp env props key cur := by
  simp only [Fld.derefProp, h.single, h.find]

theorem _root_.Commsdsl.Same.fld_bundleAliases {b b' : BCtx} (h : SameB b b') (env : FEnv) (ms : List Field) (aliases : List Alias) :
    Fld.bundleAliases env b' ms aliases = Fld.bundleAliases env b ms aliases := by
  simp only [Fld.bundleAliases, BCtx.props, BCtx.node, h.ic.kid "alias".toList (by decide)]

theorem _root_.Commsdsl.Same.fld_bundleImpl {b b' : BCtx} (h : SameB b b') (env : FEnv) (c : Common) (ms : List Field) (al : List Alias) (cd : Option CondM.Cond) :
    Fld.bundleImpl env b' c ms al cd = Fld.bundleImpl env b c ms al cd := by
  simp only [Fld.bundleImpl, BCtx.props, BCtx.node, fld_updateValidCond h, fld_bundleMembers h, fld_bundleAliases h]

theorem _root_.Commsdsl.Same.fld_variantNew {b b' : BCtx} (h : SameB b b') (ms : List Field) (nodes : List Xml) :
    Fld.variantNew b' ms nodes = Fld.variantNew b ms nodes := by
  simp only [Fld.variantNew, BCtx.props, BCtx.node, fld_newMembers h]

theorem _root_.Commsdsl.Same.fld_variantAll {b b' : BCtx} (h : SameB b b') (ms : List Field) (x0 : Option (List Xml)) :
    Fld.variantAll b' ms x0 = Fld.variantAll b ms x0 := by
  simp only [Fld.variantAll, BCtx.props, BCtx.node, fld_variantNew h]

theorem _root_.Commsdsl.Same.fld_variantMembers {b b' : BCtx} (h : SameB b b') (members : List Field) :
    Fld.variantMembers b' members = Fld.variantMembers b members := by
  simp only [Fld.variantMembers, fld_memberNodesT h, fld_hasSameVersion h, fld_variantAll h, h.ic.since]

theorem _root_.Commsdsl.Same.fld_variantDefault {b b' : BCtx} (h : SameB b b') (env : FEnv) (ms : List Field) (cur : Nat) :
    Fld.variantDefault env b' ms cur = Fld.variantDefault env b ms cur := by
  simp only [Fld.variantDefault, BCtx.props, BCtx.node, h.ic.props.single, h.ic.props.getStr]

theorem _root_.Commsdsl.Same.fld_variantImpl {b b' : BCtx} (h : SameB b b') (env : FEnv) (c : Common) (d : Nat) (ms : List Field) :
    Fld.variantImpl env b' c d ms = Fld.variantImpl env b c d ms := by
  simp only [Fld.variantImpl, BCtx.props, BCtx.node, fld_variantMembers h, fld_variantDefault h]

theorem _root_.Commsdsl.Same.fld_updateMode {b b' : BCtx} (h : SameB b b') (st : OptState) :
    Fld.updateMode b' st = Fld.updateMode b st := by
  simp only [Fld.updateMode, BCtx.props, BCtx.node, h.ic.props.single, h.ic.props.find]

theorem _root_.Commsdsl.Same.fld_optFromRef {b b' : BCtx} (h : SameB b b') (env : FEnv) (cur : Slot Field) :
    Fld.optFromRef env b' cur = Fld.optFromRef env b cur := by
  simp only [Fld.optFromRef, BCtx.props, BCtx.node, h.ic.props.single, h.ic.props.find]

theorem _root_.Commsdsl.Same.fld_optNode {b b' : BCtx} (h : SameB b b')  :
    Fld.optNode b' = Fld.optNode b := by
  have hl := h.ic.len
  simp only [Fld.optNode, BCtx.props, BCtx.node, h.ic.props.find, h.ic.attr "fields".toList (by decide),
    h.ic.kid "field".toList (by decide), h.ic.types]
  rcases hl with hl | hl
  · simp only [hl]
  · simp only [hl]

theorem _root_.Commsdsl.Same.fld_optAsChild {b b' : BCtx} (h : SameB b b') (cur : Slot Field) :
    Fld.optAsChild b' cur = Fld.optAsChild b cur := by
  simp only [Fld.optAsChild, BCtx.props, BCtx.node, fld_optNode h, h.child]

theorem _root_.Commsdsl.Same.fld_optField {b b' : BCtx} (h : SameB b b') (env : FEnv) (cur : Slot Field) :
    Fld.optField env b' cur = Fld.optField env b cur := by
  simp only [Fld.optField, BCtx.props, BCtx.node, fld_optFromRef h, fld_optAsChild h]

theorem _root_.Commsdsl.Same.fld_optSingleCond {b b' : BCtx} (h : SameB b b') (env : FEnv) (cur : Option CondM.Cond) :
    Fld.optSingleCond env b' cur = Fld.optSingleCond env b cur := by
  simp only [Fld.optSingleCond, BCtx.props, BCtx.node, h.ic.props.single, h.ic.props.find]

theorem _root_.Commsdsl.Same.fld_optMultiCond {b b' : BCtx} (h : SameB b b') (env : FEnv) (cur : Option CondM.Cond) :
    Fld.optMultiCond env b' cur = Fld.optMultiCond env b cur := by
  simp only [Fld.optMultiCond, BCtx.props, BCtx.node, h.ic.props.find, h.ic.andOr]

theorem _root_.Commsdsl.Same.fld_optionalImpl {b b' : BCtx} (h : SameB b b') (env : FEnv) (c : Common) (st : OptState) (f : Slot Field) (cd : Option CondM.Cond) :
    Fld.optionalImpl env b' c st f cd = Fld.optionalImpl env b c st f cd := by
  simp only [Fld.optionalImpl, BCtx.props, BCtx.node, intf_updateBool h.ic.props, fld_updateMode h, fld_optField h, fld_optSingleCond h, fld_optMultiCond h]

theorem _root_.Commsdsl.Same.fld_refBitLength {b b' : BCtx} (h : SameB b b') (t : Field) (cur : Nat) :
    Fld.refBitLength b' t cur = Fld.refBitLength b t cur := by
  simp only [Fld.refBitLength, BCtx.props, BCtx.node, h.ic.props.single, h.ic.props.getStr, h.ic.bf]

theorem _root_.Commsdsl.Same.fld_refImpl {b b' : BCtx} (h : SameB b b') (env : FEnv) (c : Common) (bl : Nat) (cur : Slot Field) :
    Fld.refImpl env b' c bl cur = Fld.refImpl env b c bl cur := by
  simp only [Fld.refImpl, BCtx.props, BCtx.node, fld_refBitLength h, h.ic.props.single, h.ic.props.find]

theorem _root_.Commsdsl.Same.fld_reusedAliases {props props' : Props} (h : SameP props props') (env : FEnv) (al : List Alias) :
    Fld.reusedAliases env props' al = Fld.reusedAliases env props al := by
  simp only [Fld.reusedAliases, intf_updateBool h]

theorem _root_.Commsdsl.Same.fld_reuseImpl {props props' : Props} (h : SameP props props') (env : FEnv) (c : Common) (x0 : Field) :
    Fld.reuseImpl env props' c x0 = Fld.reuseImpl env props c x0 := by
  simp only [Fld.reuseImpl, fld_reusedAliases h]

theorem _root_.Commsdsl.Same.fld_reuseCode {props props' : Props} (h : SameP props props') (env : FEnv) (src : Str) :
    Fld.reuseCode env props' src = Fld.reuseCode env props src := by
  simp only [Fld.reuseCode, intf_updateBool h]

theorem _root_.Commsdsl.Same.fld_checkReuse {props props' : Props} (h : SameP props props') (env : FEnv) (k : Kind) (c0 : Common) :
    Fld.checkReuse env k props' c0 = Fld.checkReuse env k props c0 := by
  simp only [Fld.checkReuse, fld_reuseImpl h, fld_reuseCode h, h.single, h.find]

theorem _root_.Commsdsl.Same.fld_strProp {props props' : Props} (h : SameP props props') (key : Str) (cur : Str) :
    Fld.strProp props' key cur = Fld.strProp props key cur := by
  simp only [Fld.strProp, h.single, h.find]

theorem _root_.Commsdsl.Same.fld_updateSem {props props' : Props} (h : SameP props props') (cur : Sem) :
    Fld.updateSem props' cur = Fld.updateSem props cur := by
  simp only [Fld.updateSem, h.single, h.find]

theorem _root_.Commsdsl.Same.fld_overrideOk {props props' : Props} (h : SameP props props') (dsl : Nat) (key : Str) :
    Fld.overrideOk dsl props' key = Fld.overrideOk dsl props key := by
  simp only [Fld.overrideOk, h.single, h.find]

theorem _root_.Commsdsl.Same.fld_updateCopyCode {props props' : Props} (h : SameP props props') (env : FEnv) (cur : Str) :
    Fld.updateCopyCode env props' cur = Fld.updateCopyCode env props cur := by
  simp only [Fld.updateCopyCode, h.single, h.find]

theorem _root_.Commsdsl.Same.fld_updateMinLen {props props' : Props} (h : SameP props props') (dsl : Nat) (cur : Int) :
    Fld.updateMinLen dsl props' cur = Fld.updateMinLen dsl props cur := by
  simp only [Fld.updateMinLen, h.single, h.find]

theorem _root_.Commsdsl.Same.fld_updateCommon {props props' : Props} (h : SameP props props') (env : FEnv) (parent : ParentInfo) (c : Common) :
    Fld.updateCommon env parent props' c = Fld.updateCommon env parent props c := by
  have ho : Fld.overrideOk env.dsl props' = Fld.overrideOk env.dsl props := funext (fld_overrideOk h env.dsl)
  simp only [Fld.updateCommon, ho, versions_fieldVersions h, intf_updateBool h, fld_derefProp h, fld_strProp h, fld_updateSem h, fld_overrideOk h, fld_updateCopyCode h, fld_updateMinLen h]

theorem _root_.Commsdsl.Same.fld_parseBody {b b' : BCtx} (h : SameB b b') (env : FEnv) (f : Field) :
    Fld.parseBody env b' f = Fld.parseBody env b f := by
  cases f <;> simp only [Fld.parseBody, intf_parseImpl h.ic, enumf_parseImpl h.ic, setf_parseImpl h.ic, floatf_parseImpl h.ic,
    fld_bitfieldImpl h, fld_bundleImpl h, fld_stringImpl h, fld_dataImpl h, fld_listImpl h, fld_refImpl h, fld_optionalImpl h,
    fld_variantImpl h]

theorem _root_.Commsdsl.Same.fld_checkReplace {n n' : Xml} (h : SameN n n') (env : FEnv) (pc : ParentInfo → Xml → Res Field) (f : Field) :
    Fld.checkReplace env pc n' f = Fld.checkReplace env pc n f := by
  simp only [Fld.checkReplace, h.kid "replace".toList (by decide)]

/-- Nodes of one name that agree on what is looked for, and whose collected properties agree, give the same field. -/
theorem _root_.Commsdsl.Same.parseStep_same {n n' : Xml} (h : SameN n n') (hn : n'.name = n.name) (env : FEnv)
    (pc : ParentInfo → Xml → Res Field) (parent : ParentInfo)
    (hp : ∀ k, kindOf n.name = some k → (collectProps k n' = none ∧ collectProps k n = none) ∨
      ∃ p p', collectProps k n = some p ∧ collectProps k n' = some p' ∧ SameP p p') :
    Fld.parseStep env pc parent n' = Fld.parseStep env pc parent n := by
  unfold Fld.parseStep
  rw [hn]
  cases hk : kindOf n.name with
  | none => rfl
  | some k =>
    rcases hp k hk with ⟨h1, h2⟩ | ⟨p, p', h1, h2, hs⟩
    · have e1 : Res.ofOption (none : Option Props) = .err := rfl
      have e2 : ∀ x : Props → Res Field, ((Res.err : Res Props) >>= x) = .err := fun _ => rfl
      simp only [h1, h2, e1, e2]
    · have hb : ∀ c, Fld.parseBody env (bodyCtx pc parent n' p' k c) = Fld.parseBody env (bodyCtx pc parent n p k c) := fun c =>
        funext fun f => fld_parseBody (b := bodyCtx pc parent n p k c) (b' := bodyCtx pc parent n' p' k c)
          ⟨⟨h, hs, rfl, rfl, rfl⟩, rfl, rfl⟩ env f
      have e1 : Res.ofOption (some p) = .ok p := rfl
      have e2 : Res.ofOption (some p') = .ok p' := rfl
      simp only [h1, h2, e1, e2, Res.bind_ok, fld_checkReuse hs, fld_checkReplace h, fld_updateCommon hs, hb]

end Commsdsl.Fld
