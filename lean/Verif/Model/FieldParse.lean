import Verif.Model.FieldComposite
/-!
# Parsing of a field (`lib/src/parse/ParseFieldImpl.cpp:69-158`)
-/
namespace Commsdsl.Fld
open Commsdsl Text

/-- The parent of a field, as far as parsing looks at it: none or a namespace, a message, a field, anything else (interface, layer). As used in ParseFieldImpl.cpp:1169-1248 and 235-240. -/
inductive ParentInfo where
  | top
  | message (since depr : Nat)
  | field (kind : Kind) (since depr : Nat)
  | other (since depr : Nat)
  deriving DecidableEq, Repr

/-- As needed by `parseUpdateVersions`. ParseFieldImpl.cpp:1169-1248. -/
def ParentInfo.versions : ParentInfo → Versions.Parent
  | .top => .top
  | .message s d => .container s d
  | .field _ s d => .container s d
  | .other s d => .notVersioned s d

/-- `parseIsBitfieldMember`, ParseFieldImpl.cpp:235-240 -/
def ParentInfo.isBitfield : ParentInfo → Bool
  | .field .bitfield _ _ => true
  | _ => false

/-- `parseCheckDetachedPrefixAllowed`, ParseFieldImpl.cpp:885-914 -/
def ParentInfo.detachedAllowed : ParentInfo → Bool
  | .message _ _ => true
  | .field .bundle _ _ => true
  | _ => false

/-- `parseCreate` by name, ParseFieldImpl.cpp:52-67 -/
def kindOf (name : Str) : Option Kind := (kindTable.find? fun p => p.1 == name).map Prod.snd

/-! ## Properties -/

/-- `parseCommonProps`, ParseFieldImpl.cpp:800-831 -/
def commonProps : List Str := [
  "name".toList, "displayName".toList, "description".toList, "sinceVersion".toList, "deprecated".toList, "removed".toList,
  "reuse".toList, "semanticType".toList, "pseudo".toList, "fixedValue".toList, "displayReadOnly".toList, "displayHidden".toList,
  "customizable".toList, "failOnInvalid".toList, "forceGen".toList, "valueOverride".toList, "readOverride".toList,
  "writeOverride".toList, "refreshOverride".toList, "lengthOverride".toList, "validOverride".toList, "nameOverride".toList,
  "copyCodeFrom".toList, "reuseCode".toList, "validateMinLength".toList]

/-- `parseExtraPropsNamesImpl` of each kind: ParseIntFieldImpl.cpp:323-349, ParseEnumFieldImpl.cpp:84-99, ParseSetFieldImpl.cpp:83-98,
    ParseFloatFieldImpl.cpp:166-185, ParseBitfieldFieldImpl.cpp:97-105, ParseBundleFieldImpl.cpp:105-113, ParseStringFieldImpl.cpp:67-79,
    ParseDataFieldImpl.cpp:68-78, ParseListFieldImpl.cpp:79-87, ParseRefFieldImpl.cpp:54-62, ParseOptionalFieldImpl.cpp:84-95,
    ParseVariantFieldImpl.cpp:91-99 -/
def extraProps : Kind → List Str
  | .int => [
    "type".toList, "defaultValue".toList, "units".toList, "scaling".toList, "endian".toList, "length".toList, "bitLength".toList,
    "serOffset".toList, "validRange".toList, "validValue".toList, "validMin".toList, "validMax".toList, "validCheckVersion".toList,
    "nonUniqueSpecialsAllowed".toList, "displayDecimals".toList, "displayOffset".toList, "signExt".toList, "displaySpecials".toList,
    "defaultValidValue".toList, "availableLengthLimit".toList]
  | .enum => [
    "type".toList, "defaultValue".toList, "endian".toList, "length".toList, "bitLength".toList, "nonUniqueAllowed".toList,
    "validCheckVersion".toList, "hexAssign".toList, "availableLengthLimit".toList]
  | .set => [
    "defaultValue".toList, "endian".toList, "length".toList, "bitLength".toList, "reservedValue".toList, "validCheckVersion".toList,
    "type".toList, "nonUniqueAllowed".toList, "availableLengthLimit".toList]
  | .float => [
    "type".toList, "defaultValue".toList, "endian".toList, "validRange".toList, "validFullRange".toList, "validValue".toList,
    "validMin".toList, "validMax".toList, "validCheckVersion".toList, "units".toList, "displayDecimals".toList,
    "nonUniqueSpecialsAllowed".toList, "displaySpecials".toList]
  | .bitfield => ["endian".toList, "copyValidCondFrom".toList]
  | .bundle => ["reuseAliases".toList, "copyValidCondFrom".toList]
  | .string => [
    "length".toList, "encoding".toList, "zeroTermSuffix".toList, "defaultValue".toList, "defaultValidValue".toList, "validValue".toList]
  | .data => ["length".toList, "defaultValue".toList, "defaultValidValue".toList, "validValue".toList]
  | .list => ["count".toList, "elemFixedLength".toList]
  | .ref => ["field".toList, "bitLength".toList]
  | .optional => [
    "defaultMode".toList, "cond".toList, "displayExtModeCtrl".toList, "missingOnReadFail".toList, "missingOnInvalid".toList]
  | .variant => ["defaultMember".toList, "displayIdxReadOnlyHidden".toList]

/-- `parseExtraPossiblePropsNamesImpl` of each kind, e.g. ParseListFieldImpl.cpp:89-99; empty by default (ParseFieldImpl.cpp:518-522) -/
def possibleProps : Kind → List Str
  | .bitfield | .bundle => ["validCond".toList]
  | .string | .data => ["lengthPrefix".toList]
  | .list => ["element".toList, "countPrefix".toList, "lengthPrefix".toList, "elemLengthPrefix".toList, "termSuffix".toList]
  | .optional => ["field".toList]
  | _ => []

/-- Collecting the properties, ParseFieldImpl.cpp:71-99 -/
def collectProps (k : Kind) (node : Xml) : Option Props := do
  let p ← childrenAsProps node commonProps (nodeProps node)
  let p ← childrenAsProps node (extraProps k) p
  childrenAsProps node (possibleProps k) p false

/-! ## Reuse -/

/-- A newly created object. Helper of `checkReuse`, ParseFieldImpl.cpp:1041-1098. -/
def initField (env : FEnv) (k : Kind) (c : Common) : Field :=
  match k with
  | .int => .int c (IntF.initState env.int)
  | .enum => .enum c {}
  | .set => .set c {}
  | .float => .float c (FloatF.initState env.int)
  | .bitfield => .bitfield c none [] none
  | .bundle => .bundle c [] [] none
  | .string => .string c {} .none
  | .data => .data c {} .none
  | .list => .list c {} .none .none .none .none .none
  | .ref => .ref c 0 .none
  | .optional => .optional c {} .none none
  | .variant => .variant c noDefault []

/-- `reuseAliases`, ParseBundleFieldImpl.cpp:144-163: which aliases are copied. -/
def reusedAliases (env : FEnv) (props : Props) (al : List Alias) : Res (List Alias) :=
  if !Dsl.isSupported env.dsl .fieldAlias then .ok []
  else do
    let b ← IntF.updateBool env.dsl props "reuseAliases".toList true
    pure (if b then al else [])

/-- `parseReuseImpl` of each kind: the state is copied, owned fields are cloned. ParseBitfieldFieldImpl.cpp:122-141, ParseBundleFieldImpl.cpp:129-169,
    ParseStringFieldImpl.cpp:99-112, ParseDataFieldImpl.cpp:97-110, ParseListFieldImpl.cpp:107-114, ParseRefFieldImpl.cpp:64-73,
    ParseOptionalFieldImpl.cpp:112-129, ParseVariantFieldImpl.cpp:107-121. The condition is kept (unlike in `clone`). -/
def reuseImpl (env : FEnv) (props : Props) (c : Common) : Field → Res Field
  | .int _ st => .ok (.int c st)
  | .enum _ st => .ok (.enum c st)
  | .set _ st => .ok (.set c st)
  | .float _ st => .ok (.float c st)
  | .bitfield _ e ms cd => .ok (.bitfield c e (cloneAll ms) cd)
  | .bundle _ ms al cd => do
    let al' ← reusedAliases env props al
    pure (.bundle c (cloneAll ms) al' cd)
  | .string _ st p => .ok (.string c st (cloneSlot p))
  | .data _ st p => .ok (.data c st (cloneSlot p))
  | .list _ st e cn l el t => .ok (.list c st (cloneSlot e) (cloneSlot cn) (cloneSlot l) (cloneSlot el) (cloneSlot t))
  | .ref _ b t => .ok (.ref c b t)
  | .optional _ st f cd => .ok (.optional c st (cloneSlot f) cd)
  | .variant _ d ms => .ok (.variant c d (cloneAll ms))

/-- `reuseCode`, ParseFieldImpl.cpp:1073-1096: the new `copyCodeFrom`. -/
def reuseCode (env : FEnv) (props : Props) (src : Str) : Res Str := do
  let b ← IntF.updateBool env.dsl props "reuseCode".toList false
  pure (if b then src else [])

/-- `parseCheckReuse`, ParseFieldImpl.cpp:1041-1098; `c0` is the common state of the new object. -/
def checkReuse (env : FEnv) (k : Kind) (props : Props) (c0 : Common) : Res Field :=
  if !props.validateSingle "reuse".toList then .err
  else match props.find "reuse".toList with
  | none => .ok (initField env k c0)
  | some s => match env.findField s with
    | none => .err
    | some f =>
      if f.kind ≠ k then .err
      else do
        let code ← reuseCode env props s
        reuseImpl env props { f.common with copyCodeFrom := code, inBitfield := c0.inBitfield } f

/-! ## Replacing members -/

/-- `parseSupportedMemberTypesImpl`: ParseBitfieldFieldImpl.cpp:247-250, ParseBundleFieldImpl.cpp:295-298, otherwise empty
    (ParseFieldImpl.cpp:655-659), which stands for everything. -/
def replaceTypes : Field → List Str
  | .bitfield .. => bitfieldTypes
  | .bundle .. => fieldTypes
  | _ => []

/-- Parsing the replacing members, ParseFieldImpl.cpp:1130-1148 -/
def parseAll (pc : Xml → Res Field) : List Xml → Res (List Field)
  | [] => .ok []
  | n :: ns => do
    let f ← pc n
    let fs ← parseAll pc ns
    pure (f :: fs)

/-- `parseReplaceMembersImpl` by kind, ParseFieldImpl.cpp:541-546 for the others. -/
def replaceImpl (rs : List Field) : Field → Res Field
  | .bitfield c e ms cd => do
    let ms' ← replaceMembers (fun r => decide (r.since = c.w.since) && decide (r.depr = c.w.depr)) rs ms
    pure (.bitfield c e ms' cd)
  | .bundle c ms al cd => do
    let ms' ← replaceMembers (fun _ => true) rs ms
    pure (.bundle c ms' al cd)
  | .variant c d ms => do
    let ms' ← replaceMembers (fun _ => true) rs ms
    pure (.variant c d ms')
  | _ => .err

/-- `parseCheckReplace`, ParseFieldImpl.cpp:1100-1152; `pc` parses a field with this one as parent. -/
def checkReplace (env : FEnv) (pc : ParentInfo → Xml → Res Field) (node : Xml) (f : Field) : Res Field :=
  match getChildren node ["replace".toList] with
  | [] => .ok f
  | [r] =>
    if !Dsl.isSupported env.dsl .memberReplace then .ok f
    else if (getChildren r (replaceTypes f)).length ≠ (getChildren r).length then .err
    else do
      let rs ← parseAll (pc (.field f.kind f.since f.depr)) (getChildren r)
      replaceImpl rs f
  | _ => .err

/-! ## Common properties -/

/-- A plain string property: `parseValidateAndUpdateStringPropValue`, ParseFieldImpl.cpp:689-716 -/
def strProp (props : Props) (key : Str) (cur : Str) : Res Str :=
  if !props.validateSingle key then .err else .ok ((props.find key).getD cur)

/-- `parseUpdateSemanticType`, ParseFieldImpl.cpp:1250-1288 -/
def updateSem (props : Props) (cur : Sem) : Res Sem :=
  if !props.validateSingle "semanticType".toList then .err
  else match props.find "semanticType".toList with
  | none => .ok cur
  | some s =>
    if s.isEmpty then .ok .none
    else
      let l := toLower s
      if l = "none".toList then .ok .none
      else if l = "version".toList then .ok .version
      else if l = "messageid".toList then .ok .messageId
      else if l = "length".toList then .ok .length
      else .err

/-- The values of the `*Override` properties, ParseFieldImpl.cpp:763-802 -/
def overrideOk (dsl : Nat) (props : Props) (key : Str) : Bool :=
  props.validateSingle key &&
    match props.find key with
    | none => true
    | some s => !Dsl.isSupported dsl .overrideType ||
        [[], "any".toList, "replace".toList, "extend".toList, "none".toList].contains (toLower s)

/-- The `*Override` properties. Names of the properties, lib/src/parse/parse_common.cpp:762-802. -/
def overrides : List Str := [
  "valueOverride".toList, "readOverride".toList, "writeOverride".toList, "refreshOverride".toList, "lengthOverride".toList,
  "validOverride".toList, "nameOverride".toList]

/-- `parseUpdateCopyOverrideCodeFrom`, ParseFieldImpl.cpp:1362-1390 -/
def updateCopyCode (env : FEnv) (props : Props) (cur : Str) : Res Str :=
  if !props.validateSingle "copyCodeFrom".toList then .err
  else match props.find "copyCodeFrom".toList with
  | none => .ok cur
  | some s =>
    if !Dsl.propertySupported env.dsl "copyCodeFrom".toList then .ok cur
    else if (env.findField s).isNone then .err
    else .ok s

/-- `parseUpdateValidateMinLength`, ParseFieldImpl.cpp:1392-1417: the value is an `int`. -/
def updateMinLen (dsl : Nat) (props : Props) (cur : Int) : Res Int :=
  if !props.validateSingle "validateMinLength".toList then .err
  else match props.find "validateMinLength".toList with
  | none => .ok cur
  | some s =>
    if !Dsl.isSupported dsl .validateMinLengthForFields then .ok cur
    else match strToUnsigned s with
    | none => .err
    | some v => .ok (castI32 v)

/-- The chain of updates in `parse`, ParseFieldImpl.cpp:69-158 -/
def updateCommon (env : FEnv) (parent : ParentInfo) (props : Props) (c : Common) : Res Common := do
  let name ← strProp props "name".toList c.name
  let disp ← derefProp env props "displayName".toList c.displayName
  let descr ← derefProp env props "description".toList c.description
  let w ← Res.ofOption (Versions.fieldVersions env.int.schemaVersion parent.versions props)
  let sem ← updateSem props c.sem
  let pseudo ← IntF.updateBool env.dsl props "pseudo".toList c.pseudo
  let fixedV ← IntF.updateBool env.dsl props "fixedValue".toList c.fixedValue
  let cust ← IntF.updateBool env.dsl props "customizable".toList c.customizable
  let foi ← IntF.updateBool env.dsl props "failOnInvalid".toList c.failOnInvalid
  let fg ← IntF.updateBool env.dsl props "forceGen".toList c.forceGen
  Res.check (overrides.all (overrideOk env.dsl props))
  let code ← updateCopyCode env props c.copyCodeFrom
  let ml ← updateMinLen env.dsl props c.validateMinLength
  pure { c with
    name := name, displayName := disp, description := descr, w := w, sem := sem, pseudo := pseudo, fixedValue := fixedV,
    customizable := cust, failOnInvalid := foi, forceGen := fg, copyCodeFrom := code, validateMinLength := ml }

/-! ## Everything -/

/-- `parseImpl()` by kind. Helper of `parseStep`, ParseFieldImpl.cpp:69-158. -/
def parseBody (env : FEnv) (b : BCtx) : Field → Res Field
  | .int c st => do
    let st' ← IntF.parseImpl env.int b.ic st
    pure (.int c st')
  | .enum c st => do
    let st' ← EnumF.parseImpl env.int b.ic st
    pure (.enum c st')
  | .set c st => do
    let st' ← SetF.parseImpl env.int b.ic st
    pure (.set c st')
  | .float c st => do
    let st' ← FloatF.parseImpl env.int env.fp b.ic st
    pure (.float c st')
  | .bitfield c e ms cd => bitfieldImpl env b c e ms cd
  | .bundle c ms al cd => bundleImpl env b c ms al cd
  | .string c st p => do
    let x ← stringImpl env b st p
    pure (.string c x.1 x.2)
  | .data c st p => do
    let x ← dataImpl env b st p
    pure (.data c x.1 x.2)
  | .list c st e cn l el t => do
    let x ← listImpl env b st ⟨e, cn, l, el, t⟩
    pure (.list c x.1 x.2.elem x.2.cnt x.2.len x.2.elemLen x.2.term)
  | .ref c bl t => refImpl env b c bl t
  | .optional c st f cd => optionalImpl env b c st f cd
  | .variant c d ms => variantImpl env b c d ms

/-- `parseVerifyMinLength`, ParseFieldImpl.cpp:366-381; `parseVerifySemanticType`, ParseFieldImpl.cpp:309-312; `parseVerifyName`, ParseFieldImpl.cpp:1532-1547. -/
def verifyField (env : FEnv) (f : Field) : Res Unit := do
  let ok ← verifySem env.dsl f f.sem
  Res.check ok
  Res.check (!f.name.isEmpty && isValidName f.name)
  if f.common.validateMinLength < 0 then pure ()
  else do
    let len ← minLength f
    Res.check (decide (castU32 f.common.validateMinLength = len))

/-- What `parseImpl` sees of the field being parsed. Helper of `parseStep`, ParseFieldImpl.cpp:69-158. -/
def bodyCtx (pc : ParentInfo → Xml → Res Field) (parent : ParentInfo) (node : Xml) (props : Props) (k : Kind) (c : Common) : BCtx :=
  ⟨⟨node, props, c.w.since, c.w.depr, c.inBitfield⟩, parent.detachedAllowed, pc (.field k c.w.since c.w.depr)⟩

/-- `ParseFieldImpl::parse`, ParseFieldImpl.cpp:69-158, given the parser of inner fields. -/
def parseStep (env : FEnv) (pc : ParentInfo → Xml → Res Field) (parent : ParentInfo) (node : Xml) : Res Field :=
  match kindOf node.name with
  | none => .err
  | some k => do
    let props ← Res.ofOption (collectProps k node)
    let f ← checkReuse env k props { inBitfield := parent.isBitfield }
    let f ← checkReplace env pc node f
    let c ← updateCommon env parent props f.common
    let f ← parseBody env (bodyCtx pc parent node props k c) (f.setCommon c)
    verifyField env f
    pure f

/-- `ParseFieldImpl::parse` on a whole document: `fuel` bounds the depth of the document (a document of depth `n` needs `n`; theorems hold
    for every `fuel`). Helper of `fieldOf`, ParseFieldImpl.cpp:52-158. -/
def parseField (env : FEnv) : Nat → ParentInfo → Xml → Res Field
  | 0, _, _ => .err
  | fuel + 1, parent, node => parseStep env (parseField env fuel) parent node

end Commsdsl.Fld
