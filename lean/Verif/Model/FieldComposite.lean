import Verif.Model.FieldSeq
/-!
# `<bitfield>`, `<bundle>`, `<variant>`, `<optional>`, `<ref>`, `<float>` fields
-/
namespace Commsdsl.Fld
open Commsdsl Text

/-! ## Member lists -/

/-- `parseSupportedTypes`, ParseBitfieldFieldImpl.cpp:75-85 -/
def bitfieldTypes : List Str := ["int".toList, "enum".toList, "set".toList, "ref".toList]

/-- The first part of `parseUpdateMembers`: ParseBitfieldFieldImpl.cpp:286-340, ParseBundleFieldImpl.cpp:324-376, ParseVariantFieldImpl.cpp:227-279.
    The nodes of the new members; `ok none` if there are none but `members` of a reused field. -/
def memberNodes (b : BCtx) (types : List Str) (members : List Field) : Res (Option (List Xml)) :=
  let ms := getChildren b.node ["members".toList]
  let direct := getChildren b.node types
  if 1 < ms.length then .err
  else if !ms.isEmpty && !direct.isEmpty then .err
  else match ms with
  | [] =>
    if direct.isEmpty then (if members.isEmpty then .err else .ok none)
    else if (getChildren b.node).length ≠ direct.length then .err
    else .ok (some direct)
  | m :: _ =>
    if (getChildren m types).length ≠ (getChildren m).length then .err
    else .ok (some (getChildren m))

/-- The loop over the nodes: each member is parsed, checked against the members so far and added. Helper of `bitfieldNew`, ParseBitfieldFieldImpl.cpp:276-403. -/
def newMembers (b : BCtx) (chk : List Field → Field → Res Bool) : List Xml → List Field → Res (List Field)
  | [], acc => .ok acc
  | n :: ns, acc => do
    let f ← b.child n
    let ok ← chk acc f
    Res.check ok
    newMembers b chk ns (acc ++ [f])

/-- `parseValidateMembersNames`, ParseFieldImpl.cpp:214-228; `used` is the set of the names so far. -/
def validateNames : List Str → List Field → Bool
  | _, [] => true
  | used, f :: fs => if used.contains f.name then false else validateNames (f.name :: used) fs

/-- `parseSetSinceVersion(std::max(..))` of all members, e.g. ParseBundleFieldImpl.cpp:319-321 -/
def liftSince (since : Nat) (f : Field) : Field := f.setSince (max since f.since)

/-- Removed members are dropped and the others lifted: ParseBundleFieldImpl.cpp:307-322, ParseVariantFieldImpl.cpp:210-225 -/
def keepMembers (since : Nat) (ms : List Field) : List Field :=
  (ms.filter fun m => !(m.removed && decide (m.depr ≤ since))).map (liftSince since)

/-- Replacing the first member of the same name. Helper of `replaceMembers`, ParseBitfieldFieldImpl.cpp:153-184. -/
def replaceFirst (r : Field) : List Field → Option (List Field)
  | [] => none
  | m :: ms => if r.name = m.name then some (r :: ms) else (replaceFirst r ms).map (m :: ·)

/-- `parseReplaceMembersImpl`, ParseBitfieldFieldImpl.cpp:153-184, ParseBundleFieldImpl.cpp:181-204, ParseVariantFieldImpl.cpp:123-146; `chk` is
    the check of versions bitfields do. -/
def replaceMembers (chk : Field → Bool) : List Field → List Field → Res (List Field)
  | [], ms => .ok ms
  | r :: rs, ms => match replaceFirst r ms with
    | none => .err
    | some ms' => if chk r then replaceMembers chk rs ms' else .err

/-! ## Validity conditions -/

/-- `m_validCond`. ParseBundleFieldImpl.h:53-58 and 95. -/
def Field.validCond : Field → Option CondM.Cond
  | .bitfield _ _ _ c => c
  | .bundle _ _ _ c => c
  | _ => none

/-- A condition that holds on the members, or none. Helper of `copyValidCond`, ParseBitfieldFieldImpl.cpp:415-466. -/
def verified (env : FEnv) (ms : List Field) (c : CondM.Cond) : Res (Option CondM.Cond) := do
  let ok ← verifyCond env ms c
  Res.check ok
  pure (some c)

/-- `parseCopyValidCond`, ParseBitfieldFieldImpl.cpp:415-466, ParseBundleFieldImpl.cpp:513-562 -/
def copyValidCond (env : FEnv) (b : BCtx) (k : Kind) (ms : List Field) (cur : Option CondM.Cond) : Res (Option CondM.Cond) :=
  let key := "copyValidCondFrom".toList
  if !b.props.validateSingle key then .err
  else if (b.props.getStr key).isEmpty then .ok cur
  else if !Dsl.propertySupported env.dsl key then .ok cur
  else match env.findField (b.props.getStr key) with
  | none => .err
  | some f =>
    if f.kind ≠ k then .err
    else if cur.isSome then .err
    else match f.validCond with
    | none => .ok cur
    | some c => verified env ms c

/-- `parseUpdateSingleCondInternal`, ParseBitfieldFieldImpl.cpp:468-503, ParseBundleFieldImpl.cpp:564-600 -/
def singleValidCond (env : FEnv) (b : BCtx) (ms : List Field) (cur : Option CondM.Cond) : Res (Option CondM.Cond) :=
  let key := "validCond".toList
  if !b.props.validateSingle key then .err
  else match b.props.find key with
  | none => .ok cur
  | some s =>
    if !Dsl.isSupported env.dsl .validCondInCompositeFields then .ok cur
    else do
      let e ← CondM.parseExpr env.dsl s
      Res.check (!e.hasIfaceRef)
      verified env ms (.expr e)

/-- `parseUpdateMultiCondInternal`, ParseBitfieldFieldImpl.cpp:505-563, ParseBundleFieldImpl.cpp:602-664 -/
def multiValidCond (env : FEnv) (b : BCtx) (ms : List Field) (cur : Option CondM.Cond) : Res (Option CondM.Cond) :=
  let key := "validCond".toList
  match getChildren b.node [key] true with
  | [] => .ok cur
  | n :: ns =>
    if !Dsl.isSupported env.dsl .validCondInCompositeFields then .ok cur
    else match ns, getChildren n ["and".toList, "or".toList] with
    | [], [c] =>
      if (b.props.find key).isSome then .err
      else do
        let cond ← CondM.parseList env.dsl key c
        Res.check (!cond.hasIfaceRef)
        verified env ms cond
    | _, _ => .err

/-- The three steps on the condition. Helper of `bitfieldImpl`, ParseBitfieldFieldImpl.cpp:143-151. -/
def updateValidCond (env : FEnv) (b : BCtx) (k : Kind) (ms : List Field) (cur : Option CondM.Cond) : Res (Option CondM.Cond) := do
  let c ← copyValidCond env b k ms cur
  let c ← singleValidCond env b ms c
  multiValidCond env b ms c

/-! ## Bitfields -/

/-- `parseUpdateEndian`, ParseBitfieldFieldImpl.cpp:257-274 -/
def bitfieldEndian (env : FEnv) (b : BCtx) (cur : Option IntF.Endian) : Res (Option IntF.Endian) :=
  if !b.props.validateSingle "endian".toList then .err
  else
    let s := b.props.getStr "endian".toList
    if s.isEmpty && cur.isSome then .ok cur
    else match IntF.endianOf s env.int.schemaEndian with
    | none => .err
    | some e => .ok (some e)

/-- Members have the versions of the bitfield, ParseBitfieldFieldImpl.cpp:360-367 -/
def sameVersions (b : BCtx) (f : Field) : Bool := decide (f.since = b.ic.since) && decide (f.depr = b.ic.depr)

/-- The second part of `parseUpdateMembers`, ParseBitfieldFieldImpl.cpp:276-403: new members, checked. -/
def bitfieldNew (b : BCtx) (ms : List Field) (nodes : List Xml) : Res (List Field) := do
  Res.check ms.isEmpty
  let all ← newMembers b (fun _ f => .ok (sameVersions b f)) nodes ms
  Res.check (validateNames [] all)
  Res.check (decide (totalBits all % 8 = 0))
  Res.check (decide (totalBits all ≤ 64))
  pure all

/-- `parseUpdateMembers`, ParseBitfieldFieldImpl.cpp:276-403 -/
def bitfieldMembers (b : BCtx) (members : List Field) : Res (List Field) := do
  let ms := members.map (liftSince b.ic.since)
  let nodes ← memberNodes b bitfieldTypes ms
  match nodes with
  | none => pure ms
  | some ns => bitfieldNew b ms ns

/-- `parseImpl`, ParseBitfieldFieldImpl.cpp:143-151 -/
def bitfieldImpl (env : FEnv) (b : BCtx) (c : Common) (e : Option IntF.Endian) (ms : List Field) (cd : Option CondM.Cond) : Res Field := do
  let e ← bitfieldEndian env b e
  let ms ← bitfieldMembers b ms
  let cd ← updateValidCond env b .bitfield ms cd
  pure (.bitfield c e ms cd)

/-! ## Bundles -/

/-- There is a member of the version of the parent, ParseBundleFieldImpl.cpp:410-424, ParseVariantFieldImpl.cpp:310-324 -/
def hasSameVersion (b : BCtx) (ms : List Field) : Bool := ms.any fun m => m.since == b.ic.since

/-- New members of a bundle, ParseBundleFieldImpl.cpp:378-407 -/
def bundleNew (env : FEnv) (b : BCtx) (ms : List Field) (nodes : List Xml) : Res (List Field) := do
  let all ← newMembers b (fun acc f => verifySiblings env acc f) nodes ms
  Res.check (validateNames [] all)
  pure all

/-- The members after the `do` block, ParseBundleFieldImpl.cpp:324-408 -/
def bundleAll (env : FEnv) (b : BCtx) (ms : List Field) : Option (List Xml) → Res (List Field)
  | none => .ok ms
  | some ns => bundleNew env b ms ns

/-- `parseUpdateMembers`, ParseBundleFieldImpl.cpp:305-438 -/
def bundleMembers (env : FEnv) (b : BCtx) (members : List Field) : Res (List Field) := do
  let ms := keepMembers b.ic.since members
  let nodes ← memberNodes b fieldTypes ms
  let all ← bundleAll env b ms nodes
  Res.check (hasSameVersion b all)
  Res.check (decide (all.countP (fun m => m.sem == .length) ≤ 1))
  pure all

/-- A string property with dereferencing: `parseValidateAndUpdateStringPropValue`, ParseFieldImpl.cpp:689-716, ParseAliasImpl.cpp:217-243 -/
def derefProp (env : FEnv) (props : Props) (key : Str) (cur : Str) : Res Str :=
  if !props.validateSingle key then .err
  else match props.find key with
  | none => .ok cur
  | some s => Res.ofOption (stringValue env s)

/-- `ParseAliasImpl::parse`, ParseAliasImpl.cpp:60-88 with 175-215 -/
def parseAlias (env : FEnv) (node : Xml) : Res Alias := do
  let props ← Res.ofOption (childrenAsProps node ["name".toList, "description".toList, "field".toList] (nodeProps node))
  Res.check (props.validateSingle "name".toList true)
  let name := props.getStr "name".toList
  Res.check (isValidName name)
  let descr ← derefProp env props "description".toList []
  Res.check (props.validateSingle "field".toList true)
  match props.getStr "field".toList with
  | '$' :: f => if isValidRefName f then pure ⟨name, descr, f⟩ else .err
  | _ => .err

/-- The loop over the `<alias>` nodes, ParseBundleFieldImpl.cpp:480-502 -/
def newAliases (env : FEnv) (ms : List Field) : List Xml → List Alias → Res (List Alias)
  | [], acc => .ok acc
  | n :: ns, acc => do
    let a ← parseAlias env n
    Res.check (verifyAlias acc ms a)
    newAliases env ms ns (acc ++ [a])

/-- `parseUpdateAliases`, ParseBundleFieldImpl.cpp:440-499 -/
def bundleAliases (env : FEnv) (b : BCtx) (ms : List Field) (aliases : List Alias) : Res (List Alias) :=
  let kept := aliases.filter fun a => ms.any fun m => m.name == a.fieldName
  match getChildren b.node ["alias".toList] with
  | [] => .ok kept
  | n :: ns => if !Dsl.isSupported env.dsl .fieldAlias then .err else newAliases env ms (n :: ns) kept

/-- `parseImpl`, ParseBundleFieldImpl.cpp:175-183 -/
def bundleImpl (env : FEnv) (b : BCtx) (c : Common) (ms : List Field) (al : List Alias) (cd : Option CondM.Cond) : Res Field := do
  let ms ← bundleMembers env b ms
  let al ← bundleAliases env b ms al
  let cd ← updateValidCond env b .bundle ms cd
  pure (.bundle c ms al cd)

/-! ## Variants -/

/-- New members of a variant, ParseVariantFieldImpl.cpp:281-308 -/
def variantNew (b : BCtx) (ms : List Field) (nodes : List Xml) : Res (List Field) := do
  let all ← newMembers b (fun _ _ => .ok true) nodes ms
  Res.check (validateNames [] all)
  pure all

/-- The members after the `do` block, ParseVariantFieldImpl.cpp:227-308 -/
def variantAll (b : BCtx) (ms : List Field) : Option (List Xml) → Res (List Field)
  | none => .ok ms
  | some ns => variantNew b ms ns

/-- `parseUpdateMembers`, ParseVariantFieldImpl.cpp:208-326 -/
def variantMembers (b : BCtx) (members : List Field) : Res (List Field) := do
  let ms := keepMembers b.ic.since members
  let nodes ← memberNodes b fieldTypes ms
  let all ← variantAll b ms nodes
  Res.check (hasSameVersion b all)
  pure all

/-- No default member: `std::numeric_limits<std::size_t>::max()`, ParseVariantFieldImpl.h -/
def noDefault : Nat := 18446744073709551615

/-- A number as index of the default member, ParseVariantFieldImpl.cpp:379-391 -/
def defaultIdx (ms : List Field) (v : Int) : Res Nat :=
  if v < 0 then .ok noDefault
  else if ms.length ≤ castU64 v then .err
  else .ok (castU64 v)

/-- `parseUpdateDefaultMember`, ParseVariantFieldImpl.cpp:328-392 -/
def variantDefault (env : FEnv) (b : BCtx) (ms : List Field) (cur : Nat) : Res Nat :=
  if !b.props.validateSingle "defaultMember".toList then .err
  else
    let s := b.props.getStr "defaultMember".toList
    if s.isEmpty then .ok cur
    else if isValidName s then Res.ofOption (ms.findIdx? fun m => s == m.name)
    else if isValidRefName s then
      match env.strToEnum s with
      | none => .err
      | some v => defaultIdx ms v
    else match strToIntMax s with
    | none => .err
    | some v => defaultIdx ms v

/-- `parseImpl`, ParseVariantFieldImpl.cpp:149-155 -/
def variantImpl (env : FEnv) (b : BCtx) (c : Common) (d : Nat) (ms : List Field) : Res Field := do
  let ms ← variantMembers b ms
  let d ← variantDefault env b ms d
  pure (.variant c d ms)

/-! ## Optionals -/

/-- The table of modes, ParseOptionalFieldImpl.cpp:275-285 -/
def modeOf (s : Str) : Option OptMode :=
  let l := toLower s
  if l = "tent".toList ∨ l = "tentative".toList ∨ l = "t".toList then some .tentative
  else if l = "miss".toList ∨ l = "missing".toList ∨ l = "m".toList then some .missing
  else if l = "exists".toList ∨ l = "exist".toList ∨ l = "e".toList then some .exists
  else none

/-- `parseUpdateMode`, ParseOptionalFieldImpl.cpp:264-296 -/
def updateMode (b : BCtx) (st : OptState) : Res OptState :=
  if !b.props.validateSingle "defaultMode".toList then .err
  else match b.props.find "defaultMode".toList with
  | none => .ok st
  | some s => match modeOf s with
    | none => .err
    | some m => .ok { st with mode := m }

/-- `parseCheckFieldFromRef`, ParseOptionalFieldImpl.cpp:399-422 -/
def optFromRef (env : FEnv) (b : BCtx) (cur : Slot Field) : Res (Slot Field) :=
  if !b.props.validateSingle "field".toList then .err
  else match b.props.find "field".toList with
  | none => .ok cur
  | some s => match env.findField s with
    | none => .err
    | some f => .ok (.ext f)

/-- The node that defines the field, ParseOptionalFieldImpl.cpp:424-503. An empty `<field/>` makes the code access the front of an empty
    list (line 491). -/
def optNode (b : BCtx) : Res (Option Xml) :=
  let children := getChildren b.node ["field".toList]
  let types := getChildren b.node fieldTypes
  if 1 < children.length then .err
  else if !children.isEmpty && !types.isEmpty then .err
  else match types with
  | [t] =>
    if (getChildren b.node).length ≠ 1 then .err
    else if (b.props.find "field".toList).isSome then .err
    else .ok (some t)
  | _ :: _ :: _ => .err
  | [] => match children with
    | [] => .ok none
    | ch :: _ =>
      let fields := getChildren ch
      if 1 < fields.length then .err
      else if (b.props.find "field".toList).isNone then
        match fields with
        | f :: _ => .ok (some f)
        | [] => .ub
      else if ((nodeProps b.node).find "fields".toList).isSome then .err
      else .ok none

/-- `parseCheckFieldAsChild`, ParseOptionalFieldImpl.cpp:424-526 -/
def optAsChild (b : BCtx) (cur : Slot Field) : Res (Slot Field) := do
  let n ← optNode b
  match n with
  | none => pure cur
  | some n => do
    let f ← b.child n
    pure (.own f)

/-- `parseUpdateField`, ParseOptionalFieldImpl.cpp:314-328 -/
def optField (env : FEnv) (b : BCtx) (cur : Slot Field) : Res (Slot Field) := do
  let f ← optFromRef env b cur
  let f ← optAsChild b f
  Res.check f.has
  pure f

/-- `parseUpdateSingleCondition`, ParseOptionalFieldImpl.cpp:330-354 -/
def optSingleCond (env : FEnv) (b : BCtx) (cur : Option CondM.Cond) : Res (Option CondM.Cond) :=
  if !b.props.validateSingle "cond".toList then .err
  else match b.props.find "cond".toList with
  | none => .ok cur
  | some s => do
    let e ← CondM.parseExpr env.dsl s
    pure (some (.expr e))

/-- `parseUpdateMultiCondition`, ParseOptionalFieldImpl.cpp:356-397 -/
def optMultiCond (env : FEnv) (b : BCtx) (cur : Option CondM.Cond) : Res (Option CondM.Cond) :=
  match getChildren b.node ["and".toList, "or".toList] with
  | [] => .ok cur
  | [n] =>
    if (b.props.find "cond".toList).isSome then .err
    else do
      let c ← CondM.parseList env.dsl "cond".toList n
      pure (some c)
  | _ => .err

/-- `parseImpl`, ParseOptionalFieldImpl.cpp:132-142 -/
def optionalImpl (env : FEnv) (b : BCtx) (c : Common) (st : OptState) (f : Slot Field) (cd : Option CondM.Cond) : Res Field := do
  let st ← updateMode b st
  let mr ← IntF.updateBool env.dsl b.props "missingOnReadFail".toList st.missingOnReadFail
  let mi ← IntF.updateBool env.dsl b.props "missingOnInvalid".toList st.missingOnInvalid
  let f ← optField env b f
  let cd ← optSingleCond env b cd
  let cd ← optMultiCond env b cd
  pure (.optional c { st with missingOnReadFail := mr, missingOnInvalid := mi } f cd)

/-! ## References -/

/-- `parseUpdateBitLength`, ParseRefFieldImpl.cpp:229-268; `t` is the new target. -/
def refBitLength (b : BCtx) (t : Field) (cur : Nat) : Res Nat :=
  if !b.props.validateSingle "bitLength".toList then .err
  else
    let s := b.props.getStr "bitLength".toList
    do
      let mx ← maxLength t
      if s.isEmpty then pure (if cur = 0 then mx * 8 % 18446744073709551616 else cur)
      else if !b.ic.bitfieldMember then pure cur
      else match strToUnsigned s with
      | none => .err
      | some n => do
        let ok ← validateBits n t
        if ok then pure n else .err

/-- Name, display name and semantic type taken over from the target, ParseRefFieldImpl.cpp:99-112 -/
def refCommon (dsl : Nat) (c t : Common) : Common :=
  { c with
    name := if c.name.isEmpty then t.name else c.name
    displayName := if c.displayName.isEmpty then t.displayName else c.displayName
    sem := if Dsl.isSupported dsl .semanticTypeRefInheritance && c.sem == .none && t.sem != .messageId then t.sem else c.sem }

/-- `parseImpl`, ParseRefFieldImpl.cpp:75-115 -/
def refImpl (env : FEnv) (b : BCtx) (c : Common) (bl : Nat) (cur : Slot Field) : Res Field :=
  if !b.props.validateSingle "field".toList (!cur.has) then .err
  else match b.props.find "field".toList with
  | none => .ok (.ref c bl cur)
  | some s => match env.findField s with
    | none => .err
    | some t => do
      let bl' ← refBitLength b t bl
      pure (.ref (refCommon env.dsl c t.common) bl' (.ext t))

end Commsdsl.Fld
