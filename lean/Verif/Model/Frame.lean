import Verif.Model.Message
/-!
# Frames and their layers (`lib/src/parse/ParseFrameImpl.cpp`, `lib/src/parse/Parse*LayerImpl.cpp`)
-/
namespace Commsdsl.Frm
open Commsdsl Text Fld Msg

/-- `ParseLayer::ParseKind`, include/commsdsl/parse/ParseLayer.h -/
inductive LKind where
  | custom | sync | size | id | value | payload | checksum
  deriving DecidableEq, Repr

/-- `ParseChecksumLayer::ParseAlg`, include/commsdsl/parse/ParseChecksumLayer.h -/
inductive Alg where
  | custom | sum | crcCcitt | crc16 | crc32 | xor
  deriving DecidableEq, Repr

/-- What the kinds of layers have beyond `ParseLayerImpl`: ParseSyncLayerImpl.h, ParseChecksumLayerImpl.h, ParseValueLayerImpl.h,
    ParseCustomLayerImpl.h. `from` of a sync layer is a pointer; `none` is `nullptr`. -/
inductive LData where
  | payload | id | size
  | sync (seek verifyBeforeRead afterPayload : Bool) (esc : Slot Field) (from_ : Option Str)
  | checksum (alg : Alg) (algName from_ until_ : Str) (verifyBeforeRead : Bool)
  | value (ifaces : List Interface) (fieldName : Str) (pseudo : Bool)
  | custom (sem : LKind) (from_ until_ : Str)

/-- `parseKindImpl()`. ParseLayerImpl.h:72-75 and 138. -/
def LData.kind : LData → LKind
  | .payload => .payload
  | .id => .id
  | .size => .size
  | .sync .. => .sync
  | .checksum .. => .checksum
  | .value .. => .value
  | .custom .. => .custom

/-- `ParseLayerImpl`, ParseLayerImpl.h:150-165 -/
structure Layer where
  name : Str
  displayName : Str
  description : Str
  field : Slot Field
  data : LData

/-- `parseKind()`. ParseLayerImpl.h:72-75. -/
abbrev Layer.kind (l : Layer) : LKind := l.data.kind

/-- `ParseFrameImpl`, ParseFrameImpl.h -/
structure Frame where
  name : Str
  displayName : Str
  description : Str
  layers : List Layer

/-- What layers need from the protocol beyond fields and interfaces: `topIfaces` are the interfaces of the namespaces directly in the current
    schema (ParseValueLayerImpl.cpp:93-99). -/
structure LEnv where
  m : MEnv
  topIfaces : List Interface := []

/-- DSL version of the current schema. Helper of `syncSeek`, ParseSyncLayerImpl.cpp:125-151. -/
abbrev LEnv.dsl (e : LEnv) : Nat := e.m.fld.dsl

/-- `parseCreateMap`, ParseLayerImpl.cpp:605-653, also the table of ParseCustomLayerImpl.cpp:120-128 -/
def layerTable : List (Str × LKind) := [
  ("payload".toList, .payload), ("id".toList, .id), ("size".toList, .size), ("sync".toList, .sync), ("checksum".toList, .checksum),
  ("value".toList, .value), ("custom".toList, .custom)]

/-- Lookup in the table. Helper of `customSem`, ParseCustomLayerImpl.cpp:94-141. -/
def layerKind (name : Str) : Option LKind := (layerTable.find? fun p => p.1 == name).map Prod.snd

/-- `ParseLayerImpl::parseSupportedTypes`, ParseLayerImpl.cpp:139-151 -/
def layerTypes : List Str := layerTable.map Prod.fst

/-- `parseCommonProps` of layers (ParseLayerImpl.cpp:363-372) and frames (ParseFrameImpl.cpp:162-171) -/
def commonProps : List Str := ["name".toList, "description".toList, "displayName".toList]

/-- `parseExtraPropsNamesImpl`: ParseSyncLayerImpl.cpp:42-51, ParseChecksumLayerImpl.cpp:47-57, ParseValueLayerImpl.cpp:65-73,
    ParseCustomLayerImpl.cpp:57-67, otherwise empty (ParseLayerImpl.cpp:187-190) -/
def extraProps : LKind → List Str
  | .sync => ["seekField".toList, "from".toList, "verifyBeforeRead".toList]
  | .checksum => ["alg".toList, "algName".toList, "from".toList, "until".toList, "verifyBeforeRead".toList]
  | .value => ["interfaces".toList, "interfaceFieldName".toList, "pseudo".toList]
  | .custom => ["idReplacement".toList, "semanticLayerType".toList, "checksumFrom".toList, "checksumUntil".toList]
  | _ => []

/-- `parseExtraPossiblePropsNamesImpl`: ParseSyncLayerImpl.cpp:53-60, otherwise empty (ParseLayerImpl.cpp:192-195) -/
def possibleProps : LKind → List Str
  | .sync => ["escField".toList]
  | _ => []

/-- Collecting the properties, ParseLayerImpl.cpp:76-88 -/
def layerProps (k : LKind) (node : Xml) : Option Props := do
  let p ← childrenAsProps node commonProps (nodeProps node)
  let p ← childrenAsProps node (extraProps k) p
  let p ← childrenAsProps node ["field".toList] p false
  childrenAsProps node (possibleProps k) p false

/-- The display name, ignored with a warning when not supported: ParseLayerImpl.cpp:399-415, ParseFrameImpl.cpp:198-213 -/
def dispProp (ok : Bool) (props : Props) : Res Str := do
  let s ← strProp props "displayName".toList []
  pure (if ok then s else [])

/-- A boolean property: find, convert or fail, e.g. ParseChecksumLayerImpl.cpp:172-191 -/
def boolProp (props : Props) (key : Str) (cur : Bool) : Res Bool :=
  if !props.validateSingle key then .err
  else match props.find key with
  | none => .ok cur
  | some s => Res.ofOption (strToBool s)

/-- What `parseUpdateField` works on. The parent of the field is a layer, without versions. Helper of `layerField`, ParseLayerImpl.cpp:421-442. -/
def fieldCtx (env : LEnv) (node : Xml) (props : Props) : BCtx :=
  ⟨⟨node, props, 0, Versions.notYet, false⟩, false, fieldOf env.m.fld (.other 0 Versions.notYet)⟩

/-- `parseUpdateField`, ParseLayerImpl.cpp:421-442, with `parseCheckFieldFromRef` (479-501) and `parseCheckFieldAsChild` (503-603), which are
    those of `<optional>` word for word; `parseMustHaveFieldImpl` is false for payload only (ParsePayloadLayerImpl.cpp:43-46). -/
def layerField (env : LEnv) (k : LKind) (node : Xml) (props : Props) : Res (Slot Field) := do
  let f ← optFromRef env.m.fld (fieldCtx env node props) .none
  let f ← optAsChild (fieldCtx env node props) f
  Res.check (f.has == (k != .payload))
  pure f

/-! ## Sync layers -/

/-- `parseUpdateSeekFieldInternal`, ParseSyncLayerImpl.cpp:125-151 -/
def syncSeek (dsl : Nat) (props : Props) : Res Bool :=
  if !props.validateSingle "seekField".toList then .err
  else match props.find "seekField".toList with
  | none => .ok false
  | some s => if !Dsl.propertySupported dsl "seekField".toList then .ok false else Res.ofOption (strToBool s)

/-- `parseCheckEscFieldFromRefInternal`, ParseSyncLayerImpl.cpp:245-267 -/
def escFromRef (env : LEnv) (props : Props) : Res (Slot Field) :=
  if !props.validateSingle "escField".toList then .err
  else match props.find "escField".toList with
  | none => .ok .none
  | some s => match env.m.fld.findField s with
    | none => .err
    | some f => .ok (.ext f)

/-- `parseCheckEscFieldAsChildInternal`, ParseSyncLayerImpl.cpp:269-315 -/
def escAsChild (env : LEnv) (node : Xml) (cur : Slot Field) : Res (Slot Field) :=
  match getChildren node ["escField".toList] with
  | [] => .ok cur
  | [c] =>
    if cur.has then .err
    else match getChildren c with
    | [n] => do
      let f ← fieldOf env.m.fld (.other 0 Versions.notYet) n
      pure (.own f)
    | _ => .err
  | _ => .err

/-- `parseUpdateEscFieldInternal`, ParseSyncLayerImpl.cpp:153-180 -/
def syncEsc (env : LEnv) (node : Xml) (props : Props) (seek : Bool) : Res (Slot Field) := do
  let f ← escFromRef env props
  let f ← escAsChild env node f
  if !f.has then pure .none
  else if !seek then .err
  else if !Dsl.propertySupported env.dsl "escField".toList then pure .none
  else pure f

/-- `parseUpdateVerifyBeforeReadInternal`, ParseSyncLayerImpl.cpp:182-215: the flag and `m_from`, which is set to `nullptr` when the property
    is not supported. -/
def syncVerify (dsl : Nat) (props : Props) (seek : Bool) : Res (Bool × Option Str) :=
  if !props.validateSingle "verifyBeforeRead".toList then .err
  else match props.find "verifyBeforeRead".toList with
  | none => .ok (false, some [])
  | some s =>
    if seek then .err
    else if !Dsl.isSupported dsl .syncSuffixLayer then .ok (false, none)
    else match strToBool s with
    | none => .err
    | some b => .ok (b, some [])

/-- `parseUpdateFromInternal`, ParseSyncLayerImpl.cpp:217-243; `parseFrom()` dereferences `m_from`. -/
def syncFrom (dsl : Nat) (props : Props) (seek verify : Bool) (cur : Option Str) : Res (Option Str) :=
  if !props.validateSingle "from".toList then .err
  else match (props.find "from".toList).or cur with
  | none => .ub
  | some s =>
    if s.isEmpty then .ok (some s)
    else if !seek && !verify then .err
    else if !Dsl.isSupported dsl .syncSuffixLayer then .ok none
    else .ok (some s)

/-- `ParseSyncLayerImpl::parseImpl`, ParseSyncLayerImpl.cpp:62-69 -/
def syncImpl (env : LEnv) (node : Xml) (props : Props) : Res LData := do
  let seek ← syncSeek env.dsl props
  let esc ← syncEsc env node props seek
  let v ← syncVerify env.dsl props seek
  let fr ← syncFrom env.dsl props seek v.1 v.2
  pure (.sync seek v.1 false esc fr)

/-! ## Checksum layers -/

/-- The table of algorithms, ParseChecksumLayerImpl.cpp:122-132 -/
def algOf (s : Str) : Option Alg :=
  let l := toLower s
  if l = "custom".toList then some .custom
  else if l = "sum".toList then some .sum
  else if l = "crc-ccitt".toList ∨ l = "crc_ccitt".toList then some .crcCcitt
  else if l = "crc-16".toList ∨ l = "crc_16".toList then some .crc16
  else if l = "crc-32".toList ∨ l = "crc_32".toList then some .crc32
  else if l = "xor".toList then some .xor
  else none

/-- `algName`, needed for custom algorithms, ParseChecksumLayerImpl.cpp:141-157 -/
def algNameOf (props : Props) (a : Alg) : Res Str :=
  if a ≠ .custom then .ok []
  else if !props.validateSingle "algName".toList true then .err
  else
    let n := props.getStr "algName".toList
    if isValidName n then .ok n else .err

/-- `parseUpdateAlg`, ParseChecksumLayerImpl.cpp:115-161 -/
def checksumAlg (props : Props) : Res (Alg × Str) :=
  if !props.validateSingle "alg".toList true then .err
  else do
    let a ← Res.ofOption (algOf (props.getStr "alg".toList))
    let n ← algNameOf props a
    pure (a, n)

/-- `ParseChecksumLayerImpl::parseImpl`, ParseChecksumLayerImpl.cpp:58-65 -/
def checksumImpl (props : Props) : Res LData := do
  let a ← checksumAlg props
  let fr ← strProp props "from".toList []
  let un ← strProp props "until".toList []
  let v ← boolProp props "verifyBeforeRead".toList false
  pure (.checksum a.1 a.2 fr un v)

/-! ## Value layers -/

/-- The loop over the references, ParseValueLayerImpl.cpp:107-128 -/
def findIfaces (env : LEnv) : List Str → Res (List Interface)
  | [] => .ok []
  | r :: rs =>
    if r.isEmpty then .err
    else match env.m.findInterface r with
    | none => .err
    | some i => do
      let is ← findIfaces env rs
      pure (i :: is)

/-- Splitting at commas: `std::string::find` and the `std::string(str, pos, n)` constructor, ParseValueLayerImpl.cpp:109-111; the token so far is reversed. -/
def splitCommas (cur : Str) : Str → List Str
  | [] => [cur.reverse]
  | c :: cs => if c = ',' then cur.reverse :: splitCommas [] cs else splitCommas (c :: cur) cs

/-- Which interfaces, ParseValueLayerImpl.cpp:92-128 -/
def ifaceList (env : LEnv) (props : Props) : Res (List Interface) :=
  match props.find "interfaces".toList with
  | none => .ok env.topIfaces
  | some s => if s.isEmpty then .err else findIfaces env ((splitCommas [] s).map trim)

/-- `parseUpdateInterfaces`, ParseValueLayerImpl.cpp:86-142 -/
def valueIfaces (env : LEnv) (props : Props) : Res (List Interface) :=
  if !props.validateSingle "interfaces".toList then .err
  else do
    let l ← ifaceList env props
    if l.isEmpty then .err else pure l

/-- `ParseInterfaceImpl::parseFindFieldIdx`, ParseInterfaceImpl.cpp:130-144 -/
def ifaceFieldIdx (i : Interface) (name : Str) : Option Nat := i.fields.findIdx? fun f => f.name == name

/-- The loop over the interfaces, ParseValueLayerImpl.cpp:155-180; `idx` is the expected index. -/
def sameIdx (name : Str) : Option Nat → List Interface → Bool
  | _, [] => true
  | idx, i :: is => match ifaceFieldIdx i name with
    | none => false
    | some n => match idx with
      | none => sameIdx name (some n) is
      | some m => m == n && sameIdx name (some m) is

/-- `parseUpdateFieldName`, ParseValueLayerImpl.cpp:144-186 -/
def valueFieldName (props : Props) (ifaces : List Interface) : Res Str :=
  if !props.validateSingle "interfaceFieldName".toList true then .err
  else
    let n := props.getStr "interfaceFieldName".toList
    if n.isEmpty then .err
    else if sameIdx n none ifaces then .ok n else .err

/-- `ParseValueLayerImpl::parseImpl`, ParseValueLayerImpl.cpp:73-79 -/
def valueImpl (env : LEnv) (props : Props) : Res LData := do
  let is ← valueIfaces env props
  let n ← valueFieldName props is
  let p ← boolProp props "pseudo".toList false
  pure (.value is n p)

/-! ## Custom layers -/

/-- `parseUpdateIdReplacement`, ParseCustomLayerImpl.cpp:68-92 -/
def customIdReplacement (props : Props) : Res LKind := do
  let b ← boolProp props "idReplacement".toList false
  pure (if b then .id else .custom)

/-- `parseUpdateSemanticLayerType`, ParseCustomLayerImpl.cpp:94-141 -/
def customSem (dsl : Nat) (props : Props) (cur : LKind) : Res LKind :=
  if !props.validateSingle "semanticLayerType".toList then .err
  else match props.find "semanticLayerType".toList with
  | none => .ok cur
  | some s =>
    if !Dsl.propertySupported dsl "semanticLayerType".toList then .ok cur
    else if s.isEmpty then .ok cur
    else if cur ≠ .custom then .err
    else Res.ofOption (layerKind s)

/-- `parseUpdateChecksumFrom`, `parseUpdateChecksumUntil`, ParseCustomLayerImpl.cpp:171-197 -/
def customLimit (dsl : Nat) (props : Props) (key : Str) (sem : LKind) : Res Str :=
  if !props.validateSingle key then .err
  else match props.find key with
  | none => .ok []
  | some s =>
    if !Dsl.propertySupported dsl key then .ok []
    else if sem ≠ .checksum then .ok []
    else .ok s

/-- `ParseCustomLayerImpl::parseImpl`, ParseCustomLayerImpl.cpp:41-49 -/
def customImpl (env : LEnv) (props : Props) : Res LData := do
  let k ← customIdReplacement props
  let k ← customSem env.dsl props k
  let fr ← customLimit env.dsl props "checksumFrom".toList k
  let un ← customLimit env.dsl props "checksumUntil".toList k
  pure (.custom k fr un)

/-- `parseImpl` by kind. Helper of `parseLayer`, ParseLayerImpl.cpp:76-119. -/
def layerImpl (env : LEnv) (node : Xml) (props : Props) : LKind → Res LData
  | .payload => .ok .payload
  | .id => .ok .id
  | .size => .ok .size
  | .sync => syncImpl env node props
  | .checksum => checksumImpl props
  | .value => valueImpl env props
  | .custom => customImpl env props

/-- `ParseLayerImpl::parse`, ParseLayerImpl.cpp:76-119 -/
def parseLayer (env : LEnv) (node : Xml) : Res Layer :=
  match layerKind node.name with
  | none => .err
  | some k => do
    let props ← Res.ofOption (layerProps k node)
    let name ← nameProp props []
    let disp ← dispProp (Dsl.isSupported env.dsl .layerDisplayName) props
    let descr ← strProp props "description".toList []
    let f ← layerField env k node props
    let d ← layerImpl env node props k
    pure ⟨name, disp, descr, f, d⟩

/-! ## Verification of a layer among the layers of the frame -/

/-- `parseFindLayerIndex` by kind, ParseLayerImpl.cpp:327-343 -/
def kindIdx (ls : List Layer) (k : LKind) : Option Nat := ls.findIdx? fun l => l.kind == k

/-- `parseFindLayerIndex` by name, ParseLayerImpl.cpp:345-361 -/
def nameIdx (ls : List Layer) (n : Str) : Option Nat := ls.findIdx? fun l => l.name == n

/-- `parseVerifySingleLayer`, ParseLayerImpl.cpp:235-250: no other layer of the kind of the layer at `i`. -/
def verifySingle (ls : List Layer) (i : Nat) (k : LKind) : Bool :=
  (List.range ls.length).all fun j => j == i || (match ls[j]? with | some l => l.kind != k | none => true)

/-- `parseVerifyBeforePayload`, ParseLayerImpl.cpp:252-267; without payload layer the index is greater than any. -/
def verifyBefore (ls : List Layer) (i : Nat) : Bool :=
  match kindIdx ls .payload with
  | none => true
  | some p => decide (i < p)

/-- `parseRetrieveSyncFrom`, `parseRetrieveChecksumFrom`, ParseLayerImpl.cpp:53-57: the name of the layer where a suffix layer begins. `ok none` for other kinds. -/
def fromOf : LData → Res (Option Str)
  | .sync _ _ _ _ none => .ub
  | .sync _ _ _ _ (some s) => .ok (some s)
  | .checksum _ _ s _ _ => .ok (some s)
  | _ => .ok none

/-- The body of the loop of `parseVerifySuffixLayersOrder`, ParseLayerImpl.cpp:269-306; an unknown name has an index greater than any. -/
def midOk (ls : List Layer) (fromIdx : Nat) (l : Layer) : Res Bool := do
  let n ← fromOf l.data
  match n with
  | none => pure true
  | some n =>
    if n.isEmpty then pure true
    else match nameIdx ls n with
    | none => pure true
    | some j => pure (!decide (j < fromIdx))

/-- The loop. Helper of `suffixOk`, ParseLayerImpl.cpp:269-306. -/
def midsOk (ls : List Layer) (fromIdx : Nat) : List Layer → Res Bool
  | [] => .ok true
  | l :: rest => do
    let ok ← midOk ls fromIdx l
    if ok then midsOk ls fromIdx rest else pure false

/-- `parseVerifySuffixLayersOrder`, ParseLayerImpl.cpp:269-306: the layers strictly between `payloadIdx` and `i` -/
def suffixOk (ls : List Layer) (payloadIdx i fromIdx : Nat) : Res Bool := midsOk ls fromIdx ((ls.take i).drop (payloadIdx + 1))

/-- `from` of a checksum, ParseChecksumLayerImpl.cpp:79-96. Without payload `payloadIdx + 1` overflows to 0. -/
def checkFrom (ls : List Layer) (i : Nat) (fr : Str) : Res Bool :=
  if fr.isEmpty then .ok true
  else match nameIdx ls fr with
  | none => .ok false
  | some j =>
    if i ≤ j then .ok false
    else match kindIdx ls .payload with
    | none => midsOk ls j (ls.take i)
    | some p => suffixOk ls p i j

/-- `until` of a checksum, ParseChecksumLayerImpl.cpp:98-111, ParseCustomLayerImpl.cpp:227-240 -/
def checkUntil (ls : List Layer) (i : Nat) (un : Str) : Bool :=
  un.isEmpty || (match nameIdx ls un with | none => false | some j => decide (i < j))

/-- `ParseChecksumLayerImpl::parseVerifyImpl`, ParseChecksumLayerImpl.cpp:67-113 -/
def verifyChecksum (ls : List Layer) (i : Nat) (fr un : Str) : Res Bool :=
  if fr.isEmpty && un.isEmpty then .ok false
  else do
    let ok ← checkFrom ls i fr
    pure (ok && checkUntil ls i un)

/-- `parseVerifyChecksumInternal`, ParseCustomLayerImpl.cpp:199-245 -/
def verifyCustom (ls : List Layer) (i : Nat) (sem : LKind) (fr un : Str) : Bool :=
  if sem ≠ .checksum then true
  else if fr.isEmpty && un.isEmpty then false
  else (fr.isEmpty || (match nameIdx ls fr with | none => false | some j => decide (j < i))) && checkUntil ls i un

/-- `ParseSyncLayerImpl::parseVerifyImpl` after the payload was found, ParseSyncLayerImpl.cpp:88-121 -/
def verifySyncAt (ls : List Layer) (i p : Nat) (seek : Bool) (fr : Str) : Res Bool :=
  if !decide (p < i) then .ok fr.isEmpty
  else if seek && fr.isEmpty then .ok false
  else if fr.isEmpty then .ok true
  else match nameIdx ls fr with
  | none => .ok false
  | some j => if p < j then .ok false else suffixOk ls p i j

/-- `ParseSyncLayerImpl::parseVerifyImpl`, ParseSyncLayerImpl.cpp:71-123; `parseFrom()`, which dereferences the pointer, is
    always called once there is a payload layer. -/
def verifySync (dsl : Nat) (ls : List Layer) (i : Nat) (seek : Bool) (fr : Option Str) : Res Bool :=
  if !Dsl.isSupported dsl .syncSuffixLayer then .ok true
  else match kindIdx ls .payload with
  | none => .ok true
  | some p => match fr with
    | none => .ub
    | some s => verifySyncAt ls i p seek s

/-- `parseVerifyImpl` by kind: ParsePayloadLayerImpl.cpp:38-41, ParseIdLayerImpl.cpp:38-42, ParseSizeLayerImpl.cpp:38-42, ParseValueLayerImpl.cpp:83-86, ParseCustomLayerImpl.cpp:52-55 -/
def verifyLayer (dsl : Nat) (ls : List Layer) (i : Nat) : LData → Res Bool
  | .payload => .ok (verifySingle ls i .payload)
  | .id => .ok (verifySingle ls i .id && verifyBefore ls i)
  | .size => .ok (verifySingle ls i .size && verifyBefore ls i)
  | .value _ _ _ => .ok (verifyBefore ls i)
  | .sync seek _ _ _ fr => verifySync dsl ls i seek fr
  | .checksum _ _ fr un _ => verifyChecksum ls i fr un
  | .custom sem fr un => .ok (verifyCustom ls i sem fr un)

/-- `std::all_of`, ParseFrameImpl.cpp:315-323 -/
def verifyAll (dsl : Nat) (ls : List Layer) : Nat → List Layer → Res Bool
  | _, [] => .ok true
  | i, l :: rest => do
    let ok ← verifyLayer dsl ls i l.data
    if ok then verifyAll dsl ls (i + 1) rest else pure false

/-- `m_afterPayload`, ParseSyncLayerImpl.cpp:87; only set when the suffix is supported. -/
def markAfter (dsl : Nat) (ls : List Layer) (i : Nat) (l : Layer) : Layer :=
  match l.data with
  | .sync s v _ e f =>
    if !Dsl.isSupported dsl .syncSuffixLayer then l
    else match kindIdx ls .payload with
    | none => l
    | some p => { l with data := .sync s v (decide (p < i)) e f }
  | _ => l

/-- All marks, in order. Helper of `frameLayers`, ParseFrameImpl.cpp:224-332. -/
def markAll (dsl : Nat) (ls : List Layer) : Nat → List Layer → List Layer
  | _, [] => []
  | i, l :: rest => markAfter dsl ls i l :: markAll dsl ls (i + 1) rest

/-! ## Frames -/

/-- The nodes of the layers, ParseFrameImpl.cpp:221-270 -/
def layerNodes (node : Xml) : Res (List Xml) :=
  let ls := getChildren node ["layers".toList]
  let direct := getChildren node layerTypes
  if 1 < ls.length then .err
  else if !ls.isEmpty && !direct.isEmpty then .err
  else match ls with
  | [] =>
    if direct.isEmpty then .err
    else if (getChildren node).length ≠ direct.length then .err
    else .ok direct
  | l :: _ =>
    if (getChildren l layerTypes).length ≠ (getChildren l).length then .err
    else .ok (getChildren l)

/-- The loop over the layers, ParseFrameImpl.cpp:275-306. A layer with a name already used is reported but kept. -/
def parseLayers (env : LEnv) : List Xml → Res (List Layer)
  | [] => .ok []
  | n :: ns => do
    let l ← parseLayer env n
    let ls ← parseLayers env ns
    pure (l :: ls)

/-- `parseUpdateLayers`, ParseFrameImpl.cpp:224-332 -/
def frameLayers (env : LEnv) (node : Xml) : Res (List Layer) := do
  let ns ← layerNodes node
  let ls ← parseLayers env ns
  Res.check (ls.any fun l => l.kind == .payload)
  let ok ← verifyAll env.dsl ls 0 ls
  Res.check ok
  pure (markAll env.dsl ls 0 ls)

/-- `ParseFrameImpl::parse`, ParseFrameImpl.cpp:56-71 -/
def parseFrame (env : LEnv) (node : Xml) : Res Frame := do
  let props ← Res.ofOption (childrenAsProps node commonProps (nodeProps node))
  let name ← nameProp props []
  let disp ← dispProp (Dsl.isSupported env.dsl .frameDisplayName) props
  let descr ← strProp props "description".toList []
  let ls ← frameLayers env node
  pure ⟨name, disp, descr, ls⟩

end Commsdsl.Frm
