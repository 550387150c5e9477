import Verif.Model.GenSchema
import Verif.Model.GenScope
import Verif.Model.GenVersion
/-!
# Options of the generated protocol (`app/commsdsl2comms/src/CommsDefaultOptions.cpp` and the functions it uses)

The generated classes take a struct with options as template parameter `TOpt` and refer to the types in it. The generator writes the struct `DefaultOptions` with all of
them, and extensions of it, which take the extended struct as `TBase`. The text of the structs is represented by the declarations in it; comments are left out.
-/
namespace Commsdsl.Gen
open Commsdsl Text Fld Msg Frm Proto

/-- `CommsGenerator::CommsCustomizationLevel`, CommsGenerator.h:51-57 -/
inductive Level where
  | full | limited | none
  deriving DecidableEq

/-- The structs with options, CommsDefaultOptions.cpp:202-330: `commsDefaultOptions`, `commsClientDefaultOptions`, ... -/
inductive OptSet where
  | dflt | client | server | dataView | bareMetal | msgFactory
  deriving DecidableEq

/-- What is declared in such a struct. `base` is the text after `TBase::` of the base class (CommsField.cpp:2049-2053), or of the last option (CommsField.cpp:2079-2083). -/
inductive Decl where
  | struct (name : Str) (base : Option Str) (body : List Decl)
  | alias (name : Str) (opts : List Str) (base : Option Str)

/-- What decides about the options: `level` is `commsGetCustomizationLevel()`, `main` the main namespace of the schema, `inOptions` is
    `commsHasMainNamespaceInOptions()` (CommsGenerator.cpp:119-122), `used` is `genIsReferenced()` of global fields, `usedMsg` of messages, `factory` is
    `commsMsgFactoryAliasInOptions` (CommsLayer.cpp:346-366). -/
structure OptCfg where
  level : Level
  main : Str
  inOptions : Bool
  used : Path → Field → Bool
  usedMsg : Path → Message → Bool
  factory : Path → Str

/-- `hasBase`. Helper of `ownOptions`, CommsField.cpp:2061-2115. -/
def OptSet.hasBase : OptSet → Bool
  | .dflt => false
  | _ => true

/-- `genScopeFor(elem, generator, hasMainNs)`. Helper of `ownOptions`, CommsField.cpp:2061-2115. -/
def OptCfg.scope (cfg : OptCfg) (c : Chain) : Str := scopeFor cfg.main cfg.inOptions true c

/-- The option added to the ones of the base, and the one used when there are none. Helper of `ownOptions`, CommsField.cpp:2061-2115. -/
def emptyOption : Str := "comms::option::app::EmptyOption".toList

mutual
/-- `commsIsFieldCustomizable`, CommsField.cpp:477-494, with `commsIsLimitedCustomizableImpl`, CommsField.cpp:650-653, CommsListField.cpp:455-458,
    CommsDataField.cpp:386-389, CommsStringField.cpp:332-335, CommsRefField.cpp:139-143 -/
def customizable (lv : Level) : Field → Bool
  | .ref c _ t => decide (lv = .full) || (c.customizable || (decide (lv = .limited) && slotCustomizable lv t))
  | .string c _ _ => decide (lv = .full) || (c.customizable || decide (lv = .limited))
  | .data c _ _ => decide (lv = .full) || (c.customizable || decide (lv = .limited))
  | .list c _ _ _ _ _ _ => decide (lv = .full) || (c.customizable || decide (lv = .limited))
  | .int c _ => decide (lv = .full) || c.customizable
  | .enum c _ => decide (lv = .full) || c.customizable
  | .set c _ => decide (lv = .full) || c.customizable
  | .float c _ => decide (lv = .full) || c.customizable
  | .bitfield c _ _ _ => decide (lv = .full) || c.customizable
  | .bundle c _ _ _ => decide (lv = .full) || c.customizable
  | .optional c _ _ _ => decide (lv = .full) || c.customizable
  | .variant c _ _ => decide (lv = .full) || c.customizable
/-- `m_commsReferencedField->commsIsFieldCustomizable()`, CommsRefField.cpp:142 -/
def slotCustomizable (lv : Level) : Slot Field → Bool
  | .own g => customizable lv g
  | .ext g => customizable lv g
  | .none => false
end

/-- The extra options of sequences of fixed or other length, CommsListField.cpp:521-536, CommsDataField.cpp:409-424, CommsStringField.cpp:355-370 -/
def storageOpts (fixed : Bool) : List Str :=
  if fixed then ["comms::option::app::SequenceFixedSizeUseFixedSizeStorage".toList]
  else ["comms::option::app::FixedSizeStorage<DEFAULT_SEQ_FIXED_STORAGE_SIZE>".toList]

/-- `extraFieldOptsFunc`: `commsExtraDataViewDefaultOptionsImpl` (CommsDataField.cpp:401-407, CommsStringField.cpp:347-353) and `commsExtraBareMetalDefaultOptionsImpl`;
    there is none for the other structs (CommsField.cpp:373-399). -/
def extraFieldOpts (s : OptSet) (f : Field) : List Str :=
  match s, f with
  | .dataView, .string _ _ _ => ["comms::option::app::OrigDataView".toList]
  | .dataView, .data _ _ _ => ["comms::option::app::OrigDataView".toList]
  | .bareMetal, .string _ st _ => storageOpts (decide (st.length ≠ 0))
  | .bareMetal, .data _ st _ => storageOpts (decide (st.length ≠ 0))
  | .bareMetal, .list _ st _ _ _ _ _ => storageOpts (decide (st.count ≠ 0))
  | _, _ => []

/-- The declaration of the options of an element itself, CommsField.cpp:2061-2115, CommsMessage.cpp:1564-1620, CommsLayer.cpp:466-521: `extra` are the extra options, `scope` is the
    scope of the element. -/
def ownOptions (custom hasBase : Bool) (extra : List Str) (name scope : Str) : List Decl :=
  if !custom then []
  else if extra.isEmpty && hasBase then []
  else if extra.isEmpty then [.alias (className name) [emptyOption] none]
  else [.alias (className name) extra (if hasBase then some scope else none)]

/-- A struct, when there is something to declare, CommsField.cpp:2034-2057, CommsMessage.cpp:1538-1562, CommsFrame.cpp:513-540. -/
def structOf (name : Str) (base : Option Str) (body : List Decl) : List Decl := if body.isEmpty then [] else [.struct name base body]

/-- The struct with the members and the options of the field itself, CommsField.cpp:2034-2118 -/
def wrapOpts (cfg : OptCfg) (s : OptSet) (up : Chain) (f : Field) (body : List Decl) : List Decl :=
  structOf (className f.name ++ "Members".toList)
      (if s.hasBase then some (cfg.scope ({ ty := .field, name := f.name } :: up) ++ "Members".toList) else none) body ++
    ownOptions (customizable cfg.level f) s.hasBase (extraFieldOpts s f) f.name (cfg.scope ({ ty := .field, name := f.name } :: up))

mutual
/-- `commsCustomizationOptionsInternal` of a field, CommsField.cpp:2028-2118, without the check of global fields. `up` are the elements around. -/
def fieldOpts (cfg : OptCfg) (s : OptSet) (up : Chain) : Field → List Decl
  | .int c st => wrapOpts cfg s up (.int c st) []
  | .enum c st => wrapOpts cfg s up (.enum c st) []
  | .set c st => wrapOpts cfg s up (.set c st) []
  | .float c st => wrapOpts cfg s up (.float c st) []
  | .bitfield c e ms cd => wrapOpts cfg s up (.bitfield c e ms cd) (fieldsOpts cfg s ({ ty := .field, name := c.name } :: up) ms)
  | .bundle c ms al cd => wrapOpts cfg s up (.bundle c ms al cd) (fieldsOpts cfg s ({ ty := .field, name := c.name } :: up) ms)
  | .string c st p => wrapOpts cfg s up (.string c st p) (slotOpts cfg s ({ ty := .field, name := c.name } :: up) p)
  | .data c st p => wrapOpts cfg s up (.data c st p) (slotOpts cfg s ({ ty := .field, name := c.name } :: up) p)
  | .list c st e n l el t => wrapOpts cfg s up (.list c st e n l el t)
      (slotOpts cfg s ({ ty := .field, name := c.name } :: up) e ++ (slotOpts cfg s ({ ty := .field, name := c.name } :: up) n ++
        (slotOpts cfg s ({ ty := .field, name := c.name } :: up) l ++ (slotOpts cfg s ({ ty := .field, name := c.name } :: up) el ++
          slotOpts cfg s ({ ty := .field, name := c.name } :: up) t))))
  | .ref c b t => wrapOpts cfg s up (.ref c b t) []
  | .optional c st f cd => wrapOpts cfg s up (.optional c st f cd) (slotOpts cfg s ({ ty := .field, name := c.name } :: up) f)
  | .variant c d ms => wrapOpts cfg s up (.variant c d ms) (fieldsOpts cfg s ({ ty := .field, name := c.name } :: up) ms)
/-- The members of a field, `commsMembersCustomizationOptionsBodyImpl`, CommsBitfieldField.cpp:208-219, CommsBundleField.cpp:396-407, CommsVariantField.cpp:574-585; the fields of a
    message, CommsMessage.cpp:1528-1536 -/
def fieldsOpts (cfg : OptCfg) (s : OptSet) (up : Chain) : List Field → List Decl
  | [] => []
  | f :: fs => fieldOpts cfg s up f ++ fieldsOpts cfg s up fs
/-- A member field that may be a global one, CommsListField.cpp:485-519, CommsDataField.cpp:391-399, CommsStringField.cpp:337-345, CommsOptionalField.cpp:483-491 -/
def slotOpts (cfg : OptCfg) (s : OptSet) (up : Chain) : Slot Field → List Decl
  | .own f => fieldOpts cfg s up f
  | _ => []
end

/-- A struct has `nullptr` as the function for fields: the messages of `ClientDefaultOptions`, CommsMessage.cpp:205-228. -/
def OptSet.ofFields : OptSet → Bool
  | .dflt | .dataView | .bareMetal => true
  | _ => false

/-- A global field, CommsField.cpp:2032-2034 -/
def globalOpts (cfg : OptCfg) (s : OptSet) (path : Path) (up : Chain) (f : Field) : List Decl :=
  if cfg.used path f then fieldOpts cfg s up f else []

/-- `commsIsCustomizableInternal`, CommsMessage.cpp:1504-1521 -/
def msgCustomizable (lv : Level) (m : Message) : Bool :=
  decide (lv = .full) || (m.customizable || (decide (lv = .limited) && decide (m.sender ≠ .both)))

/-- `commsClientExtraCustomizationOptionsInternal`, CommsMessage.cpp:1712-1731, and `commsServerExtraCustomizationOptionsInternal`, CommsMessage.cpp:1733-1752 -/
def extraMsgOpts (s : OptSet) (m : Message) : List Str :=
  match s, m.sender with
  | .client, .client => ["comms::option::app::NoReadImpl".toList, "comms::option::app::NoDispatchImpl".toList]
  | .client, .server => ["comms::option::app::NoWriteImpl".toList, "comms::option::app::NoRefreshImpl".toList]
  | .server, .client => ["comms::option::app::NoWriteImpl".toList, "comms::option::app::NoRefreshImpl".toList]
  | .server, .server => ["comms::option::app::NoReadImpl".toList, "comms::option::app::NoDispatchImpl".toList]
  | _, _ => []

/-- `commsCustomizationOptionsInternal` of a message, CommsMessage.cpp:1523-1622. The fields of a message that is not referenced are not known to it: `m_commsFields` is set when the
    message is prepared, GenMessage.cpp:169-188. `up` are the namespaces. -/
def messageOpts (cfg : OptCfg) (s : OptSet) (path : Path) (up : Chain) (m : Message) : List Decl :=
  structOf (className m.name ++ "Fields".toList)
      (if s.hasBase then some (cfg.scope ({ ty := .message, name := m.name } :: up) ++ "Fields".toList) else none)
      (if s.ofFields && cfg.usedMsg path m then fieldsOpts cfg s ({ ty := .message, name := m.name } :: up) m.fields else []) ++
    ownOptions (msgCustomizable cfg.level m) s.hasBase (extraMsgOpts s m) m.name (cfg.scope ({ ty := .message, name := m.name } :: up))

/-- `commsIsCustomizable` of a layer, CommsLayer.cpp:151-160, with `commsIsCustomizableImpl`, CommsLayer.cpp:248-251, CommsIdLayer.cpp:88-91, CommsCustomLayer.cpp:86-89 -/
def layerCustomizable (lv : Level) (l : Layer) : Bool :=
  decide (lv = .full) || match l.data with
    | .id => true
    | .custom .. => true
    | _ => false

/-- `commsExtraBareMetalDefaultOptionsImpl` and `commsExtraMsgFactoryDefaultOptionsImpl`, CommsIdLayer.cpp:93-107, CommsCustomLayer.cpp:91-113: `fac` is the type of the factory. -/
def extraLayerOpts (s : OptSet) (fac : Str) (l : Layer) : List Str :=
  if layerTakesIds l then
    match s with
    | .bareMetal => ["comms::option::app::InPlaceAllocation".toList]
    | .msgFactory => ["comms::option::app::MsgFactoryTempl<".toList ++ fac ++ ">".toList]
    | _ => []
  else []
where
  /-- An id layer, or `commsDefHasInputMessagesImpl` of a custom one, CommsCustomLayer.cpp:81-84 -/
  layerTakesIds (l : Layer) : Bool := match l.data with
    | .id => true
    | .custom .id _ _ => true
    | _ => false

/-- The field of a payload layer: `commsCustomFieldOptsImpl`, `commsCustomFieldDataViewOptsImpl`, `commsCustomFieldBareMetalOptsImpl`, CommsPayloadLayer.cpp:107-172. The base is named without
    the main namespace. -/
def payloadOpts (cfg : OptCfg) (s : OptSet) (up : Chain) (l : Layer) : List Decl :=
  let scope := scopeFor cfg.main false true ({ ty := .layer, name := l.name } :: up) ++ "Members".toList
  match s with
  | .dflt => [.struct (className l.name ++ "Members".toList) none [.alias "Field".toList [emptyOption] none]]
  | .dataView => [.struct (className l.name ++ "Members".toList) (some scope)
      [.alias "Field".toList ["comms::option::app::OrigDataView".toList] (some (scope ++ "::Field".toList))]]
  | .bareMetal => [.struct (className l.name ++ "Members".toList) (some scope)
      [.alias "Field".toList ["comms::option::app::FixedSizeStorage<DEFAULT_SEQ_FIXED_STORAGE_SIZE * 8>".toList] (some (scope ++ "::Field".toList))]]
  | _ => []

/-- The field of another layer, CommsLayer.cpp:430-463: the template of the struct has `FIELD_OPT` where the options of the field are stored as `FIELD_OPTS`, so that nothing is
    written into the struct. -/
def layerFieldOpts (cfg : OptCfg) (s : OptSet) (up : Chain) (l : Layer) : List Decl :=
  if s.ofFields && !(slotOpts cfg s ({ ty := .layer, name := l.name } :: up) l.field).isEmpty then
    [.struct (className l.name ++ "Members".toList) (if s.hasBase then some (cfg.scope ({ ty := .layer, name := l.name } :: up) ++ "Members".toList) else none) []]
  else []

/-- `commsCustomizationOptionsInternal` of a layer, CommsLayer.cpp:416-523 -/
def layerOpts (cfg : OptCfg) (s : OptSet) (path : Path) (up : Chain) (l : Layer) : List Decl :=
  (match l.data with
    | .payload => payloadOpts cfg s up l
    | _ => layerFieldOpts cfg s up l) ++
    ownOptions (layerCustomizable cfg.level l) s.hasBase (extraLayerOpts s (cfg.factory path) l) l.name (cfg.scope ({ ty := .layer, name := l.name } :: up))

/-- `commsCustomizationOptionsInternal` of a frame, CommsFrame.cpp:501-543. The order of the layers is the one of the schema, not the one of C106. -/
def frameOpts (cfg : OptCfg) (s : OptSet) (path : Path) (up : Chain) (f : Frame) : List Decl :=
  structOf (className f.name ++ "Layers".toList) (if s.hasBase then some (cfg.scope ({ ty := .frame, name := f.name } :: up) ++ "Layers".toList) else none)
    (f.layers.reverse.flatMap fun l => layerOpts cfg s path ({ ty := .frame, name := f.name } :: up) l)

/-- `thisNsScope`, CommsNamespace.cpp:475-480 -/
def nsPrefix (scope : Str) : Str := if scope.isEmpty then [] else scope ++ scopeSep

/-- One of the structs `field`, `message` and `frame`, CommsNamespace.cpp:482-546 -/
def kindOpts (hasBase : Bool) (scope name : Str) (body : List Decl) : List Decl :=
  structOf name (if hasBase then some (nsPrefix scope ++ name) else none) body

/-- The element of a namespace and its parents. Helper of `elementOpts`, CommsNamespace.cpp:482-548. -/
def nsChain (path : Path) : Chain := if path.isEmpty then [{ ty := .ns, name := [] }] else (path.map fun n => { ty := .ns, name := n }).reverse

/-- The functions for messages of the structs: that of `MsgFactoryDefaultOptions` is `nullptr`, CommsNamespace.cpp:216-226. -/
def OptSet.ofMessages : OptSet → Bool
  | .msgFactory => false
  | _ => true

/-- The functions for frames of the structs, CommsNamespace.cpp:69-226. -/
def OptSet.ofFrames : OptSet → Bool
  | .client | .server => false
  | _ => true

/-- What follows the namespaces inside, CommsNamespace.cpp:482-548 -/
def elementOpts (cfg : OptCfg) (s : OptSet) (path : Path) (fields : List Field) (msgs : List Message) (frames : List Frame) : List Decl :=
  kindOpts s.hasBase (cfg.scope (nsChain path)) "field".toList (if s.ofFields then fields.flatMap (globalOpts cfg s path (nsChain path)) else []) ++
  (kindOpts s.hasBase (cfg.scope (nsChain path)) "message".toList (if s.ofMessages then msgs.flatMap (messageOpts cfg s path (nsChain path)) else []) ++
    kindOpts s.hasBase (cfg.scope (nsChain path)) "frame".toList (if s.ofFrames then frames.flatMap (frameOpts cfg s path (nsChain path)) else []))

/-- The struct of a namespace, CommsNamespace.cpp:69-247: an extension without contents is left out, the global namespace has no struct of its own. -/
def nsStruct (s : OptSet) (name scope : Str) (body : List Decl) : List Decl :=
  if s.hasBase && body.isEmpty then []
  else if name.isEmpty then body
  else [.struct name (if s.hasBase && !scope.isEmpty then some scope else none) body]

mutual
/-- `commsDefaultOptions`, ..., of a namespace, CommsNamespace.cpp:69-247, with `commsOptionsInternal`, CommsNamespace.cpp:439-549 -/
def nsOpts (cfg : OptCfg) (s : OptSet) : GNs → List Decl
  | .mk path name fields msgs _ frames subs => nsStruct s name (cfg.scope (nsChain path)) (nssOpts cfg s subs ++ elementOpts cfg s path fields msgs frames)
/-- The namespaces inside, CommsNamespace.cpp:456-459 -/
def nssOpts (cfg : OptCfg) (s : OptSet) : List GNs → List Decl
  | [] => []
  | n :: ns => nsOpts cfg s n ++ nssOpts cfg s ns
end

/-- `commsOptionsBodyInternal`, CommsDefaultOptions.cpp:46-84. Text of blanks only, as a global namespace without options gives, counts as none; it makes the generator write an empty struct for
    the main namespace. -/
def optionsBody (cfg : OptCfg) (s : OptSet) (nss : List GNs) : List Decl :=
  if (nssOpts cfg s nss).isEmpty then []
  else if !cfg.inOptions then nssOpts cfg s nss
  else [.struct cfg.main (if s.hasBase then some cfg.main else none) (nssOpts cfg s nss)]

/-! ## The types the generated classes use -/

/-- CommsField.cpp:785-788 -/
def refsOf (cfg : OptCfg) (up : Chain) (f : Field) (inner : List Str) : List Str :=
  inner ++ (if customizable cfg.level f then [cfg.scope ({ ty := .field, name := f.name } :: up)] else [])

mutual
/-- The texts after `TOpt::` in the code of a field and the fields inside: `commsAddFieldDefOptions`, CommsField.cpp:785-788. -/
def fieldRefs (cfg : OptCfg) (up : Chain) : Field → List Str
  | .int c st => refsOf cfg up (.int c st) []
  | .enum c st => refsOf cfg up (.enum c st) []
  | .set c st => refsOf cfg up (.set c st) []
  | .float c st => refsOf cfg up (.float c st) []
  | .bitfield c e ms cd => refsOf cfg up (.bitfield c e ms cd) (fieldsRefs cfg ({ ty := .field, name := c.name } :: up) ms)
  | .bundle c ms al cd => refsOf cfg up (.bundle c ms al cd) (fieldsRefs cfg ({ ty := .field, name := c.name } :: up) ms)
  | .string c st p => refsOf cfg up (.string c st p) (slotRefs cfg ({ ty := .field, name := c.name } :: up) p)
  | .data c st p => refsOf cfg up (.data c st p) (slotRefs cfg ({ ty := .field, name := c.name } :: up) p)
  | .list c st e n l el t => refsOf cfg up (.list c st e n l el t)
      (slotRefs cfg ({ ty := .field, name := c.name } :: up) e ++ (slotRefs cfg ({ ty := .field, name := c.name } :: up) n ++
        (slotRefs cfg ({ ty := .field, name := c.name } :: up) l ++ (slotRefs cfg ({ ty := .field, name := c.name } :: up) el ++
          slotRefs cfg ({ ty := .field, name := c.name } :: up) t))))
  | .ref c b t => refsOf cfg up (.ref c b t) []
  | .optional c st f cd => refsOf cfg up (.optional c st f cd) (slotRefs cfg ({ ty := .field, name := c.name } :: up) f)
  | .variant c d ms => refsOf cfg up (.variant c d ms) (fieldsRefs cfg ({ ty := .field, name := c.name } :: up) ms)
/-- Those of the members; also of the fields of a message. Helper of `messageRefs`, CommsMessage.cpp:946-954. -/
def fieldsRefs (cfg : OptCfg) (up : Chain) : List Field → List Str
  | [] => []
  | f :: fs => fieldRefs cfg up f ++ fieldsRefs cfg up fs
/-- Those of a member field; the code of a global field is generated elsewhere. Helper of `layerFieldRefs`, CommsLayer.cpp:394-396. -/
def slotRefs (cfg : OptCfg) (up : Chain) : Slot Field → List Str
  | .own f => fieldRefs cfg up f
  | _ => []
end

/-- Those of a message, CommsMessage.cpp:946-954, and its fields. -/
def messageRefs (cfg : OptCfg) (up : Chain) (m : Message) : List Str :=
  fieldsRefs cfg ({ ty := .message, name := m.name } :: up) m.fields ++
    (if msgCustomizable cfg.level m then [cfg.scope ({ ty := .message, name := m.name } :: up)] else [])

/-- Those of an interface: its fields, CommsInterface.cpp:409-444. -/
def ifaceRefs (cfg : OptCfg) (up : Chain) (i : Interface) : List Str := fieldsRefs cfg ({ ty := .iface, name := i.name } :: up) i.fields

/-- Those of a layer itself, CommsLayer.cpp:334-344, with the field of a payload layer, CommsPayloadLayer.cpp:99. -/
def layerRefs (cfg : OptCfg) (up : Chain) (l : Layer) : List Str :=
  (match l.data with
    | .payload => [cfg.scope ({ ty := .layer, name := l.name } :: up) ++ "Members".toList ++ "::Field".toList]
    | _ => []) ++ (if layerCustomizable cfg.level l then [cfg.scope ({ ty := .layer, name := l.name } :: up)] else [])

/-- Those of the field of a layer that is not a global one, CommsLayer.cpp:394-396. -/
def layerFieldRefs (cfg : OptCfg) (up : Chain) (l : Layer) : List Str := slotRefs cfg ({ ty := .layer, name := l.name } :: up) l.field

end Commsdsl.Gen
