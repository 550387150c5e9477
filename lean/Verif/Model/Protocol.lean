import Verif.Model.Frame
/-!
# Schemas, namespaces and the protocol object (`lib/src/parse/ParseProtocolImpl.cpp`, `ParseSchemaImpl.cpp`, `ParseNamespaceImpl.cpp`)

Namespaces are kept flat: an element of a schema is recorded with the path of the namespaces it is in (`[]` is the global namespace, which the
code keeps in the same map under an empty name), and the schema has the list of the namespaces that exist. The maps of the code, indexed by
name, are lists in the order of insertion; where the code iterates over a map, the model sorts.
Extra attributes, extra children and the descriptions of namespaces are left out.
-/
namespace Commsdsl.Proto
open Commsdsl Text Fld Msg Frm

/-- Path of a namespace. See `parseExternalRef`, ParseNamespaceImpl.cpp:437-450. -/
abbrev Path := List Str

/-- `ParseSchemaImpl`, ParseSchemaImpl.h:160-180, with all its namespaces (ParseNamespaceImpl.h:215-230). -/
structure Schema where
  name : Str := []
  displayName : Str := []
  description : Str := []
  id : Nat := 0
  version : Nat := 0
  dsl : Nat := 0
  endian : IntF.Endian := .little
  nonUnique : Bool := false
  props : Props := []
  platforms : List Str := []
  nss : List Path := []
  fields : List (Path × Field) := []
  messages : List (Path × Message) := []
  ifaces : List (Path × Interface) := []
  frames : List (Path × Frame) := []

/-- `ParseProtocolImpl`, ParseProtocolImpl.h: the documents, the schemas, the current schema (an index), whether `parseValidate` has
    succeeded, whether several schemas are enabled. -/
structure Proto where
  docs : List Xml := []
  schemas : List Schema := []
  curr : Option Nat := none
  validated : Bool := false
  multi : Bool := false

/-- `parseCurrSchema()`, ParseProtocolImpl.cpp:115-119; never called without one. -/
def Proto.cur (p : Proto) : Schema := (p.curr.bind fun i => p.schemas[i]?).getD {}

/-! ## References -/

/-- Text split at every dot. Helper of `Schema.find`, ParseSchemaImpl.cpp:381-437, 105-135. -/
def dotSplit : Str → List Str
  | [] => [[]]
  | c :: cs =>
    if c = '.' then [] :: dotSplit cs
    else match dotSplit cs with
    | [] => [[c]]
    | t :: ts => (c :: t) :: ts

/-- Text joined with dots. Helper of `Proto.strToEnum`, ParseProtocolImpl.cpp:172-211. -/
def dotJoin : List Str → Str
  | [] => []
  | [a] => a
  | a :: b :: r => a ++ '.' :: dotJoin (b :: r)

/-- `std::find_if` by name over the schemas. Helper of `Proto.externalRef`, ParseProtocolImpl.cpp:872-899. -/
def schemaIdx (ss : List Schema) (n : Str) : Option Nat := ss.findIdx? fun s => s.name == n

/-- `parseExternalRef`, ParseProtocolImpl.cpp:872-899: the index of the schema and the rest of the reference. -/
def Proto.externalRef (p : Proto) (ref : Str) : Option (Nat × Str) :=
  match ref with
  | '@' :: r =>
    if !r.contains '.' then none
    else (schemaIdx p.schemas (r.takeWhile (· != '.'))).map fun i => (i, (r.dropWhile (· != '.')).drop 1)
  | _ => p.curr.map fun i => (i, ref)

/-- `parseCanRefSchema`, ParseProtocolImpl.cpp:901-929 -/
def Proto.canRef (p : Proto) (i : Nat) : Bool := match p.curr with
  | none => false
  | some c => decide (i ≤ c)

/-- The first element of a list recorded under a path and a name. Helper of `Schema.find`, ParseSchemaImpl.cpp:381-437, 105-135. -/
def lookup {α : Type} (nameOf : α → Str) (l : List (Path × α)) (path : Path) (n : Str) : Option α :=
  (l.find? fun e => e.1 == path && nameOf e.2 == n).map Prod.snd

/-- `parseGetNsFromPath` and the `parseFind...` of the namespace, ParseSchemaImpl.cpp:381-437, 105-135, ParseNamespaceImpl.cpp:241-287 -/
def Schema.find {α : Type} (s : Schema) (nameOf : α → Str) (l : List (Path × α)) (ref : Str) : Option α :=
  let cs := dotSplit ref
  if s.nss.contains cs.dropLast then lookup nameOf l cs.dropLast (cs.getLast?.getD []) else none

/-- `parseFindField`, `parseFindMessage`, `parseFindInterface`, ParseProtocolImpl.cpp:157-170; `coll` selects the elements of a schema,
    `check` is `checkRef`. -/
def Proto.find {α : Type} (p : Proto) (nameOf : α → Str) (coll : Schema → List (Path × α)) (check : Bool) (ref : Str) : Option α :=
  match p.externalRef ref with
  | none => none
  | some (i, rest) =>
    if rest.isEmpty || !p.canRef i || (check && !isValidRefName rest) then none
    else match p.schemas[i]? with
    | none => none
    | some s => s.find nameOf (coll s) rest

/-- `parseFindField(ref)`, ParseProtocolImpl.cpp:127-140 -/
def Proto.findField (p : Proto) (ref : Str) : Option Field := p.find Field.name Schema.fields true ref
/-- `parseFindMessage(ref)`, ParseProtocolImpl.cpp:142-155 -/
def Proto.findMessage (p : Proto) (ref : Str) : Option Message := p.find Message.name Schema.messages true ref
/-- `parseFindInterface(ref)`, ParseProtocolImpl.cpp:157-170 -/
def Proto.findInterface (p : Proto) (ref : Str) : Option Interface := p.find Interface.name Schema.ifaces true ref

/-- The value of an enum, ParseProtocolImpl.cpp:196-210 -/
def enumValue (f : Option Field) (n : Str) : Option Int :=
  match f with
  | some (.enum _ st) => (IntF.findSpecial st.values n).map fun v => v.value
  | _ => none

/-- `parseStrToEnumValue`, ParseProtocolImpl.cpp:172-211. `parseFindField` is asked not to check the reference. The one caller that does not want
    a check (ParseVariantFieldImpl.cpp:364) has done it before. -/
def Proto.strToEnum (p : Proto) (ref : Str) : Option Int :=
  if !isValidRefName ref || !ref.contains '.' then none
  else
    let cs := dotSplit ref
    enumValue (p.find Field.name Schema.fields false (dotJoin cs.dropLast)) (cs.getLast?.getD [])

/-- The way from a namespace to a field, ParseNamespaceImpl.cpp:759-789; the global namespace and the namespaces of the schema: the end of
    `parseStrToValue`, ParseProtocolImpl.cpp:823-870. `ask` is the question to the field. -/
def Schema.value {α : Type} (s : Schema) (ask : Field → Str → Option α) : Path → List Str → Option α
  | _, [] => none
  | path, [x] => (lookup Field.name s.fields path x).bind fun f => ask f []
  | path, x :: y :: r =>
    if s.nss.contains (path ++ [x]) then s.value ask (path ++ [x]) (y :: r)
    else (lookup Field.name s.fields path x).bind fun f => ask f (dotJoin (y :: r))

/-- `parseStrToValue`, ParseProtocolImpl.cpp:823-870. The order of the schemas does not matter here. -/
def Proto.value {α : Type} (p : Proto) (ask : Field → Str → Option α) (check : Bool) (ref : Str) : Option α :=
  if check && !isValidRefName ref then none
  else match p.externalRef ref with
  | none => none
  | some (i, rest) =>
    if rest.isEmpty then none
    else (p.schemas[i]?).bind fun s => s.value ask [] (dotSplit rest)

/-- `parseProcessInterfaceFieldRef`, ParseSchemaImpl.cpp:261-275, ParseNamespaceImpl.cpp:437-450, over all interfaces of the schema. The order
    of the results does not matter to the caller. -/
def ifaceRefs : List (Path × Interface) → Str → Res (List RefInfo)
  | [], _ => .ok []
  | i :: is, s => do
    let r ← siblingRef i.2.fields s
    let rs ← ifaceRefs is s
    pure (r.toList ++ rs)

/-- What is not modelled of floating point fields: `std::stod`, reading a number from a text. Used in parse_common.cpp:989-1020. -/
structure FloatOps where
  stod : Str → Option FloatF.Dbl

/-- What `<int>`, `<enum>`, `<set>` see of the protocol. The calls are `protocol().parse...` in ParseIntFieldImpl.cpp, ParseEnumFieldImpl.cpp, ParseSetFieldImpl.cpp; the functions ParseProtocolImpl.cpp:172-282. -/
def Proto.intEnv (p : Proto) : IntF.Env where
  dsl := p.cur.dsl
  schemaVersion := p.cur.version
  schemaEndian := p.cur.endian
  strToNumeric := p.value (fun f s => f.numeric p.cur.dsl s) false
  strToBool := p.value (fun f s => f.boolVal p.cur.dsl s) true
  strToString := p.value (fun f s => f.stringVal p.cur.dsl s) true

/-- What fields see of the protocol. The functions are ParseProtocolImpl.cpp:115-282 and 321-507. -/
def Proto.fldEnv (fo : FloatOps) (p : Proto) : FEnv where
  int := p.intEnv
  findField := p.findField
  strToEnum := p.strToEnum
  strToData := p.value (fun f s => f.dataVal p.cur.dsl s) false
  ifaceRefs := ifaceRefs p.cur.ifaces
  fp := { stod := fo.stod, strToFp := p.value (fun f s => f.fpVal p.cur.dsl s) false }

/-- What messages and interfaces see of the protocol. The functions are ParseProtocolImpl.cpp:115-170 and 321-507. -/
def Proto.msgEnv (fo : FloatOps) (p : Proto) : MEnv where
  fld := p.fldEnv fo
  findMessage := p.findMessage
  findInterface := p.findInterface
  platforms := p.cur.platforms

/-- `operator<` of `std::string`, on paths of at most one element and names: the order of iteration over `parseNamespaces()` and `parseInterfaces()`. Helper of `Proto.layerEnv`, ParseValueLayerImpl.cpp:95-103. -/
def ifaceLt (a b : Path × Interface) : Bool :=
  strLt (dotJoin a.1) (dotJoin b.1) || (a.1 == b.1 && strLt a.2.name b.2.name)

/-- What layers see of the protocol: ParseValueLayerImpl.cpp:95-103 for the interfaces -/
def Proto.layerEnv (fo : FloatOps) (p : Proto) : LEnv where
  m := p.msgEnv fo
  topIfaces := (sortBy ifaceLt (p.cur.ifaces.filter fun i => decide (i.1.length ≤ 1))).map Prod.snd

/-! ## External references of elements -/

/-- `parseExternalRef` of namespaces, fields, messages, interfaces, frames: ParseNamespaceImpl.cpp:289-310, ParseSchemaImpl.cpp:257-260,
    ParseFrameImpl.cpp:97-109. -/
def externalRefOf (schemaRef : Bool) (schema : Str) (path : Path) (name : Str) : Str :=
  if schemaRef then dotJoin (('@' :: schema) :: path ++ [name]) else dotJoin (path ++ [name])

/-! ## Processing a document -/

/-- What the code does for a document, in the order it does it. ParseProtocolImpl.cpp:576-819. -/
inductive Action where
  | bad
  | schema (node : Xml)
  | platform (node : Xml)
  | openNs (path : Path)
  | field (path : Path) (node : Xml)
  | message (path : Path) (node : Xml)
  | iface (path : Path) (node : Xml)
  | frame (path : Path) (node : Xml)

/-- `PropNames`, ParseNamespaceImpl.cpp:37-41 -/
def nsProps : List Str := ["name".toList, "displayName".toList, "description".toList]

/-- `parseProps`, ParseNamespaceImpl.cpp:86-110: the name. -/
def nsName (node : Xml) : Option Str :=
  match childrenAsProps node nsProps (nodeProps node) with
  | none => none
  | some p => if isValidName (p.getStr "name".toList) then some (p.getStr "name".toList) else none

/-- `ChildrenNames`, ParseNamespaceImpl.cpp:43-52 -/
def childrenNames : List Str := [
  "fields".toList, "messages".toList, "message".toList, "frames".toList, "frame".toList, "ns".toList, "interfaces".toList, "interface".toList]

/-- A collection element whose children must all have one name: ParseNamespaceImpl.cpp:632-652, 676-696, 720-740 -/
def many (name : Str) (mk : Xml → Action) (node : Xml) : List Action :=
  (getChildren node).map fun c => if c.name = name then mk c else .bad

/-- `processChild` for everything but `<ns>`, ParseNamespaceImpl.cpp:137-164, with `processMultipleFields` etc. -/
def leafActions (path : Path) (node : Xml) : List Action :=
  if node.name = "fields".toList then (getChildren node).map (Action.field path)
  else if node.name = "message".toList then [.message path node]
  else if node.name = "messages".toList then many "message".toList (.message path) node
  else if node.name = "frame".toList then [.frame path node]
  else if node.name = "frames".toList then many "frame".toList (.frame path) node
  else if node.name = "interface".toList then [.iface path node]
  else if node.name = "interfaces".toList then many "interface".toList (.iface path) node
  else [.bad]

mutual
/-- `processChild`, ParseNamespaceImpl.cpp:137-162, and `processNamespace`, 520-571: a namespace met before is continued. -/
def nodeActions (path : Path) : Xml → List Action
  | .elem n as cs =>
    if n = "ns".toList then match nsName (.elem n as cs) with
      | none => [.bad]
      | some x => .openNs (path ++ [x]) :: nodesActions (path ++ [x]) cs
    else leafActions path (.elem n as cs)
  | _ => []
/-- `parseChildren`, ParseNamespaceImpl.cpp:112-121 -/
def nodesActions (path : Path) : List Xml → List Action
  | [] => []
  | c :: cs => (if childrenNames.contains c.name then nodeActions path c else []) ++ nodesActions path cs
end

/-- A child of the root, ParseProtocolImpl.cpp:738-814: other elements than `<ns>` go to the global namespace, which is created when needed. -/
def topActions (c : Xml) : List Action :=
  if c.name = "ns".toList then nodeActions [] c else .openNs [] :: leafActions [] c

/-- `parseValidatePlatforms`, ParseProtocolImpl.cpp:664-691 -/
def platformActions (root : Xml) : List Action :=
  ((getChildren root ["platforms".toList]).flatMap (many "platform".toList .platform)) ++
    (getChildren root ["platform".toList]).map .platform

/-- `parseValidateDoc`, ParseProtocolImpl.cpp:555-574 -/
def docActions (root : Xml) : List Action :=
  if root.name = "schema".toList then
    .schema root :: platformActions root ++ (getChildren root childrenNames).flatMap topActions
  else [.bad]

/-! ### Schema elements -/

/-- `PropNames`, ParseSchemaImpl.cpp:38-47 -/
def schemaProps : List Str := [
  "name".toList, "displayName".toList, "id".toList, "version".toList, "dslVersion".toList, "endian".toList, "description".toList,
  "nonUniqueMsgIdAllowed".toList]

/-- `parseUpdateUnsignedProperty`, ParseSchemaImpl.cpp:294-312 -/
def unsignedProp (props : Props) (key : Str) : Res Nat :=
  match props.find key with
  | none => .ok 0
  | some s => Res.ofOption (strToUnsigned s)

/-- `parseUpdateBooleanProperty`, ParseSchemaImpl.cpp:327-345 -/
def plainBool (props : Props) (key : Str) : Res Bool :=
  match props.find key with
  | none => .ok false
  | some s => Res.ofOption (strToBool s)

/-- `parseProcessNode`, ParseSchemaImpl.cpp:67-95. (Of a property given twice the first one counts.) -/
def parseSchema (node : Xml) : Res Schema := do
  let props ← Res.ofOption (childrenAsProps node schemaProps (nodeProps node))
  let id ← unsignedProp props "id".toList
  let ver ← unsignedProp props "version".toList
  let dsl ← unsignedProp props "dslVersion".toList
  let en ← Res.ofOption (IntF.endianOf (props.getStr "endian".toList) .little)
  let nu ← plainBool props "nonUniqueMsgIdAllowed".toList
  let name := props.getStr "name".toList
  let disp := props.getStr "displayName".toList
  Res.check (name.isEmpty || isValidName name)
  pure {
    name := name, displayName := (if 0 < dsl ∧ dsl < 7 then [] else disp), description := props.getStr "description".toList,
    id := id, version := ver, dsl := dsl, endian := en, nonUnique := nu, props := props }

/-- Every property of a further element of a schema must be there in the first one, with the same value: ParseProtocolImpl.cpp:623-637 -/
def sameProps (orig props : Props) : Bool := props.all fun e => orig.find e.1 == some e.2

/-- The name, that of the current schema by default: ParseProtocolImpl.cpp:588-605 -/
def schemaName (p : Proto) (s : Schema) : Str := if s.name.isEmpty then p.cur.name else s.name

/-- The rest of `parseValidateSchema`, ParseProtocolImpl.cpp:605-662. The current schema is set even when the properties differ. -/
def placeSchema (p : Proto) (s : Schema) (name : Str) : Proto × Res Unit :=
  if name.isEmpty then (p, .err)
  else match schemaIdx p.schemas name with
  | some i => ({ p with curr := some i }, Res.check (sameProps ((p.schemas[i]?).getD {}).props s.props))
  | none =>
    if !p.schemas.isEmpty && (!Dsl.isSupported p.cur.dsl .multiSchema || !p.multi) then (p, .err)
    else ({ p with schemas := p.schemas ++ [s], curr := some p.schemas.length }, .ok ())

/-- `parseValidateSchema`, ParseProtocolImpl.cpp:576-662 -/
def stepSchema (p : Proto) (node : Xml) : Proto × Res Unit :=
  match parseSchema node with
  | .err => (p, .err)
  | .ub => (p, .ub)
  | .ok s => placeSchema p s (schemaName p s)

/-- Change of the current schema. Helper of `stepPlatform`, ParseProtocolImpl.cpp:693-727. -/
def Proto.update (p : Proto) (f : Schema → Schema) : Proto :=
  match p.curr with
  | none => p
  | some i => { p with schemas := p.schemas.modify i f }

/-- `parseAddPlatform`, ParseSchemaImpl.cpp:204-213: `std::lower_bound` and insertion. -/
def insertPlatform (n : Str) : List Str → List Str
  | [] => [n]
  | q :: qs => if strLt q n then q :: insertPlatform n qs else if q = n then q :: qs else n :: q :: qs

/-- `parseAddPlatform`, ParseSchemaImpl.cpp:204-213 -/
def addPlatform (n : Str) (s : Schema) : Schema := { s with platforms := insertPlatform n s.platforms }

/-- `parseValidateSinglePlatform`, ParseProtocolImpl.cpp:693-727 -/
def stepPlatform (p : Proto) (node : Xml) : Proto × Res Unit :=
  match childrenAsProps node ["name".toList] (nodeProps node) with
  | none => (p, .err)
  | some props => match props.find "name".toList with
    | none => (p, .err)
    | some n =>
      if n.any fun c => c == '+' || c == '-' || c == ',' then (p, .err)
      else (p.update (addPlatform n), .ok ())

/-- Recording a parsed element, unless its name is taken: ParseNamespaceImpl.cpp:587-604, 615-628, 659-673, 703-717. -/
def record {α : Type} (p : Proto) (nameOf : α → Str) (coll : Schema → List (Path × α)) (add : α → Schema → Schema) (path : Path) (x : Res α) :
    Proto × Res Unit :=
  match x with
  | .err => (p, .err)
  | .ub => (p, .ub)
  | .ok a =>
    if (lookup nameOf (coll p.cur) path (nameOf a)).isSome then (p, .err)
    else (p.update (add a), .ok ())

/-- A namespace is created unless it is there: ParseProtocolImpl.cpp:755-770, ParseNamespaceImpl.cpp:530-543, ParseSchemaImpl.cpp:224-232 -/
def addNs (path : Path) (s : Schema) : Schema := if s.nss.contains path then s else { s with nss := s.nss ++ [path] }

/-- A field, message, interface, frame is added. `m_fields`, ParseNamespaceImpl.cpp:632-652. -/
def addField (path : Path) (f : Field) (s : Schema) : Schema := { s with fields := s.fields ++ [(path, f)] }
/-- See `addField`. `m_messages`, ParseNamespaceImpl.cpp:676-696. -/
def addMessage (path : Path) (m : Message) (s : Schema) : Schema := { s with messages := s.messages ++ [(path, m)] }
/-- See `addField`. `m_interfaces`, ParseNamespaceImpl.cpp:676-696. -/
def addIface (path : Path) (i : Interface) (s : Schema) : Schema := { s with ifaces := s.ifaces ++ [(path, i)] }
/-- See `addField`. `m_frames`, ParseNamespaceImpl.cpp:720-740. -/
def addFrame (path : Path) (f : Frame) (s : Schema) : Schema := { s with frames := s.frames ++ [(path, f)] }

/-- One action. ParseProtocolImpl.cpp:576-819. -/
def step (fo : FloatOps) (p : Proto) : Action → Proto × Res Unit
  | .bad => (p, .err)
  | .schema n => stepSchema p n
  | .platform n => stepPlatform p n
  | .openNs path => (p.update (addNs path), .ok ())
  | .field path n =>
    record p Field.name Schema.fields (addField path) path (fieldOf (p.fldEnv fo) .top n)
  | .message path n =>
    record p Message.name Schema.messages (addMessage path) path (parseMessage (p.msgEnv fo) n)
  | .iface path n =>
    record p Interface.name Schema.ifaces (addIface path) path (parseInterface (p.msgEnv fo) n)
  | .frame path n =>
    record p Frame.name Schema.frames (addFrame path) path (parseFrame (p.layerEnv fo) n)

/-- Actions until one fails; what has been done stays. Helper of `runDocs`, ParseProtocolImpl.cpp:91-95. -/
def run (fo : FloatOps) (p : Proto) : List Action → Proto × Res Unit
  | [] => (p, .ok ())
  | a :: as => match step fo p a with
    | (q, .ok _) => run fo q as
    | (q, .err) => (q, .err)
    | (q, .ub) => (q, .ub)

/-! ## Messages -/

/-- The order of messages by id and `order`, ParseSchemaImpl.cpp:156-170, ParseNamespaceImpl.cpp:460-473 -/
def msgLt (a b : Message) : Bool := if a.id ≠ b.id then decide (a.id < b.id) else decide (a.order < b.order)

/-- The loop over neighbours, ParseNamespaceImpl.cpp:479-504 -/
def neighboursOk (nonUnique : Bool) : List Message → Bool
  | [] => true
  | [_] => true
  | a :: b :: r =>
    (a.id != b.id || (nonUnique && a.order != b.order)) && neighboursOk nonUnique (b :: r)

/-- The messages of the namespace directly in the schema with the given path, and of the namespaces directly in it. Helper of `Schema.nsMessagesOk`, ParseNamespaceImpl.cpp:452-508. -/
def Schema.msgsBelow (s : Schema) (path : Path) : List Message :=
  (s.messages.filter fun m => m.1 == path || (!path.isEmpty && m.1.dropLast == path && m.1.length == path.length + 1)).map Prod.snd

/-- `parseValidateAllMessages` of a namespace, ParseNamespaceImpl.cpp:452-508 -/
def Schema.nsMessagesOk (s : Schema) (path : Path) : Bool := neighboursOk s.nonUnique (sortBy msgLt (s.msgsBelow path))

/-- `parseValidateAllMessages`, ParseSchemaImpl.cpp:233-243: every namespace directly in the schema. -/
def Schema.messagesOk (s : Schema) : Bool := (s.nss.filter fun q => decide (q.length ≤ 1)).all s.nsMessagesOk

/-- `parseAllMessages`, ParseSchemaImpl.cpp:138-171: the messages of the namespaces directly in the schema. -/
def Schema.allMessages (s : Schema) : List Message :=
  sortBy msgLt ((s.messages.filter fun m => decide (m.1.length ≤ 1)).map Prod.snd)

/-! ## The protocol object -/

/-- `ParseProtocolImpl::parse`, ParseProtocolImpl.cpp:63-78; `doc` is what libxml2 made of the file. -/
def Proto.parse (p : Proto) (doc : Option Xml) : Proto × Bool :=
  if p.validated then (p, false)
  else match doc with
  | none => (p, false)
  | some d => ({ p with docs := p.docs ++ [d] }, true)

/-- The loop over the documents, ParseProtocolImpl.cpp:91-95 -/
def runDocs (fo : FloatOps) (p : Proto) : List Xml → Proto × Res Unit
  | [] => (p, .ok ())
  | d :: ds => match run fo p (docActions d) with
    | (q, .ok _) => runDocs fo q ds
    | (q, .err) => (q, .err)
    | (q, .ub) => (q, .ub)

/-- `parseValidate`, ParseProtocolImpl.cpp:80-103 -/
def Proto.validate (fo : FloatOps) (p : Proto) : Proto × Res Unit :=
  if p.validated then (p, .ok ())
  else if p.docs.isEmpty then (p, .err)
  else match runDocs fo p p.docs with
  | (q, .ok _) => if q.schemas.all Schema.messagesOk then ({ q with validated := true }, .ok ()) else (q, .err)
  | (q, .err) => (q, .err)
  | (q, .ub) => (q, .ub)

/-- A call to the protocol object. ParseProtocolImpl.cpp:63-113. -/
inductive Call where
  | parse (doc : Option Xml)
  | validate
  | enableMulti (on : Bool)

/-- The state after a call; `parseEnableMultipleSchemas` sets the flag. ParseProtocolImpl.cpp:63-113. -/
def call (fo : FloatOps) (p : Proto) : Call → Proto
  | .parse d => (p.parse d).1
  | .validate => (p.validate fo).1
  | .enableMulti b => { p with multi := b }

end Commsdsl.Proto
