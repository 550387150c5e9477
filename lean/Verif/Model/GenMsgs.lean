import Verif.Model.GenSchema
import Verif.Model.GenValid
import Verif.Model.GenScope
/-!
# Lists of input messages, message factories, dispatch functions and message ids of the generated code

For a namespace the generator writes lists of its messages (`input` directory), factories that create a message by its id (`factory`), functions
that cast a message to its type by its id (`dispatch`), and an enum of the ids. What is modelled is the list of types in a list file with its
include statements, and of the factories and dispatch functions the `case` labels with what is created or cast to for them. The rest of the
templates, code injected by the user and the documentation are left out.
-/
namespace Commsdsl.Gen
open Commsdsl Text Fld Msg Frm Proto

/-! ## Messages of a namespace -/

/-- The order of `genSortMessages`, GenGenerator.cpp:953-965 -/
def msgKeyLt (a b : Path × Message) : Bool :=
  if a.2.id ≠ b.2.id then decide (a.2.id < b.2.id) else decide (a.2.order < b.2.order)

/-- `genGetAllMessagesIdSorted` of a namespace, GenNamespace.cpp:906-911 with GenGenerator.cpp:951-966. `std::sort` may place messages that have the
    same id and order in any way, always the same one for the same list. -/
def GNs.sortedMessages (n : GNs) : List (Path × Message) := sortBy msgKeyLt n.allMessages

mutual
/-- The namespaces for which `genWrite` is called: `genWriteElements(m_namespaces)`, GenNamespace.cpp:99-107, 581-588 -/
def GNs.allNs : GNs → List GNs
  | .mk p n fs ms is frs subs => allNsOf subs ++ [.mk p n fs ms is frs subs]
/-- `genWrite` of a schema, GenSchema.cpp:325-335 -/
def allNsOf : List GNs → List GNs
  | [] => []
  | n :: ns => n.allNs ++ allNsOf ns
end

mutual
/-- `genHasFramesRecursive`, GenNamespace.cpp:144-157 -/
def GNs.hasFrames : GNs → Bool
  | .mk _ _ _ _ _ frs subs => if !frs.isEmpty then true else anyFrames subs
/-- The `std::any_of`, GenNamespace.cpp:150-156 -/
def anyFrames : List GNs → Bool
  | [] => false
  | n :: ns => n.hasFrames || anyFrames ns
end

mutual
/-- `genHasMessagesRecursive`, GenNamespace.cpp:159-172 -/
def GNs.hasMessages : GNs → Bool
  | .mk _ _ _ ms _ _ subs => if !ms.isEmpty then true else anyMessages subs
/-- The `std::any_of`, GenNamespace.cpp:165-171 -/
def anyMessages : List GNs → Bool
  | [] => false
  | n :: ns => n.hasMessages || anyMessages ns
end

/-! ## Selections of messages -/

/-- Messages for both sides, input of the client, input of the server. Helper of `Side.wants`, CommsInputMessages.cpp:175-214. -/
inductive Side where
  | all | client | server
  deriving DecidableEq

/-- The checks of the sender, CommsInputMessages.cpp:175-214, CommsMsgFactory.cpp:428-473, CommsDispatch.cpp:327-369 -/
def Side.wants : Side → Message → Bool
  | .all, _ => true
  | .client, m => m.sender != .client
  | .server, m => m.sender != .server

/-- All messages, those of a platform, those of a bundle of messages given on the command line. Helper of `Sel.wants`, CommsInputMessages.cpp:230-239, 284-288. -/
inductive Sel where
  | every
  | platform (name : Str)
  | bundle (name : Str) (msgs : List MsgKey)

/-- `platformCheckFunc` and `bundleCheckFunc`, CommsInputMessages.cpp:230-239, 284-288, CommsMsgFactory.cpp:492-501, 573-577,
    CommsDispatch.cpp:387-396, 493-497. `i` is the index of the schema: the bundle holds pointers to messages. -/
def Sel.wants (i : Nat) : Sel → Path × Message → Bool
  | .every, _ => true
  | .platform p, e => supports p e.2
  | .bundle _ ms, e => ms.contains (i, e.1, e.2.name)

/-- The messages of a file: the loop with the check functions, CommsInputMessages.cpp:77-81, CommsMsgFactory.cpp:349-355,
    CommsDispatch.cpp:608-612 -/
def listed (i : Nat) (n : GNs) (sel : Sel) (side : Side) : List (Path × Message) :=
  n.sortedMessages.filter fun e => sel.wants i e && side.wants e.2

/-- The lines of the file of a bundle: `commsPrepareExtraMessageBundlesInternal`, CommsGenerator.cpp:332-347; as for the list of messages,
    `genGindMessage` uses the pointer of the schema without a check. -/
def bundleMsgs (ss : List Schema) (contents : Str) : Res (List MsgKey) := listLoop ⟨ss, ss.length - 1⟩ (listLines contents)

/-- Platforms of the schema and bundles, with the three sides of each, in the order in which the files are written: `commsWrite`,
    CommsInputMessages.cpp:163-171, 225-277, 279-326, CommsMsgFactory.cpp:406-414, CommsDispatch.cpp:310-323 -/
def selections (platforms : List Str) (bundles : List (Str × List MsgKey)) : List (Sel × Side) :=
  (Sel.every :: (platforms.map Sel.platform ++ bundles.map fun b => Sel.bundle b.1 b.2)).flatMap fun s => [(s, .all), (s, .client), (s, .server)]

/-! ## Names and places of the files -/

/-- `comms::genClassName(p)`, `comms::genClassName(b.first)`. Helper of `inputStem`, CommsInputMessages.cpp:42-43, 184, 201, 218, 247, 259, 271. -/
def Sel.prefix : Sel → Str
  | .every => []
  | .platform p => className p
  | .bundle b _ => className b

/-- What the side adds to names. Helper of `inputStem`, CommsInputMessages.cpp:42-43, 184, 201, 218, 247, 259, 271. -/
def Side.text : Side → Str
  | .all => []
  | .client => "ClientInput".toList
  | .server => "ServerInput".toList

/-- The names of the lists without `Messages`, CommsInputMessages.cpp:42-43, 184, 201, 218, 247, 259, 271 -/
def inputStem : Sel → Side → Str
  | .every, .all => "All".toList
  | sel, side => sel.prefix ++ side.text

/-- The names of the lists. Helper of `factoryName`, CommsMsgFactory.cpp:41-43, 217. -/
def inputName (sel : Sel) (side : Side) : Str := inputStem sel side ++ "Messages".toList

/-- The names of the factories: the prefix is the name of the list, CommsMsgFactory.cpp:41-43, 217 -/
def factoryName (sel : Sel) (side : Side) : Str := inputName sel side ++ "DynMem".toList ++ "MsgFactory".toList

/-- The names of the dispatch headers, `commsGetFileName`, CommsDispatch.cpp:42-45, 341, 353, 372, 406, 435, 464 -/
def dispatchName (sel : Sel) (side : Side) : Str := "Dispatch".toList ++ (sel.prefix ++ side.text) ++ "Message".toList

/-- `genRelHeaderForInput`, `genRelHeaderForFactory`, `genRelHeaderForDispatch`, comms.cpp:512-532, 580-590: `ns` is the name of the namespace, `dir` the
    directory. -/
def relHeaderIn (main dir name ns : Str) : Str :=
  scopeForElement main name ((if ns.isEmpty then [] else [ns]) ++ [dir]) pathSep ++ ".h".toList

/-- `genRelHeaderForOptions`, comms.cpp:503-510, for the default options -/
def optionsHeader (main : Str) : Str := scopeForElement main "DefaultOptions".toList ["options".toList] pathSep ++ ".h".toList

/-! ## Lists of messages -/

/-- `genScopeFor(*m, generator)`. Helper of `inputFile`, CommsInputMessages.cpp:46-153. -/
def msgType (main : Str) (e : Path × Message) : Str := scopeFor main true true (chainOf .message e.1 e.2.name)

/-- A list of messages: the header, the include statements, the types in the tuple, the aliases (the name between prefix and suffix, the type). Helper of `inputFile`, CommsInputMessages.cpp:46-153. -/
structure InputFile where
  header : Str
  includes : List Str
  types : List Str
  aliases : List (Str × Str)

/-- `writeFileInternal`, CommsInputMessages.cpp:46-153 -/
def inputFile (main : Str) (i : Nat) (n : GNs) (sel : Sel) (side : Side) : InputFile :=
  let l := listed i n sel side
  { header := relHeaderIn main "input".toList (inputName sel side) n.name,
    includes := prepareIncludes (["<tuple>".toList, optionsHeader main] ++ l.map fun e => relHeaderPath main (chainOf .message e.1 e.2.name)),
    types := l.map (msgType main),
    aliases := l.map fun e => (className e.2.name, msgType main e) }

/-! ## Messages by id -/

/-- `map[id].push_back(m)` of a `std::map`. Helper of `mapById`, CommsMsgFactory.cpp:347-355. -/
def addToMap {α : Type} (id : Nat) (m : α) : List (Nat × List α) → List (Nat × List α)
  | [] => [(id, [m])]
  | (k, l) :: r => if k = id then (k, l ++ [m]) :: r else if id < k then (id, [m]) :: (k, l) :: r else (k, l) :: addToMap id m r

/-- The loop that fills the map, CommsMsgFactory.cpp:347-355, CommsDispatch.cpp:603-626 -/
def mapById (l : List (Path × Message)) : List (Nat × List (Path × Message)) := l.foldl (fun acc e => addToMap e.2.id e acc) []

/-- What is done for one `case`: for any index, or for the indices that are given with the text. Helper of `factoryCode`, CommsMsgFactory.cpp:116-154. -/
inductive Code where
  | one (type : Str)
  | byIdx (cases : List (Str × Str))

/-- Every element through a function that may fail, from left to right. Helper of `allocs`, CommsMsgFactory.cpp:133-136. -/
def mapRes {α β : Type} (f : α → Res β) : List α → Res (List β)
  | [] => .ok []
  | a :: l => do
    let b ← f a
    let r ← mapRes f l
    pure (b :: r)

/-- The text of the `case` label: the id is converted to `std::intmax_t`, CommsMsgFactory.cpp:126, 145, 183, CommsDispatch.cpp:654 -/
def idLabel (id : Nat) : Res Str := numToStringHexComment (castI64 id)

/-- Numbers the elements of a list. Helper of `allocs`, CommsMsgFactory.cpp:133-136. -/
def indexed {α : Type} : Nat → List α → List (Nat × α)
  | _, [] => []
  | i, a :: l => (i, a) :: indexed (i + 1) l

/-! ## Factories -/

/-- A factory: whether an index other than zero is refused first (and `hasUniqueIds()` is true), the cases of `createMsg` and of `msgCount`. Helper of `factory`, CommsMsgFactory.cpp:200-396. -/
structure Factory where
  unique : Bool
  cases : List (Str × Code)
  counts : List (Str × Str)
  includes : List Str

/-- The `if` statements with their indices, CommsMsgFactory.cpp:133-136 with 58-82. Fewer than 2^31 messages are assumed to have the same id: the index
    is converted to `int`. -/
def allocs (main : Str) (l : List (Path × Message)) : Res (List (Str × Str)) :=
  mapRes (fun (x : Nat × (Path × Message)) => do
    let t ← numToStringS x.1
    pure (t, msgType main x.2)) (indexed 0 l)

/-- The code of one `case` of `createMsg`, CommsMsgFactory.cpp:116-154 -/
def factoryCode (main : Str) (unique : Bool) (g : Nat × List (Path × Message)) : Res Code :=
  if unique then
    match g.2 with
    | [] => .ub
    | e :: _ => .ok (.one (msgType main e))
  else do
    let l ← allocs main g.2
    pure (.byIdx l)

/-- A `case` with its label. Helper of `factory`, CommsMsgFactory.cpp:200-396. -/
def labelled {α : Type} (code : Nat × List (Path × Message) → Res α) (g : Nat × List (Path × Message)) : Res (Str × α) := do
  let label ← idLabel g.1
  let c ← code g
  pure (label, c)

/-- `commsWriteFileInternal`, CommsMsgFactory.cpp:200-396, of the factory with dynamic memory allocation, with `commsGetMsgAllocCodeInternal`,
    93-166, and `commsGetMsgCountCodeInternal`, 168-198 -/
def factory (main : Str) (i : Nat) (n : GNs) (sel : Sel) (side : Side) : Res Factory := do
  let m := mapById (listed i n sel side)
  let unique := m.all fun g => decide (g.2.length ≤ 1)
  let counts ← mapRes (labelled fun g => .ok (numToStringU g.2.length 0)) m
  let cases ← mapRes (labelled (factoryCode main unique)) m
  pure { unique := unique, cases := cases, counts := counts, includes := prepareIncludes ["<cstdint>".toList, "<memory>".toList, "comms/MsgFactoryCreateFailureReason.h".toList, relHeaderIn main "input".toList (inputName sel side) n.name] }

/-! ## Dispatch -/

/-- A dispatch function: whether it takes account of the index (otherwise an index other than zero is not dispatched), its cases. Helper of `dispatch`, CommsDispatch.cpp:601-646. -/
structure Dispatch where
  multi : Bool
  cases : List (Str × Code)
  includes : List Str

/-- The cases for the indices, CommsDispatch.cpp:672-679 -/
def idxCases (main : Str) (l : List (Path × Message)) : List (Str × Str) :=
  (indexed 0 l).map fun x => (numToStringU x.1 0, msgType main x.2)

/-- The code of one `case`, CommsDispatch.cpp:652-698 -/
def dispatchCode (main : Str) (g : Nat × List (Path × Message)) : Code :=
  match g.2 with
  | [e] => .one (msgType main e)
  | _ => .byIdx (idxCases main g.2)

/-- `commsDispatchCodeInternal`, CommsDispatch.cpp:601-646, with `commsCasesCodeInternal`, 648-701, and `commsIncludesInternal`, 589-599;
    `hasMultipleMessagesWithSameId` becomes true when a message is added to a list that is not empty. -/
def dispatch (main : Str) (i : Nat) (n : GNs) (sel : Sel) (side : Side) : Res Dispatch := do
  let m := mapById (listed i n sel side)
  let cases ← mapRes (labelled fun g => .ok (dispatchCode main g)) m
  pure { multi := m.any fun g => decide (1 < g.2.length), cases := cases, includes := prepareIncludes ["<cstdint>".toList, relHeaderIn main "input".toList (inputStem sel side ++ "Messages".toList) n.name, optionsHeader main] }

/-! ## The files of a namespace -/

/-- The headers written for a namespace: `genWriteImpl`, CommsNamespace.cpp:421-438. -/
def listHeaders (main : Str) (platforms : List Str) (bundles : List (Str × List MsgKey)) (n : GNs) : List Str :=
  if !n.hasFrames || !n.hasMessages then []
  else
    (selections platforms bundles).map (fun x => relHeaderIn main "dispatch".toList (dispatchName x.1 x.2) n.name) ++
    (selections platforms bundles).map (fun x => relHeaderIn main "factory".toList (factoryName x.1 x.2) n.name) ++
    (selections platforms bundles).map (fun x => relHeaderIn main "input".toList (inputName x.1 x.2) n.name)

/-! ## Message ids -/

/-- `genFullNameFor` of a message, comms.cpp:312-335. The global namespace has an empty name. -/
def fullName : Path → Str → Str
  | path, name =>
    let up := path.foldl (fun r x => (if r.isEmpty then r else r ++ ['_']) ++ x) []
    (if up.isEmpty then up else up ++ ['_']) ++ className name

mutual
/-- `genFindMessageIdFields` of a namespace, GenNamespace.cpp:645-669, with the path of each field. -/
def GNs.idFields : GNs → List (Path × Field)
  | .mk p _ fs _ _ _ subs =>
    ((fs.filter fun f => decide (f.sem = .messageId) && (decide (f.kind = .enum) || decide (f.kind = .int))).map fun f => (p, f)) ++ idFieldsOf subs
/-- `genFindMessageIdFields` of a schema, GenSchema.cpp:346-354, which `genGetAllMessageIdFields` returns, GenSchema.cpp:321, 414-417 -/
def idFieldsOf : List GNs → List (Path × Field)
  | [] => []
  | n :: ns => n.idFields ++ idFieldsOf ns
end

/-- The enum of ids: the type it is based on, the enumerators with the texts of their values. Helper of `msgIdEnum`, CommsMsgId.cpp:46-97. -/
structure MsgIdEnum where
  type : CppInt
  values : List (Str × Str)

/-- `std::max_element` by id, CommsMsgId.cpp:110-117 -/
def maxId : List (Path × Message) → Nat
  | [] => 0
  | e :: l => max e.2.id (maxId l)

/-- The `static_cast` to `CommsEnumField`, CommsMsgId.cpp:104-106, 147-149; the type is not set only before the field is parsed. -/
def asEnum (f : Field) : Res (IntF.IntType × EnumF.State) :=
  match f with
  | .enum _ st => match st.num.type with
    | some t => .ok (t, st)
    | none => .ub
  | _ => .ub

/-- `commsTypeInternal`, CommsMsgId.cpp:99-135: `unsigned` (32 bits) or `unsigned long long` (64 bits) if there is not exactly one field for the ids. -/
def msgIdType (n : GNs) : Res CppInt :=
  match n.idFields with
  | [f] => do
    let e ← asEnum f.2
    pure (cppIntType e.1 e.2.num.length)
  | _ => .ok (false, if maxId n.allMessages ≤ 4294967295 then 32 else 64)

/-- The messages of `commsIdsInternal`, CommsMsgId.cpp:163-166; `nss` are the namespaces of the current schema. -/
def msgIdMessages (nss : List GNs) (n : GNs) : List (Path × Message) :=
  if n.sortedMessages.isEmpty && n.name.isEmpty then sortBy msgKeyLt (allMessagesOf nss) else n.sortedMessages

/-- The fields of `commsIdsInternal`, CommsMsgId.cpp:140-143 -/
def msgIdFields (nss : List GNs) (n : GNs) : List (Path × Field) :=
  if n.idFields.isEmpty && n.name.isEmpty then idFieldsOf nss else n.idFields

/-- `commsIdsInternal`, CommsMsgId.cpp:137-174. The prefix is not inserted in the line of a value whose description contains `// ---`; this is left out. -/
def msgIdValues (g : GVer) (nss : List GNs) (n : GNs) : Res (List (Str × Str)) :=
  match msgIdFields nss n with
  | [f] => do
    let e ← asEnum f.2
    let l ← enumerators g e.1 e.2
    pure (l.map fun x => ("MsgId_".toList ++ x.1, x.2))
  | _ => .ok ((msgIdMessages nss n).map fun e => ("MsgId_".toList ++ fullName e.1 e.2.name, numToStringU e.2.id 0))

/-- `commsWrite` of the ids, CommsMsgId.cpp:46-97; it is called for namespaces with interfaces (CommsNamespace.cpp:406-409, 423-426). -/
def msgIdEnum (g : GVer) (nss : List GNs) (n : GNs) : Res MsgIdEnum := do
  let t ← msgIdType n
  let l ← msgIdValues g nss n
  pure { type := t, values := l }

end Commsdsl.Gen
