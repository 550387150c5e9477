import Verif.Model.Protocol
import Verif.Model.GenText
/-!
# The generator's view of the parsed schemas (`lib/src/gen/GenGenerator.cpp`, `GenSchema.cpp`, `GenNamespace.cpp`)

The generator copies the parsed elements into its own tree of namespaces, looks elements up in it by binary search, decides which messages to
generate code for and which elements exist in the supported versions. What the objects do when they are prepared and written is left out.
-/
namespace Commsdsl.Gen
open Commsdsl Text Fld Msg Frm Proto

/-! ## The tree of namespaces -/

/-- `GenNamespaceImpl`, GenNamespace.cpp:553-561, with the path of the namespace. -/
inductive GNs where
  | mk (path : Path) (name : Str) (fields : List Field) (msgs : List Message) (ifaces : List Interface) (frames : List Frame) (subs : List GNs)

/-- GenNamespace.cpp:553-561. -/
def GNs.path : GNs → Path | .mk p _ _ _ _ _ _ => p
/-- `genName`, GenElem.cpp:49-52 -/
def GNs.name : GNs → Str | .mk _ n _ _ _ _ _ => n
/-- GenNamespace.cpp:119-122. -/
def GNs.fields : GNs → List Field | .mk _ _ l _ _ _ _ => l
/-- GenNamespace.cpp:134-137. -/
def GNs.msgs : GNs → List Message | .mk _ _ _ l _ _ _ => l
/-- GenNamespace.cpp:124-127. -/
def GNs.ifaces : GNs → List Interface | .mk _ _ _ _ l _ _ => l
/-- GenNamespace.cpp:139-142. -/
def GNs.frames : GNs → List Frame | .mk _ _ _ _ _ l _ => l
/-- GenNamespace.cpp:114-117. -/
def GNs.subs : GNs → List GNs | .mk _ _ _ _ _ _ l => l

/-- The elements recorded under a path, in the order of the map they are kept in: `parseFields`, `parseMessages`, `parseInterfaces`,
    `parseFrames` of a namespace, ParseNamespaceImpl.cpp:135-215. -/
def elemsAt {α : Type} (nameOf : α → Str) (l : List (Path × α)) (path : Path) : List α :=
  sortBy (fun a b => strLt (nameOf a) (nameOf b)) ((l.filter fun e => e.1 == path).map Prod.snd)

/-- The names of the namespaces in a namespace, in the order of the map: `parseNamespaces`, ParseNamespaceImpl.cpp:128-133. Every namespace is
    recorded once. -/
def subNs (nss : List Path) (path : Path) : List Str :=
  Msg.uniqueAdj (sortBy strLt ((nss.filter fun q => decide (q ≠ []) && q.dropLast == path).map fun q => q.getLast?.getD []))

/-- `genCreateAll` of a namespace, GenNamespace.cpp:71-83, 352-448. `depth` limits the recursion; the namespaces of a schema are not nested deeper than
    the longest path. -/
def buildNs (s : Schema) : Nat → Path → GNs
  | 0, path => .mk path (path.getLast?.getD []) (elemsAt Field.name s.fields path) (elemsAt Message.name s.messages path)
      (elemsAt Interface.name s.ifaces path) (elemsAt Frame.name s.frames path) []
  | depth + 1, path => .mk path (path.getLast?.getD []) (elemsAt Field.name s.fields path) (elemsAt Message.name s.messages path)
      (elemsAt Interface.name s.ifaces path) (elemsAt Frame.name s.frames path)
      ((subNs s.nss path).map fun x => buildNs s depth (path ++ [x]))

/-- The length of the longest path. Modelling device, without code of its own, for the recursion of GenNamespace.cpp:71-83. -/
def nsDepth (nss : List Path) : Nat := (nss.map List.length).foldl max 0

/-- `genCreateAll` of a schema, GenSchema.cpp:266-279: the global namespace, which has an empty name and comes first, and the named ones. -/
def buildSchema (s : Schema) : List GNs :=
  (if s.nss.contains [] then [buildNs s 0 []] else []) ++ (subNs s.nss []).map fun x => buildNs s (nsDepth s.nss) [x]

/-! ## Finding elements -/

/-- `std::lower_bound` as the usual libraries implement it: `first` and `len` describe the range that is left, `less` says whether an element comes
    before the value. The result is an index; an index past the end is `end()`. Helper of `findByName`, GenNamespace.cpp:680-693, 698-709. -/
def lowerBound {α : Type} (less : α → Bool) (l : List α) : Nat → Nat → Nat → Nat
  | 0, first, _ => first
  | fuel + 1, first, len =>
    if len = 0 then first
    else match l[first + len / 2]? with
    | none => first
    | some x => if less x then lowerBound less l fuel (first + len / 2 + 1) (len - len / 2 - 1) else lowerBound less l fuel first (len / 2)

/-- The search by name in all the `genFind...`: GenNamespace.cpp:680-693, 698-709, GenSchema.cpp:114-127 -/
def findByName {α : Type} (nameOf : α → Str) (l : List α) (n : Str) : Option α :=
  match l[lowerBound (fun x => strLt (nameOf x) n) l l.length 0 l.length]? with
  | none => none
  | some x => if nameOf x == n then some x else none

/-- The text before the first dot (empty without one), and the text after it (all of it without one): GenSchema.cpp:107-112, 129-133 -/
def splitRef (ref : Str) : Str × Str :=
  if ref.contains '.' then (ref.takeWhile (· != '.'), (ref.dropWhile (· != '.')).drop 1) else ([], ref)

/-- `genFindField`, `genGindMessage`, `genFindFrame`, `genFindInterface` of a namespace, GenNamespace.cpp:671-857; `adj` is what is done to the name
    that is left before the search, and `fuel` is more than the length of the reference. -/
def GNs.find {α : Type} (nameOf : α → Str) (coll : GNs → List α) (adj : Str → Str) : Nat → GNs → Str → Option α
  | 0, _, _ => none
  | fuel + 1, ns, ref =>
    if (splitRef ref).1.isEmpty then findByName nameOf (coll ns) (adj ref)
    else (findByName GNs.name ns.subs (splitRef ref).1).bind fun sub => sub.find nameOf coll adj fuel (splitRef ref).2

/-- `genFindField`, `genGindMessage`, `genFindFrame`, `genFindInterface` of a schema, GenSchema.cpp:107-261 -/
def findIn {α : Type} (nameOf : α → Str) (coll : GNs → List α) (adj : Str → Str) (nss : List GNs) (ref : Str) : Option α :=
  (findByName GNs.name nss (splitRef ref).1).bind fun ns => ns.find nameOf coll adj (ref.length + 1) (splitRef ref).2

/-- `genAdjustedName`, GenInterface.cpp:202-210, and the same for references, GenNamespace.cpp:822; `genMessageClassStr()` is `Message`. -/
def orMessage (n : Str) : Str := if n.isEmpty then "Message".toList else n

/-- The schemas of the generator and the current one: GenGenerator.cpp:667-676. -/
structure Gen where
  schemas : List Schema
  curr : Nat

/-- `genParseExternalRef`, GenGenerator.cpp:515-547 -/
def Gen.externalRef (g : Gen) (ref : Str) : Option Schema × Str :=
  match ref with
  | '@' :: r =>
    if r.contains '.' then (g.schemas.find? (fun s => s.name == r.takeWhile (· != '.')), (r.dropWhile (· != '.')).drop 1)
    else (g.schemas.find? (fun s => s.name == r), [])
  | _ => (g.schemas[g.curr]?, ref)

/-- `genFindField`, `genGindMessage`, `genFindFrame` of the generator, GenGenerator.cpp:302-354; `none` is the null pointer. -/
def Gen.find {α : Type} (g : Gen) (nameOf : α → Str) (coll : GNs → List α) (adj : Str → Str) (ref : Str) : Option α :=
  match g.externalRef ref with
  | (none, _) => none
  | (some s, rest) => if rest.isEmpty then none else findIn nameOf coll adj (buildSchema s) rest

/-- `genFindField(ref)`, GenGenerator.cpp:302-311 -/
def Gen.findField (g : Gen) (ref : Str) : Option Field := g.find Field.name GNs.fields id ref
/-- `genGindMessage(ref)`, GenGenerator.cpp:324-333 -/
def Gen.findMessage (g : Gen) (ref : Str) : Option Message := g.find Message.name GNs.msgs id ref
/-- `genFindFrame(ref)`, GenGenerator.cpp:346-355 -/
def Gen.findFrame (g : Gen) (ref : Str) : Option Frame := g.find Frame.name GNs.frames id ref

/-- `genFindInterface` of the generator, GenGenerator.cpp:356-369 -/
def Gen.findInterface (g : Gen) (ref : Str) : Option Interface :=
  if ref.isEmpty then
    (g.schemas[g.curr]?).bind fun s => findIn (fun i : Interface => orMessage i.name) GNs.ifaces orMessage (buildSchema s) []
  else g.find (fun i : Interface => orMessage i.name) GNs.ifaces orMessage ref

/-- `genFindField` that may change the field, GenGenerator.cpp:874-890 with GenSchema.cpp:568-584: the pointer found is used without a check. The
    preparation of the field is left out. -/
def Gen.useField (g : Gen) (ref : Str) : Res Field := match g.findField ref with
  | none => .ub
  | some f => .ok f

/-! ## All messages, and the messages that are generated -/

mutual
/-- `genGetAllMessages` of a namespace, GenNamespace.cpp:889-904, with the path of each message. -/
def GNs.allMessages : GNs → List (Path × Message)
  | .mk p _ _ ms _ _ subs => allMessagesOf subs ++ ms.map fun m => (p, m)
/-- `genGetAllMessages` of a schema, GenSchema.cpp:644-652 -/
def allMessagesOf : List GNs → List (Path × Message)
  | [] => []
  | n :: ns => n.allMessages ++ allMessagesOf ns
end

/-- A message of the generator: index of the schema, path, name. Helper of `referenceAll`, GenGenerator.cpp:500-505. -/
abbrev MsgKey := Nat × Path × Str

/-- `genReferenceAllMessages`, GenGenerator.cpp:500-505, GenSchema.cpp:468-473, GenNamespace.cpp:191-196: the messages marked as referenced. -/
def referenceAll : Nat → List Schema → List MsgKey
  | _, [] => []
  | i, s :: ss => (buildSchema s).flatMap (fun n => n.msgs.map fun m => (i, n.path, m.name)) ++ referenceAll (i + 1) ss

/-- A message supports the platform, GenGenerator.cpp:647-653 -/
def supports (plat : Str) (m : Message) : Bool := m.platforms.isEmpty || m.platforms.contains plat

/-- The loop of `genProcessForcedPlatformInternal`, GenGenerator.cpp:638-658: whether the platform was found, and the messages marked. -/
def platformLoop (plat : Str) : Nat → List Schema → Bool × List MsgKey
  | _, [] => (false, [])
  | i, s :: ss =>
    let rest := platformLoop plat (i + 1) ss
    let ms := allMessagesOf (buildSchema s)
    if s.platforms.contains plat then
      (!ms.isEmpty || rest.1, (ms.filter fun m => supports plat m.2).map (fun m => (i, m.1, m.2.name)) ++ rest.2)
    else rest

/-- `genProcessForcedPlatformInternal`, GenGenerator.cpp:633-666 -/
def processPlatform (ss : List Schema) (plat : Str) : Res (List MsgKey) :=
  let r := platformLoop plat 0 ss
  if r.1 then .ok r.2 else .err

/-- The message a reference finds, with its place: what `genGindMessage`, GenGenerator.cpp:324-344, 897-913, GenSchema.cpp:591-607, returns. A message is
    not prepared before it is marked, so that preparing it does nothing; for a second mention of a message this is a simplification. -/
def Gen.findMessageKey (g : Gen) (ref : Str) : Option MsgKey :=
  let si := match ref with
    | '@' :: r => (g.schemas.findIdx? (fun s => s.name == r.takeWhile (· != '.'))).getD 0
    | _ => g.curr
  let rest := (g.externalRef ref).2
  (g.findMessage ref).map fun m => (si, (dotSplit rest).dropLast, m.name)

/-- The loop over the lines of the file, GenGenerator.cpp:616-628. `genGindMessage` uses the pointer of the schema without a check, unless there is no
    such schema or no name. -/
def listLoop (g : Gen) : List Str → Res (List MsgKey)
  | [] => .ok []
  | l :: ls =>
    match g.findMessageKey l with
    | some k => do
      let r ← listLoop g ls
      pure (k :: r)
    | none => if (g.externalRef l).1.isNone || (g.externalRef l).2.isEmpty then .err else .ub

/-- The contents of the file split into lines; `splitByAnyChar` has no other failure than a lack of fuel. Helper of `referenceRequested`, GenGenerator.cpp:585-606. -/
def listLines (contents : Str) : List Str := (splitByAnyChar contents "\n\r".toList true).getD []

/-- `genReferenceRequestedMessagesInternal`, GenGenerator.cpp:585-606 with 608-631: `list` is the contents of the file of messages, if one was given and
    could be opened; the current schema is the last one. -/
def referenceRequested (ss : List Schema) (list : Option Str) (plat : Str) : Res (List MsgKey) :=
  match list with
  | none => if plat.isEmpty then .ok (referenceAll 0 ss) else processPlatform ss plat
  | some c => if plat.isEmpty then listLoop ⟨ss, ss.length - 1⟩ (listLines c) else .err

/-! ## Versions -/

/-- What the generator knows about versions: GenSchema.cpp:509-518. `forced` is -1 if no version was forced. -/
structure GVer where
  parsed : Nat
  forced : Int := -1
  minRemote : Nat := 0
  versionDependent : Bool := false

/-- `genForceSchemaVersion`, GenGenerator.cpp:141-144, 424-427, GenSchema.cpp:384-387: the value is kept as `int`, and only if it is not negative then. -/
def forceVersion (v : GVer) (value : Nat) : GVer :=
  if 0 ≤ castI32 value then { v with forced := castI32 value } else v

/-- `genSchemaVersion`, GenSchema.cpp:98-105 -/
def GVer.version (v : GVer) : Nat := if 0 ≤ v.forced then v.forced.toNat else v.parsed

/-- The check of the forced version in `genPrepare`, GenSchema.cpp:291-296 -/
def GVer.prepareOk (v : GVer) : Bool := !(decide (0 ≤ v.forced) && decide (v.parsed < v.forced.toNat))

/-- `genDoesElementExist`, GenSchema.cpp:424-438 -/
def doesExist (v : GVer) (since depr : Nat) (removed : Bool) : Bool :=
  if v.version < since then false
  else if removed && decide (depr ≤ v.minRemote) then false
  else true

/-- `genIsElementOptional`, GenSchema.cpp:440-454 -/
def isOptional (v : GVer) (since depr : Nat) (removed : Bool) : Bool :=
  if v.minRemote < since then true
  else if removed && decide (depr < Versions.notYet) then true
  else false

/-- `genIsElementDeprecated`, GenSchema.cpp:786-789 -/
def isDeprecated (v : GVer) (depr : Nat) : Bool := decide (depr < v.version)

/-- The places of a field, from the field outwards: `genSinceVersionOf` looks at messages and fields, comms.cpp:1068-1083. -/
inductive Place where
  | other
  | message (since : Nat)
  | field (since : Nat) (parent : Place)

/-- `genSinceVersionOf`, comms.cpp:1067-1082 -/
def Place.since : Place → Nat
  | .other => 0
  | .message n => n
  | .field n p => max p.since n

/-- `genIsVersionOptionalField`, comms.cpp:1036-1065 -/
def isVersionOptional (v : GVer) (parent : Place) (since depr : Nat) (removed : Bool) : Bool :=
  if !v.versionDependent then false
  else if !isOptional v since depr removed then false
  else if parent.since < since then true
  else if decide (depr < Versions.notYet) && removed then true
  else false

end Commsdsl.Gen
