import Verif.Model.Value
/-!
# Messages and interfaces (`lib/src/parse/ParseMessageImpl.cpp`, `lib/src/parse/ParseInterfaceImpl.cpp`)
-/
namespace Commsdsl

mutual
/-- Depth of a document, used to run `parseField` on it. Modelling device, without code of its own, for the recursion of ParseFieldImpl.cpp:69-158. -/
def Xml.depth : Xml → Nat
  | .elem _ _ cs => Xml.depths cs + 1
  | .text _ => 1
  | .other => 1
/-- Greatest depth in a list. Modelling device, without code of its own, for the recursion of ParseFieldImpl.cpp:69-158. -/
def Xml.depths : List Xml → Nat
  | [] => 0
  | c :: cs => max c.depth (Xml.depths cs)
end

namespace Msg
open Commsdsl Text Fld

/-- `ParseFieldImpl::parseCreate` and `parse` on an element, ParseFieldImpl.cpp:52-158. The depth of the document is enough for the recursion. -/
def fieldOf (env : FEnv) (parent : ParentInfo) (node : Xml) : Res Field := parseField env node.depth parent node

/-- `ParseMessage::ParseSender`, include/commsdsl/parse/ParseMessage.h -/
inductive Sender where
  | both | client | server
  deriving DecidableEq, Repr

/-- `ParseMessageImpl::ParseReusableState`, ParseMessageImpl.h:179-202, with the versions of `ParseObject`. The `*Override` values are left out:
    nothing in the parser depends on them. -/
structure Message where
  name : Str := []
  displayName : Str := []
  description : Str := []
  id : Nat := 0
  order : Nat := 0
  validateMinLength : Int := -1
  fields : List Field := []
  aliases : List Alias := []
  platforms : List Str := []
  sender : Sender := .both
  copyCodeFrom : Str := []
  construct : Option CondM.Cond := none
  readCond : Option CondM.Cond := none
  validCond : Option CondM.Cond := none
  customizable : Bool := false
  failOnInvalid : Bool := false
  w : Versions.Window := {}

/-- `ParseInterfaceImpl::ParseReusableState`, ParseInterfaceImpl.h -/
structure Interface where
  name : Str := []
  description : Str := []
  fields : List Field := []
  aliases : List Alias := []
  copyCodeFrom : Str := []

/-- What parsing a message or an interface needs from the protocol: `findMessage` is `parseFindMessage`, `findInterface` is `parseFindInterface`
    (ParseProtocolImpl.cpp:222-260), `platforms` is `parseCurrSchema().parsePlatforms()`. -/
structure MEnv where
  fld : FEnv
  findMessage : Str → Option Message := fun _ => none
  findInterface : Str → Option Interface := fun _ => none
  platforms : List Str := []

/-- DSL version of the current schema. Helper of `reuseExtras`, ParseMessageImpl.cpp:446-482. -/
abbrev MEnv.dsl (e : MEnv) : Nat := e.fld.dsl

/-- `ParseMessageImpl::parseMinLength`, ParseMessageImpl.cpp:155-168; fields the message does not have in its first version do not count.
    `std::size_t` arithmetic. -/
def minSum (since : Nat) : List Field → Res Nat
  | [] => .ok 0
  | f :: fs => do
    let r ← minSum since fs
    if since < f.since then pure r
    else do
      let n ← minLength f
      pure ((n + r) % 18446744073709551616)

/-- `ParseMessageImpl::parseMinLength`, ParseMessageImpl.cpp:155-168 -/
def Message.minLength (m : Message) : Res Nat := minSum m.w.since m.fields

/-- The loop of `ParseMessageImpl::parseMaxLength`, ParseMessageImpl.cpp:170-177 -/
def maxTotal : List Field → Nat → Res Nat
  | [], sum => .ok sum
  | f :: fs, sum => do
    let a ← maxLength f
    maxTotal fs (Length.add a sum)

/-- `ParseMessageImpl::parseMaxLength`, ParseMessageImpl.cpp:170-177 -/
def Message.maxLength (m : Message) : Res Nat := maxTotal m.fields 0

/-! ## Properties -/

/-- `parseCommonProps`, ParseMessageImpl.cpp:342-378 -/
def msgCommonProps : List Str := [
  "name".toList, "id".toList, "displayName".toList, "description".toList, "sinceVersion".toList, "deprecated".toList, "removed".toList,
  "copyFieldsFrom".toList, "copyFieldsAliases".toList, "order".toList, "platforms".toList, "customizable".toList, "sender".toList,
  "validateMinLength".toList, "readOverride".toList, "writeOverride".toList, "refreshOverride".toList, "lengthOverride".toList,
  "validOverride".toList, "nameOverride".toList, "copyCodeFrom".toList, "constructAsReadCond".toList, "constructAsValidCond".toList,
  "failOnInvalid".toList, "reuse".toList, "reuseCode".toList, "reuseAliases".toList, "copyConstructFrom".toList,
  "copyReadCondFrom".toList, "copyValidCondFrom".toList]

/-- `parseExtraProps`, ParseMessageImpl.cpp:380-389 -/
def msgExtraProps : List Str := ["construct".toList, "readCond".toList, "validCond".toList]

/-- Collecting the properties, ParseMessageImpl.cpp:86-97 -/
def msgProps (node : Xml) : Option Props := do
  let p ← childrenAsProps node msgCommonProps (nodeProps node)
  childrenAsProps node msgExtraProps p false

/-- `reuseAliases` and `reuseCode` on the state copied from `src`, ParseMessageImpl.cpp:446-482, ParseInterfaceImpl.cpp:328-364: the aliases and
    the `copyCodeFrom` of the new object. -/
def reuseExtras (dsl : Nat) (props : Props) (src : Str) (al : List Alias) : Res (List Alias × Str) := do
  let b ← IntF.updateBool dsl props "reuseAliases".toList true
  let c ← IntF.updateBool dsl props "reuseCode".toList false
  pure (if b then al else [], if c then src else [])

/-- `parseCheckReuse`, ParseMessageImpl.cpp:415-483. The fields are cloned (ParseMessageImpl.h:241-270). -/
def msgReuse (env : MEnv) (props : Props) : Res Message :=
  if !props.validateSingle "reuse".toList then .err
  else match props.find "reuse".toList with
  | none => .ok {}
  | some s =>
    if !Dsl.isSupported env.dsl .messageReuse then .ok {}
    else match env.findMessage s with
    | none => .err
    | some m => do
      let x ← reuseExtras env.dsl props s m.aliases
      pure { m with fields := cloneAll m.fields, aliases := x.1, copyCodeFrom := x.2 }

/-- `parseUpdateName`, ParseMessageImpl.cpp:485-499, ParseInterfaceImpl.cpp:368-381 -/
def nameProp (props : Props) (cur : Str) : Res Str :=
  if !props.validateSingle "name".toList cur.isEmpty then .err
  else
    let n := (props.find "name".toList).getD cur
    if isValidName n then .ok n else .err

/-- `parseUpdateId`, ParseMessageImpl.cpp:511-532 -/
def msgId (env : MEnv) (props : Props) : Res Nat :=
  if !props.validateSingle "id".toList true then .err
  else
    let s := props.getStr "id".toList
    match env.fld.strToEnum s with
    | some v => .ok (castU64 v)
    | none => Res.ofOption (strToUintMax s)

/-- `parseUpdateOrder`, ParseMessageImpl.cpp:534-554 -/
def msgOrder (props : Props) (cur : Nat) : Res Nat :=
  if !props.validateSingle "order".toList then .err
  else match props.find "order".toList with
  | none => .ok cur
  | some s => Res.ofOption (strToUnsigned s)

/-! ## Platforms -/

/-- `operator<` of `std::string`. Helper of `knownPlatform`, ParseMessageImpl.cpp:664-669. -/
def strLt : Str → Str → Bool := lexLt fun a b => decide (a < b)

/-- The loop of `parseUpdatePlatforms` that splits at commas, ParseMessageImpl.cpp:635-649; `cur` is the token so far (reversed), if there is one. -/
def splitPlatforms : Option Str → Str → List Str
  | none, [] => []
  | some t, [] => [t.reverse]
  | cur, c :: cs =>
    if c = ',' then (cur.getD []).reverse :: splitPlatforms none cs
    else splitPlatforms (some (c :: cur.getD [])) cs

/-- `std::lower_bound` finds the platform, ParseMessageImpl.cpp:664-669 -/
def knownPlatform (all : List Str) (p : Str) : Bool := all.find? (fun q => !strLt q p) == some p

/-- `std::unique`. Helper of `platformList`, ParseMessageImpl.cpp:651-678. -/
def uniqueAdj : List Str → List Str
  | [] => []
  | [a] => [a]
  | a :: b :: r => if a = b then uniqueAdj (b :: r) else a :: uniqueAdj (b :: r)

/-- `std::set_difference`. Helper of `msgPlatforms`, ParseMessageImpl.cpp:610-697. -/
def setDiff : List Str → List Str → List Str
  | [], _ => []
  | a :: as, [] => a :: as
  | a :: as, b :: bs =>
    if strLt a b then a :: setDiff as (b :: bs)
    else if strLt b a then setDiff (a :: as) bs
    else setDiff as bs
termination_by a b => a.length + b.length

/-- The list of a `platforms` property: trimmed, known, sorted, ParseMessageImpl.cpp:651-678 -/
def platformList (all : List Str) (rest : Str) : Res (List Str) :=
  let l := (splitPlatforms none rest).map trim
  if l.isEmpty then .err
  else if l.any fun p => p.isEmpty || !knownPlatform all p then .err
  else .ok (uniqueAdj (sortBy strLt l))

/-- `parseUpdatePlatforms`, ParseMessageImpl.cpp:610-697. The `assert(m_state.m_platforms.empty())` at 618 is not there in release builds. -/
def msgPlatforms (all : List Str) (props : Props) (cur : List Str) : Res (List Str) :=
  if !props.validateSingle "platforms".toList then .err
  else match props.find "platforms".toList with
  | none => .ok cur
  | some ('+' :: rest) => platformList all rest
  | some ('-' :: rest) => do
    let l ← platformList all rest
    let r := cur ++ setDiff all l
    if r.isEmpty then .err else pure r
  | some _ => .err

/-! ## Other properties -/

/-- `parseUpdateSender`, ParseMessageImpl.cpp:704-733 -/
def msgSender (props : Props) (cur : Sender) : Res Sender :=
  if !props.validateSingle "sender".toList then .err
  else match props.find "sender".toList with
  | none => .ok cur
  | some s =>
    let l := toLower s
    if l = "both".toList then .ok .both
    else if l = "client".toList then .ok .client
    else if l = "server".toList then .ok .server
    else .err

/-- `parseUpdateValidateMinLength`, ParseMessageImpl.cpp:735-760 -/
def msgMinLen (dsl : Nat) (props : Props) (cur : Int) : Res Int :=
  if !props.validateSingle "validateMinLength".toList then .err
  else match props.find "validateMinLength".toList with
  | none => .ok cur
  | some s =>
    if !Dsl.propertySupported dsl "validateMinLength".toList then .ok cur
    else match strToUnsigned s with
    | none => .err
    | some v => .ok (castI32 v)

/-- `parseUpdateFailOnInvalid`, ParseMessageImpl.cpp:762-777 -/
def msgFailOnInvalid (dsl : Nat) (props : Props) (cur : Bool) : Res Bool := do
  let b ← IntF.updateBool dsl props "failOnInvalid".toList cur
  pure (b && Dsl.isSupported dsl .failOnInvalidInMessage)

/-- From `parseUpdateName` to `parseUpdateFailOnInvalid`, ParseMessageImpl.cpp:762-777 -/
def msgHead (env : MEnv) (props : Props) (m : Message) : Res Message := do
  let name ← nameProp props m.name
  let disp ← derefProp env.fld props "displayName".toList m.displayName
  let descr ← derefProp env.fld props "description".toList m.description
  let id ← msgId env props
  let order ← msgOrder props m.order
  let w ← Res.ofOption (Versions.messageVersions env.fld.int.schemaVersion props)
  let pl ← msgPlatforms env.platforms props m.platforms
  let cust ← IntF.updateBool env.dsl props "customizable".toList m.customizable
  let sender ← msgSender props m.sender
  let ml ← msgMinLen env.dsl props m.validateMinLength
  let foi ← msgFailOnInvalid env.dsl props m.failOnInvalid
  pure { m with
    name := name, displayName := disp, description := descr, id := id, order := order, w := w, platforms := pl,
    customizable := cust, sender := sender, validateMinLength := ml, failOnInvalid := foi }

/-! ## Fields -/

/-- The fields and aliases to copy. Helper of `bundleSource`, ParseMessageImpl.cpp:809-818. -/
abbrev Source := List Field × List Alias

/-- A bundle as source, ParseMessageImpl.cpp:809-818 -/
def bundleSource (env : FEnv) (s : Str) : Res (Option Source) :=
  match env.findField s with
  | some (.bundle _ ms al _) => .ok (some (ms, al))
  | _ => .err

/-- `copyFieldsFrom`, ParseMessageImpl.cpp:780-818, ParseInterfaceImpl.cpp:388-428; `find` looks for a message or an interface, `cur` are the
    fields so far. -/
def copySource (env : FEnv) (find : Str → Option Source) (props : Props) (cur : List Field) : Res (Option Source) :=
  if !props.validateSingle "copyFieldsFrom".toList then .err
  else match props.find "copyFieldsFrom".toList with
  | none => .ok none
  | some s =>
    if !cur.isEmpty then .err
    else match find s with
    | some x => .ok (some x)
    | none => if Dsl.isSupported env.dsl .copyFieldsFromBundle then bundleSource env s else .err

/-- The fields of a message after `parseCopyFields`, ParseMessageImpl.cpp:779-837 -/
def msgCopied (since : Nat) (src : Option Source) (cur : List Field) : List Field :=
  match src with
  | none => cur
  | some x => keepMembers since (cloneAll x.1)

/-- `parseReplaceFields`, ParseMessageImpl.cpp:839-914; `pc` parses a field with the message as parent. The number of fields in `<replace>` is
    compared with the number of `<replace>` elements, so that exactly one field can be replaced. -/
def msgReplace (env : FEnv) (pc : Xml → Res Field) (node : Xml) (fs : List Field) : Res (List Field) :=
  match getChildren node ["replace".toList] with
  | [] => .ok fs
  | [r] =>
    if !Dsl.isSupported env.dsl .memberReplace then .ok fs
    else match getChildren r fieldTypes with
    | [n] => do
      let f ← pc n
      let ok ← verifySiblings env fs f
      Res.check ok
      Res.ofOption (replaceFirst f fs)
    | _ => .err
  | _ => .err

/-- The nodes of the new fields, ParseMessageImpl.cpp:986-1034, ParseInterfaceImpl.cpp:433-478; `ok none` if there are neither `<fields>` nor fields. -/
def fieldNodes (node : Xml) : Res (Option (List Xml)) :=
  let fs := getChildren node ["fields".toList]
  let direct := getChildren node fieldTypes
  if 1 < fs.length then .err
  else if !fs.isEmpty && !direct.isEmpty then .err
  else match fs with
  | [] =>
    if direct.isEmpty then .ok none
    else if (getChildren node).length ≠ direct.length then .err
    else .ok (some direct)
  | f :: _ =>
    if (getChildren f fieldTypes).length ≠ (getChildren f).length then .err
    else .ok (some (getChildren f))

/-- The loop over the nodes, ParseMessageImpl.cpp:1036-1058, ParseInterfaceImpl.cpp:480-502 -/
def addFields (env : FEnv) (pc : Xml → Res Field) : List Xml → List Field → Res (List Field)
  | [], acc => .ok acc
  | n :: ns, acc => do
    let f ← pc n
    let ok ← verifySiblings env acc f
    Res.check ok
    addFields env pc ns (acc ++ [f])

/-- The check of `validateMinLength`, ParseMessageImpl.cpp:1064-1073 -/
def checkMinLen (since : Nat) (ml : Int) (fs : List Field) : Res Unit :=
  if ml < 0 then .ok ()
  else do
    let len ← minSum since fs
    Res.check (decide (castU32 ml = len))

/-- `parseUpdateFields`, ParseMessageImpl.cpp:984-1075 -/
def msgFields (env : FEnv) (pc : Xml → Res Field) (node : Xml) (m : Message) (fs : List Field) : Res (List Field) := do
  let ns ← fieldNodes node
  match ns with
  | none => pure fs
  | some ns => do
    let all ← addFields env pc ns fs
    Res.check (validateNames [] all)
    checkMinLen m.w.since m.validateMinLength all
    pure all

/-! ## Aliases -/

/-- Aliases whose whole path is the name of a field, ParseMessageImpl.cpp:961-979, ParseInterfaceImpl.cpp:573-592 -/
def knownAliases (fs : List Field) (al : List Alias) : List Alias := al.filter fun a => fs.any fun f => a.fieldName == f.name

/-- The decision at the beginning of `parseCopyAliases`: `ok true` to go on, ParseMessageImpl.cpp:916-951, ParseInterfaceImpl.cpp:521-561 -/
def wantAliases (dsl : Nat) (props : Props) (hasSource : Bool) : Res Bool :=
  if !props.validateSingle "copyFieldsAliases".toList then .err
  else match props.find "copyFieldsAliases".toList with
  | none => .ok (Dsl.isSupported dsl .fieldAlias)
  | some s =>
    if !Dsl.isSupported dsl .fieldAlias then .err
    else match strToBool s with
    | none => .err
    | some b => .ok (b && hasSource)

/-- `parseCopyAliases`, ParseMessageImpl.cpp:916-982 -/
def msgCopyAliases (dsl : Nat) (props : Props) (src : Option Source) (fs : List Field) (al : List Alias) : Res (List Alias) := do
  let want ← wantAliases dsl props src.isSome
  if want then pure (knownAliases fs (al ++ (src.map Prod.snd).getD [])) else pure al

/-- `parseUpdateAliases`, ParseMessageImpl.cpp:1077-1115, ParseInterfaceImpl.cpp:627-670 -/
def addAliases (env : FEnv) (node : Xml) (fs : List Field) (al : List Alias) : Res (List Alias) :=
  match getChildren node ["alias".toList] with
  | [] => .ok al
  | n :: ns => if !Dsl.isSupported env.dsl .fieldAlias then .err else newAliases env fs (n :: ns) al

/-! ## Conditions -/

/-- `parseUpdateCopyOverrideCodeFrom`, ParseMessageImpl.cpp:1179-1207 -/
def msgCopyCode (env : MEnv) (props : Props) (cur : Str) : Res Str :=
  if !props.validateSingle "copyCodeFrom".toList then .err
  else match props.find "copyCodeFrom".toList with
  | none => .ok cur
  | some s =>
    if !Dsl.propertySupported env.dsl "copyCodeFrom".toList then .ok cur
    else if (env.findMessage s).isNone then .err
    else .ok s

/-- A condition copied from elsewhere; `find` gives the conditions of the referenced element, if it exists: `parseCopyConstruct`,
    `parseCopyReadCond`, `parseCopyValidCond`, ParseMessageImpl.cpp:1295-1363 -/
def copyCond (env : MEnv) (key : Str) (find : Str → Option (Option CondM.Cond)) (fs : List Field) (props : Props) (cur : Option CondM.Cond) :
    Res (Option CondM.Cond) :=
  if !props.validateSingle key then .err
  else match props.find key with
  | none => .ok cur
  | some s =>
    if !Dsl.propertySupported env.dsl key then .ok cur
    else match find s with
    | some (some c) => verified env.fld fs c
    | _ => .err

/-- Where `copyValidCondFrom` looks, ParseMessageImpl.cpp:1329-1362 -/
def validCondOf (env : MEnv) (s : Str) : Option (Option CondM.Cond) :=
  match env.findMessage s with
  | some m => some m.validCond
  | none => match env.fld.findField s with
    | some (.bundle _ _ _ c) => some c
    | _ => none

/-- `parseUpdateSingleCondInternal`, ParseMessageImpl.cpp:1461-1496 -/
def singleCond (env : MEnv) (key : Str) (fs : List Field) (props : Props) (cur : Option CondM.Cond) : Res (Option CondM.Cond) :=
  if !props.validateSingle key then .err
  else match props.find key with
  | none => .ok cur
  | some s =>
    if !Dsl.propertySupported env.dsl key then .ok cur
    else do
      let e ← CondM.parseExpr env.dsl s
      verified env.fld fs (.expr e)

/-- `parseUpdateMultiCondInternal`, ParseMessageImpl.cpp:1498-1555 -/
def multiCond (env : MEnv) (key : Str) (node : Xml) (fs : List Field) (props : Props) (cur : Option CondM.Cond) : Res (Option CondM.Cond) :=
  match getChildren node [key] true with
  | [] => .ok cur
  | n :: ns =>
    if !Dsl.propertySupported env.dsl key then .ok cur
    else match ns, getChildren n ["and".toList, "or".toList] with
    | [], [c] =>
      if (props.find key).isSome then .err
      else do
        let cond ← CondM.parseList env.dsl key c
        verified env.fld fs cond
    | _, _ => .err

mutual
/-- `parseVerifyConstructInternal`, ParseMessageImpl.cpp:47-78 -/
def constructOk : CondM.Cond → Bool
  | .expr e => e.left.isEmpty || e.op == "=".toList
  | .list t cs => t == .and && !cs.isEmpty && constructsOk cs
/-- `std::all_of`. Helper of `constructOk`, ParseMessageImpl.cpp:47-78. -/
def constructsOk : List CondM.Cond → Bool
  | [] => true
  | c :: cs => constructOk c && constructsOk cs
end

/-- A construct condition must be usable for construction, ParseMessageImpl.cpp:1370-1380, 1389-1400 -/
def checkConstruct (c : Option CondM.Cond) : Res Unit :=
  match c with
  | none => .ok ()
  | some c => Res.check (constructOk c)

/-- `parseCopyCondInternal`, ParseMessageImpl.cpp:1557-1606 -/
def constructAs (dsl : Nat) (key : Str) (props : Props) (src cur : Option CondM.Cond) : Res (Option CondM.Cond) :=
  if !props.validateSingle key then .err
  else match props.find key with
  | none => .ok cur
  | some s =>
    if !Dsl.propertySupported dsl key then .ok cur
    else match strToBool s with
    | none => .err
    | some false => .ok cur
    | some true => if src.isNone || cur.isSome then .err else .ok src

/-- The three conditions. Helper of `msgConds`, ParseMessageImpl.cpp:1437-1446. -/
structure Conds where
  construct : Option CondM.Cond
  readCond : Option CondM.Cond
  validCond : Option CondM.Cond

/-- From `parseCopyConstruct` to `parseCopyConstructToValidCond`, ParseMessageImpl.cpp:1437-1446; only `validCond` sees the fields. -/
def msgConds (env : MEnv) (node : Xml) (props : Props) (fs : List Field) (c : Conds) : Res Conds := do
  let con ← copyCond env "copyConstructFrom".toList (fun s => (env.findMessage s).map (·.construct)) [] props c.construct
  let rd ← copyCond env "copyReadCondFrom".toList (fun s => (env.findMessage s).map (·.readCond)) [] props c.readCond
  let va ← copyCond env "copyValidCondFrom".toList (validCondOf env) fs props c.validCond
  let con ← singleCond env "construct".toList [] props con
  checkConstruct con
  let con ← multiCond env "construct".toList node [] props con
  checkConstruct con
  let rd ← singleCond env "readCond".toList [] props rd
  let rd ← multiCond env "readCond".toList node [] props rd
  let va ← singleCond env "validCond".toList fs props va
  let va ← multiCond env "validCond".toList node fs props va
  let rd ← constructAs env.dsl "constructAsReadCond".toList props con rd
  let va ← constructAs env.dsl "constructAsValidCond".toList props con va
  pure ⟨con, rd, va⟩

/-- The `*Override` properties of messages, ParseMessageImpl.cpp:116-121 -/
def msgOverrides : List Str := [
  "readOverride".toList, "writeOverride".toList, "refreshOverride".toList, "lengthOverride".toList, "validOverride".toList,
  "nameOverride".toList]

/-- From `parseCopyFields` to `parseUpdateFields`, ParseMessageImpl.cpp:984-1075: the source of copies and the fields. -/
def msgBody (env : MEnv) (node : Xml) (props : Props) (m : Message) : Res (Option Source × List Field) := do
  let pc := fieldOf env.fld (.message m.w.since m.w.depr)
  let src ← copySource env.fld (fun s => (env.findMessage s).map fun x => (x.fields, x.aliases)) props m.fields
  let fs ← msgReplace env.fld pc node (msgCopied m.w.since src m.fields)
  let fs ← msgFields env.fld pc node m fs
  pure (src, fs)

/-- `ParseMessageImpl::parse`, ParseMessageImpl.cpp:88-138 -/
def parseMessage (env : MEnv) (node : Xml) : Res Message := do
  let props ← Res.ofOption (msgProps node)
  let m ← msgReuse env props
  let m ← msgHead env props m
  let b ← msgBody env node props m
  let al ← msgCopyAliases env.dsl props b.1 b.2 m.aliases
  let al ← addAliases env.fld node b.2 al
  Res.check (msgOverrides.all (overrideOk env.dsl props))
  let code ← msgCopyCode env props m.copyCodeFrom
  let c ← msgConds env node props b.2 ⟨m.construct, m.readCond, m.validCond⟩
  pure { m with
    fields := b.2, aliases := al, copyCodeFrom := code, construct := c.construct, readCond := c.readCond, validCond := c.validCond }

/-! ## Interfaces -/

/-- `parseCommonProps`, ParseInterfaceImpl.cpp:283-296 -/
def ifaceProps : List Str := [
  "name".toList, "description".toList, "copyFieldsFrom".toList, "copyFieldsAliases".toList, "reuse".toList, "reuseCode".toList,
  "reuseAliases".toList]

/-- `parseCheckReuse`, ParseInterfaceImpl.cpp:308-375 -/
def ifaceReuse (env : MEnv) (props : Props) : Res Interface :=
  if !props.validateSingle "reuse".toList then .err
  else match props.find "reuse".toList with
  | none => .ok {}
  | some s =>
    if !Dsl.isSupported env.dsl .interfaceReuse then .ok {}
    else match env.findInterface s with
    | none => .err
    | some m => do
      let x ← reuseExtras env.dsl props s m.aliases
      pure { m with fields := cloneAll m.fields, aliases := x.1, copyCodeFrom := x.2 }

/-- The fields of an interface after `parseCopyFields`, ParseInterfaceImpl.cpp:398-440: copies as they are. -/
def ifaceCopied (src : Option Source) (cur : List Field) : List Field :=
  match src with
  | none => cur
  | some x => cloneAll x.1

/-- `parseUpdateFields`, ParseInterfaceImpl.cpp:442-523; the parent is an interface, without versions. -/
def ifaceFields (env : FEnv) (node : Xml) (fs : List Field) : Res (List Field) := do
  let ns ← fieldNodes node
  match ns with
  | none => pure fs
  | some ns => do
    let all ← addFields env (fieldOf env (.other 0 Versions.notYet)) ns fs
    Res.check (validateNames [] all)
    pure all

/-- `parseCopyAliases`, ParseInterfaceImpl.cpp:525-594 -/
def ifaceCopyAliases (dsl : Nat) (props : Props) (src : Option Source) (fs : List Field) (al : List Alias) : Res (List Alias) := do
  let want ← wantAliases dsl props src.isSome
  if want then
    match src with
    | none => pure al
    | some x => pure (knownAliases fs (al ++ x.2))
  else pure al

/-- `ParseInterfaceImpl::parse`, ParseInterfaceImpl.cpp:54-72 -/
def parseInterface (env : MEnv) (node : Xml) : Res Interface := do
  let props ← Res.ofOption (childrenAsProps node ifaceProps (nodeProps node))
  let i ← ifaceReuse env props
  let name ← nameProp props i.name
  let descr ← strProp props "description".toList i.description
  let src ← copySource env.fld (fun s => (env.findInterface s).map fun x => (x.fields, x.aliases)) props i.fields
  let fs ← ifaceFields env.fld node (ifaceCopied src i.fields)
  let al ← ifaceCopyAliases env.dsl props src fs i.aliases
  let al ← addAliases env.fld node fs al
  pure { i with name := name, description := descr, fields := fs, aliases := al }

end Msg
end Commsdsl
