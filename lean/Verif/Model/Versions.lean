import Verif.Model.Xml
/-!
# Version windows (`lib/src/parse/ParseXmlWrap.cpp:326-449`)
-/
namespace Commsdsl.Versions
open Commsdsl Text

/-- `ParseProtocol::parseNotYetDeprecated()`, include/commsdsl/parse/ParseProtocol.h:55-58 -/
def notYet : Nat := 4294967295

/-- `parseCheckVersions`, ParseXmlWrap.cpp:326-379; `schemaVersion` is `protocol.parseCurrSchema().parseVersion()`. -/
def checkVersions (schemaVersion since depr parentSince parentDepr : Nat) : Bool :=
  if schemaVersion < since then false
  else if since < parentSince then false
  else if parentDepr ≤ since then false
  else if parentDepr < depr then false
  else if depr ≤ since then false
  else if depr < notYet ∧ schemaVersion < depr then false
  else true

/-- A numeric property or the current value, ParseXmlWrap.cpp:391-406 and 408-422. -/
def numProp (props : Props) (key : Str) (cur : Nat) : Option Nat :=
  match props.find key with
  | none => some cur
  | some s => strToUnsigned s

/-- `parseGetAndCheckVersions` on collected properties, ParseXmlWrap.cpp:381-429. `since`/`depr` are the in/out parameters, initialised by
    the caller with the versions of the parent. -/
def getAndCheck (schemaVersion : Nat) (props : Props) (since depr : Nat) : Option (Nat × Nat) := do
  let since' ← numProp props "sinceVersion".toList since
  let depr' ← numProp props "deprecated".toList depr
  if checkVersions schemaVersion since' depr' since depr then some (since', depr') else none

/-- `parseGetAndCheckVersions` on a node, ParseXmlWrap.cpp:431-449 -/
def getAndCheckNode (schemaVersion : Nat) (node : Xml) (since depr : Nat) : Option (Nat × Nat) := do
  let props ← childrenAsProps node ["sinceVersion".toList, "deprecated".toList] (nodeProps node)
  getAndCheck schemaVersion props since depr

/-- The parent of a field, as `parseUpdateVersions` distinguishes it: none or a namespace, a field or a message, anything else (interface,
    layer); the latter two with their versions. Helper of `fieldVersions`, ParseFieldImpl.cpp:1169-1248. -/
inductive Parent where
  | top
  | container (since depr : Nat)
  | notVersioned (since depr : Nat)
  deriving DecidableEq, Repr

/-- Versions of an element: `ParseObject.h:104-109`. -/
structure Window where
  since : Nat := 0
  depr : Nat := notYet
  removed : Bool := false
  deriving DecidableEq, Repr

/-- The `removed` property, ParseFieldImpl.cpp:1222-1242 and ParseMessageImpl.cpp:579-602. -/
def removedProp (props : Props) : Option Bool :=
  match props.find "removed".toList with
  | none => some false
  | some s => strToBool s

/-- `ParseFieldImpl::parseUpdateVersions`, ParseFieldImpl.cpp:1169-1248 -/
def fieldVersions (schemaVersion : Nat) (parent : Parent) (props : Props) : Option Window :=
  if !props.validateSingle "sinceVersion".toList then none
  else if !props.validateSingle "deprecated".toList then none
  else if !props.validateSingle "removed".toList then none
  else do
    let (s0, d0) := match parent with
      | .top => (0, notYet)
      | .container s d => (s, d)
      | .notVersioned s d => (s, d)
    let (s1, d1) ← getAndCheck schemaVersion props s0 d0
    let (s2, d2) := match parent with
      | .container _ _ => (s1, d1)
      | _ => (0, notYet)
    let r ← removedProp props
    pure ⟨s2, d2, r⟩

/-- `ParseMessageImpl::parseUpdateVersions`, ParseMessageImpl.cpp:556-608 -/
def messageVersions (schemaVersion : Nat) (props : Props) : Option Window :=
  if !props.validateSingle "sinceVersion".toList then none
  else if !props.validateSingle "deprecated".toList then none
  else if !props.validateSingle "removed".toList then none
  else do
    let (s1, d1) ← getAndCheck schemaVersion props 0 notYet
    let r ← removedProp props
    pure ⟨s1, d1, r⟩

/-- A tree of field definitions seen as versioned elements: the properties of each node and its members. Helper of `parseDef`, ParseBundleFieldImpl.cpp:390. -/
inductive Def where
  | mk (props : Props) (members : List Def)

/-- The corresponding tree of parsed elements. Helper of `parseDef`, ParseBundleFieldImpl.cpp:390. -/
inductive Tree where
  | mk (w : Window) (members : List Tree)

/-- Window of the root. Modelling device, without code of its own; the versions of ParseObject.h:62-80. -/
def Tree.window : Tree → Window
  | .mk w _ => w

/-- Members of the root. Modelling device, without code of its own; the members, ParseFieldImpl.cpp:658-662. -/
def Tree.members : Tree → List Tree
  | .mk _ ms => ms

mutual
/-- Versions of a field and of all fields inside it: containers parse their members with themselves as parent
    (`parseSetParent(this)`, e.g. ParseBundleFieldImpl.cpp:390, ParseListFieldImpl.cpp:594), after their own versions are known. -/
def parseDef (schemaVersion : Nat) (parent : Parent) : Def → Option Tree
  | .mk props members => do
    let w ← fieldVersions schemaVersion parent props
    let ms ← parseDefs schemaVersion (.container w.since w.depr) members
    pure (.mk w ms)
/-- All members. Helper of `parseDef`, ParseBundleFieldImpl.cpp:390. -/
def parseDefs (schemaVersion : Nat) (parent : Parent) : List Def → Option (List Tree)
  | [] => some []
  | d :: ds => do
    let t ← parseDef schemaVersion parent d
    let ts ← parseDefs schemaVersion parent ds
    pure (t :: ts)
end

/-- Versions of a message with newly defined fields (no reuse). ParseMessageImpl.cpp:88-138, 556-608. -/
def parseMessage (schemaVersion : Nat) (props : Props) (fields : List Def) : Option Tree := do
  let w ← messageVersions schemaVersion props
  let ms ← parseDefs schemaVersion (.container w.since w.depr) fields
  pure (.mk w ms)

end Commsdsl.Versions
