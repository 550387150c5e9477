import Verif.Model.EnumField
/-!
# `<set>` fields (`lib/src/parse/ParseSetFieldImpl.cpp`)
-/
namespace Commsdsl.SetF
open Commsdsl Text IntF

/-- `ParseBitInfo`, include/commsdsl/parse/ParseSetField.h:37-47 -/
structure BitInfo where
  idx : Nat
  since : Nat
  depr : Nat
  description : Str := []
  displayName : Str := []
  default : Bool := false
  reserved : Bool := false
  reservedValue : Bool := false
  deriving DecidableEq, Repr

/-- `ParseSetFieldImpl::ParseState`, ParseSetFieldImpl.h:121-134 -/
structure State where
  type : Option IntType := none
  endian : Option Endian := none
  length : Nat := 0
  bitLength : Nat := 0
  bits : List (Str × BitInfo) := []
  rev : List (Nat × Str) := []
  nonUnique : Bool := false
  defaultBit : Bool := false
  reservedBit : Bool := false
  validCheckVersion : Bool := false
  availableLengthLimit : Bool := false
  deriving DecidableEq, Repr

/-- `m_bits.find(name)`. Helper of `sameIdx`, ParseSetFieldImpl.cpp:660-668. -/
def findBit (l : List (Str × BitInfo)) (name : Str) : Option BitInfo := (l.find? fun p => p.1 == name).map Prod.snd

/-- `parseIsUnique`, ParseSetFieldImpl.cpp:51-71 -/
def isUnique (st : State) : Bool := MultiMap.isUnique st.rev

/-- `parseUpdateEndian`, ParseSetFieldImpl.cpp:256-273 -/
def updateEndian (env : Env) (c : Ctx) (st : State) : Res State :=
  if !c.props.validateSingle "endian".toList then .err
  else
    let s := c.props.getStr "endian".toList
    if s.isEmpty && st.endian.isSome then .ok st
    else match endianOf s env.schemaEndian with
    | none => .err
    | some e => .ok { st with endian := some e }

/-- `parseUpdateType`, ParseSetFieldImpl.cpp:275-305 -/
def updateType (c : Ctx) (st : State) : Res State :=
  if !c.props.validateSingle "type".toList then .err
  else match c.props.find "type".toList with
  | none => .ok st
  | some s => match typeValue s with
    | none => .err
    | some t =>
      if !isUnsigned t then .err
      else if st.type = some t then .ok st
      else if st.type.isSome then .err
      else .ok { st with type := some t }

/-- `maxLength` of `parseUpdateLength`, ParseSetFieldImpl.cpp:307-419 -/
def lengthLimit : Option IntType → Nat
  | none => 8
  | some t => maxTypeLength t

/-- First part of `parseUpdateLength`, ParseSetFieldImpl.cpp:307-419: the `length` property. -/
def updateByteLength (c : Ctx) (st : State) : Res State :=
  let mustHave := st.type.isNone && decide (st.length = 0) && !c.bitfieldMember
  if !c.props.validateSingle "length".toList mustHave then .err
  else
    let s := c.props.getStr "length".toList
    if s.isEmpty then
      if st.length = 0 ∧ st.type.isSome then .ok { st with length := lengthLimit st.type } else .ok st
    else match strToUintMax s with
    | none => .err
    | some newLen =>
      if newLen = 0 ∨ lengthLimit st.type < newLen then .err
      else if st.length = newLen then .ok st
      else if st.length ≠ 0 then .err
      else .ok { st with length := newLen }

/-- Second part of `parseUpdateLength`, ParseSetFieldImpl.cpp:307-419: the `bitLength` property. -/
def updateBitLength (c : Ctx) (st : State) : Res State :=
  let mustHave := c.bitfieldMember && decide (st.bitLength = 0) && decide (st.length = 0)
  if !c.props.validateSingle "bitLength".toList mustHave then .err
  else
    let s := c.props.getStr "bitLength".toList
    if s.isEmpty then
      if st.bitLength = 0 then .ok { st with bitLength := st.length * 8 } else .ok st
    else if !c.bitfieldMember then .ok { st with bitLength := st.length * 8 }
    else match strToUintMax s with
    | none => .err
    | some b =>
      if b = 0 then .err
      else if st.length ≠ 0 ∧ st.length * 8 < b then .err
      else .ok { st with bitLength := b }

/-- `Map`, ParseSetFieldImpl.cpp:397-406 -/
def typeMap : List IntType := [.uint8, .uint16, .uint32, .uint32, .uint64, .uint64, .uint64, .uint64]

/-- Third part of `parseUpdateLength`, ParseSetFieldImpl.cpp:307-419. `Map[m_length - 1]` is `std::size_t` arithmetic and not bounds checked
    (only by an `assert`). -/
def deriveType (st0 : State) : Res State :=
  let st := if st0.length = 0 ∧ st0.bitLength ≠ 0 then { st0 with length := (st0.bitLength - 1) / 8 + 1 } else st0
  match st.type with
  | some _ => .ok st
  | none =>
    if st.length = 0 then .ub
    else match typeMap[st.length - 1]? with
    | none => .ub
    | some t => .ok { st with type := some t }

/-- `parseUpdateLength`, ParseSetFieldImpl.cpp:307-419 -/
def updateLength (c : Ctx) (st : State) : Res State := do
  let st ← updateByteLength c st
  let st ← updateBitLength c st
  deriveType st

/-- `parseUpdateNonUniqueAllowed`, ParseSetFieldImpl.cpp:421-442 -/
def updateNonUnique (env : Env) (c : Ctx) (st : State) : Res State := do
  let newAllowed ← updateBool env.dsl c.props "nonUniqueAllowed".toList false
  if (c.props.getStr "nonUniqueAllowed".toList).isEmpty then pure st
  else if st.nonUnique && !newAllowed && !isUnique st then .err
  else pure { st with nonUnique := newAllowed }

/-- `parseStrToValue`, ParseSetFieldImpl.cpp:722-735 -/
def strToValue (env : Env) (s : Str) : Option Bool :=
  match strToBool s with
  | some b => some b
  | none => if !Dsl.isSupported env.dsl .fieldValueReference then none else env.strToBool s

/-- A boolean property as read at ParseSetFieldImpl.cpp:449-479 (no check for multiple instances) -/
def boolProp (env : Env) (props : Props) (name : Str) (cur : Bool) : Option Bool :=
  match props.find name with
  | none => some cur
  | some s => strToValue env s

/-- A boolean property as read at ParseSetFieldImpl.cpp:598-632 -/
def bitProp (env : Env) (props : Props) (name : Str) (cur : Bool) : Option Bool :=
  let s := props.getStr name
  if s.isEmpty then some cur else strToValue env s

/-- `PropNames` of a `<bit>`, ParseSetFieldImpl.cpp:491-501 -/
def bitPropNames : List Str :=
  ["name".toList, "idx".toList, "defaultValue".toList, "reservedValue".toList, "reserved".toList, "sinceVersion".toList,
   "deprecated".toList, "description".toList, "displayName".toList]

/-- The consistency check of one earlier bit with the same index, ParseSetFieldImpl.cpp:666-699 -/
def consistent (info old : BitInfo) : Bool :=
  if old.depr ≤ info.since then true
  else if info.depr ≤ old.since then true
  else info.default == old.default && info.reserved == old.reserved && info.reservedValue == old.reservedValue

/-- `m_revBits.equal_range(idx)` followed by `m_bits.find(name)`, ParseSetFieldImpl.cpp:660-668 -/
def sameIdx (st : State) (idx : Nat) : List (Option BitInfo) :=
  (st.rev.filter fun e => e.1 == idx).map fun e => findBit st.bits e.2

/-- All earlier bits agree; a missing name is a dereferenced `end()` iterator. Helper of `checkSame`, ParseSetFieldImpl.cpp:655-703. -/
def allConsistent (info : BitInfo) : List (Option BitInfo) → Res Bool
  | [] => .ok true
  | none :: _ => .ub
  | some old :: r => if consistent info old then allConsistent info r else .ok false

/-- The check of bits with the same index, made only if such bits are allowed, ParseSetFieldImpl.cpp:655-703 -/
def checkSame (st : State) (info : BitInfo) : Res Bool := if !st.nonUnique then .ok true else allConsistent info (sameIdx st info.idx)

/-- One iteration of the loop in `parseUpdateBits`, ParseSetFieldImpl.cpp:486-720 -/
def bitStep (env : Env) (c : Ctx) (b : Xml) (st : State) : Res State := do
  let props ← Res.ofOption (childrenAsProps b bitPropNames (nodeProps b))
  Res.check (props.validateSingle "name".toList true)
  Res.check (props.validateSingle "idx".toList true)
  Res.check (props.validateSingle "defaultValue".toList)
  Res.check (props.validateSingle "reservedValue".toList)
  Res.check (props.validateSingle "reserved".toList)
  Res.check (props.validateSingle "sinceVersion".toList)
  Res.check (props.validateSingle "deprecated".toList)
  Res.check (props.validateSingle "description".toList)
  Res.check (props.validateSingle "displayName".toList)
  let name := props.getStr "name".toList
  Res.check (isValidName name)
  Res.check (findBit st.bits name).isNone
  let idx ← Res.ofOption (strToUnsigned (props.getStr "idx".toList))
  Res.check (decide (idx < st.bitLength))
  Res.check (st.nonUnique || !MultiMap.has idx st.rev)
  let dflt ← Res.ofOption (bitProp env props "defaultValue".toList st.defaultBit)
  let resv ← Res.ofOption (bitProp env props "reserved".toList false)
  let resvVal ← Res.ofOption (bitProp env props "reservedValue".toList st.reservedBit)
  let (since, depr) ← Res.ofOption (Versions.getAndCheck env.schemaVersion props c.since c.depr)
  Res.check (!resv || !(decide (c.since < since) || decide (depr < c.depr)))
  let info : BitInfo := { idx := idx, since := since, depr := depr, default := dflt, reserved := resv, reservedValue := resvVal }
  let ok ← checkSame st info
  Res.check ok
  let disp ← Res.ofOption (EnumF.displayName env props)
  let info := { info with description := props.getStr "description".toList, displayName := disp }
  pure { st with bits := st.bits ++ [(name, info)], rev := MultiMap.insert idx name st.rev }

/-- The loop of `parseUpdateBits`. Helper of `parseImpl`, ParseSetFieldImpl.cpp:117-129. -/
def bitsLoop (env : Env) (c : Ctx) : List Xml → State → Res State
  | [], st => .ok st
  | b :: bs, st => do
    let st' ← bitStep env c b st
    bitsLoop env c bs st'

/-- `parseImpl`, ParseSetFieldImpl.cpp:117-129 -/
def parseImpl (env : Env) (c : Ctx) (st0 : State) : Res State := do
  let st ← updateEndian env c st0
  let st ← updateType c st
  let st ← updateLength c st
  let st ← updateNonUnique env c st
  let vcv ← updateBool env.dsl c.props "validCheckVersion".toList st.validCheckVersion
  let db ← Res.ofOption (boolProp env c.props "defaultValue".toList st.defaultBit)
  let rb ← Res.ofOption (boolProp env c.props "reservedValue".toList st.reservedBit)
  let all ← updateBool env.dsl c.props "availableLengthLimit".toList st.availableLengthLimit
  bitsLoop env c (getChildren c.node ["bit".toList])
    { st with validCheckVersion := vcv, defaultBit := db, reservedBit := rb, availableLengthLimit := all }

/-- States of accepted `<set>` fields: new ones, or reusing an accepted one (`parseReuseImpl`, ParseSetFieldImpl.cpp:109-115). -/
inductive Accepted : State → Prop where
  | fresh {env : Env} {c : Ctx} {st : State} : parseImpl env c {} = .ok st → Accepted st
  | reuse {env : Env} {c : Ctx} {st0 st : State} : Accepted st0 → parseImpl env c st0 = .ok st → Accepted st

/-- `parseMinLengthImpl`, ParseSetFieldImpl.cpp:131-134 (the maximal length is the same, ParseFieldImpl.cpp:553-556) -/
def minLength (st : State) : Nat := st.length

end Commsdsl.SetF
