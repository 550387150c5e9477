import Verif.Model.IntField
import Verif.Model.MultiMap
/-!
# `<enum>` fields (`lib/src/parse/ParseEnumFieldImpl.cpp`)

`parseUpdateType`, `parseUpdateEndian`, `parseUpdateLength`, `parseUpdateBitLength`, `parseUpdateMinMaxValues`, `parseStrToValue` and
`parseUpdateDefaultValue` are copies of the functions of `<int>` fields (without serialisation offset): the model uses those on the numeric
part of the state.
-/
namespace Commsdsl.EnumF
open Commsdsl Text IntF

/-- `ParseEnumFieldImpl::ParseState`, ParseEnumFieldImpl.h:125-142. `num` holds type, endian, lengths, limits and default value.
    `ParseValueInfo` has the members of `ParseSpecialValueInfo`. -/
structure State where
  num : IntF.State := {}
  values : List (Str × SpecialInfo) := []
  rev : List (Int × Str) := []
  nonUnique : Bool := false
  hexAssign : Bool := false
  deriving DecidableEq, Repr

/-- `parseIsUnique`, ParseEnumFieldImpl.cpp:50-70 -/
def isUnique (st : State) : Bool := MultiMap.isUnique st.rev

/-- A step on the numeric part. Helper of `parseImpl`, ParseEnumFieldImpl.cpp:118-132. -/
def onNum (f : IntF.State → Res IntF.State) (st : State) : Res State := do
  let n ← f st.num
  pure { st with num := n }

/-- `parseUpdateNonUniqueAllowed`, ParseEnumFieldImpl.cpp:389-392 -/
def updateNonUnique (env : Env) (c : Ctx) (st : State) : Res State := do
  let b ← updateBool env.dsl c.props "nonUniqueAllowed".toList st.nonUnique
  pure { st with nonUnique := b }

/-- The optional `displayName` of a value: ParseEnumFieldImpl.cpp:548-553, ParseSetFieldImpl.cpp:708-713 -/
def displayName (env : Env) (props : Props) : Option Str :=
  match props.find "displayName".toList with
  | none => some []
  | some s => strToStringValue (Dsl.isSupported env.dsl .fieldValueReference) env.strToString s

/-- One iteration of the loop in `parseUpdateValues`, ParseEnumFieldImpl.cpp:410-559 -/
def valueStep (env : Env) (c : Ctx) (t : IntType) (v : Xml) (st : State) : Res State := do
  let props ← Res.ofOption (childrenAsProps v specialPropNames (nodeProps v))
  Res.check (props.validateSingle "name".toList true)
  Res.check (props.validateSingle "val".toList true)
  Res.check (props.validateSingle "sinceVersion".toList)
  Res.check (props.validateSingle "deprecated".toList)
  Res.check (props.validateSingle "description".toList)
  Res.check (props.validateSingle "displayName".toList)
  let name := props.getStr "name".toList
  Res.check (isValidName name)
  Res.check (findSpecial st.values name).isNone
  let val ← Res.ofOption (strToValue env t st.values (props.getStr "val".toList))
  Res.check (inTypeRange t st.num val)
  Res.check (st.nonUnique || !MultiMap.has val st.rev)
  let (since, depr) ← Res.ofOption (Versions.getAndCheck env.schemaVersion props c.since c.depr)
  let disp ← Res.ofOption (displayName env props)
  let info : SpecialInfo :=
    { value := val, since := since, depr := depr, description := props.getStr "description".toList, displayName := disp }
  pure { st with values := st.values ++ [(name, info)], rev := MultiMap.insert val name st.rev }

/-- The loop of `parseUpdateValues`. Helper of `updateValues`, ParseEnumFieldImpl.cpp:410-559. -/
def valuesLoop (env : Env) (c : Ctx) (t : IntType) : List Xml → State → Res State
  | [], st => .ok st
  | v :: vs, st => do
    let st' ← valueStep env c t v st
    valuesLoop env c t vs st'

/-- `parseUpdateValues`, ParseEnumFieldImpl.cpp:410-559 -/
def updateValues (env : Env) (c : Ctx) (t : IntType) (st : State) : Res State :=
  let vs := getChildren c.node ["validValue".toList]
  if vs.isEmpty then
    if !st.values.isEmpty then .ok st else .err
  else valuesLoop env c t vs st

/-- `parseUpdateDefaultValue`, ParseEnumFieldImpl.cpp:561-625: the function of `<int>` fields with the enum values as named values. -/
def updateDefault (env : Env) (c : Ctx) (t : IntType) (st : State) : Res State := do
  let n ← IntF.updateDefault env c t { st.num with specials := st.values }
  pure { st with num := { n with specials := st.num.specials } }

/-- `parseUpdateHexAssign`, ParseEnumFieldImpl.cpp:627-645 -/
def updateHexAssign (env : Env) (c : Ctx) (t : IntType) (st : State) : Res State := do
  let b ← updateBool env.dsl c.props "hexAssign".toList st.hexAssign
  Res.check ((c.props.getStr "hexAssign".toList).isEmpty || isUnsigned t)
  pure { st with hexAssign := b }

/-- `parseImpl`, ParseEnumFieldImpl.cpp:118-132 -/
def parseImpl (env : Env) (c : Ctx) (st0 : State) : Res State := do
  let st ← onNum (updateType c) st0
  match st.num.type with
  | none => .err -- excluded: `parseUpdateType` leaves a type
  | some t => do
    let st ← onNum (updateEndian env c) st
    let st ← onNum (updateLength c t) st
    let st ← onNum (updateBitLength c t) st
    let st ← updateNonUnique env c st
    let st ← onNum (updateValidCheckVersion env c) st
    let st ← onNum (updateMinMax t) st
    let st ← updateValues env c t st
    let st ← updateDefault env c t st
    let st ← updateHexAssign env c t st
    onNum (updateAvailableLengthLimit env c) st

/-- States of accepted `<enum>` fields: new ones, or reusing an accepted one (`parseReuseImpl`, ParseEnumFieldImpl.cpp:110-116, copies the
    state). The flag tells whether any definition in the chain allowed non-unique values. -/
inductive Accepted : Bool → State → Prop where
  | fresh {env : Env} {c : Ctx} {st : State} : parseImpl env c {} = .ok st → Accepted st.nonUnique st
  | reuse {env : Env} {c : Ctx} {b : Bool} {st0 st : State} : Accepted b st0 → parseImpl env c st0 = .ok st →
      Accepted (b || st.nonUnique) st

/-- `parseMinLengthImpl`, ParseEnumFieldImpl.cpp:134-141 -/
def minLength (st : State) : Nat := IntF.minLength st.num

/-- `parseMaxLengthImpl`, ParseEnumFieldImpl.cpp:143-146 -/
def maxLength (st : State) : Nat := st.num.length

/-- `parseStrToNumericImpl`, ParseEnumFieldImpl.cpp:168-199; `none` is `false`. The text `ref` is the rest of the reference behind the
    field. -/
def strToNumeric (dsl : Nat) (st : State) (ref : Str) : Option (Int × Bool) :=
  let big (v : Int) : Bool := (match st.num.type with | some t => isBigUnsigned t | none => false) && decide (9223372036854775807 < castU64 v)
  if ref.isEmpty && !Dsl.isSupported dsl .fieldValueReference then none
  else if ref.isEmpty then some (st.num.default, big st.num.default)
  else (findSpecial st.values ref).map fun i => (i.value, big i.value)

end Commsdsl.EnumF
