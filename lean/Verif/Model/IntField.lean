import Verif.Model.Versions
import Verif.Model.Dsl
import Verif.Model.Units
import Verif.Model.Sort
/-!
# `<int>` fields (`lib/src/parse/ParseIntFieldImpl.cpp`)

`intmax_t` values are `Int`s in the signed 64 bit range, `std::size_t`/`unsigned` values are `Nat`s. Values of `uint64`/`uintvar` fields
are kept in `intmax_t` variables by the code, i.e. modulo 2^64; `IntType.interp` reads them back.
-/
namespace Commsdsl.IntF
open Commsdsl Text

/-- `ParseIntField::ParseType` without the `NumOfValues` marker. lib/include/commsdsl/parse/ParseIntField.h:42-55. -/
inductive IntType where
  | int8 | uint8 | int16 | uint16 | int32 | uint32 | int64 | uint64 | intvar | uintvar
  deriving DecidableEq, Repr

/-- `ParseEndian` without the marker. lib/include/commsdsl/parse/ParseEndian.h:25-30. -/
inductive Endian where
  | little | big
  deriving DecidableEq, Repr

/-- `parseTypeValue`, ParseIntFieldImpl.cpp:146-167; `none` is `NumOfValues`. -/
def typeValue (s : Str) : Option IntType :=
  let l := toLower s
  if l = "int8".toList then some .int8
  else if l = "uint8".toList then some .uint8
  else if l = "int16".toList then some .int16
  else if l = "uint16".toList then some .uint16
  else if l = "int32".toList then some .int32
  else if l = "uint32".toList then some .uint32
  else if l = "int64".toList then some .int64
  else if l = "uint64".toList then some .uint64
  else if l = "intvar".toList then some .intvar
  else if l = "uintvar".toList then some .uintvar
  else none

/-- `parseMaxTypeLength`, ParseIntFieldImpl.cpp:169-196 (`(64 - 1) / 7 + 1 = 10` for the variable length types). -/
def maxTypeLength : IntType → Nat
  | .int8 | .uint8 => 1
  | .int16 | .uint16 => 2
  | .int32 | .uint32 => 4
  | .int64 | .uint64 => 8
  | .intvar | .uintvar => ((8 * 8) - 1) / 7 + 1

/-- `parseIsTypeUnsigned` / `parseIsUnsigned`, ParseIntFieldImpl.cpp:285-297 -/
def isUnsigned : IntType → Bool
  | .uint8 | .uint16 | .uint32 | .uint64 | .uintvar => true
  | _ => false

/-- `parseIsBigUnsigned`, ParseIntFieldImpl.h:132-135 -/
def isBigUnsigned : IntType → Bool
  | .uint64 | .uintvar => true
  | _ => false

/-- `parseMinTypeValue`, ParseIntFieldImpl.cpp:198-224 -/
def minTypeValue : IntType → Int
  | .int8 => -128
  | .int16 => -32768
  | .int32 => -2147483648
  | .int64 | .intvar => i64Min
  | .uint8 | .uint16 | .uint32 | .uint64 | .uintvar => 0

/-- `parseMaxTypeValue`, ParseIntFieldImpl.cpp:226-253; `UINT64_MAX` cast to `intmax_t` is -1. -/
def maxTypeValue : IntType → Int
  | .int8 => 127
  | .uint8 => 255
  | .int16 => 32767
  | .uint16 => 65535
  | .int32 => 2147483647
  | .uint32 => 4294967295
  | .int64 | .intvar => i64Max
  | .uint64 | .uintvar => castI64 18446744073709551615

/-! ## Limits by number of bits -/

/-- `std::uintmax_t(1) << n`: undefined for `n ≥ 64`. Helper of `calcMaxFixedSigned`, ParseIntFieldImpl.cpp:70-78. -/
def shl1 (n : Nat) : Res Nat := if n < 64 then .ok (2 ^ n % 18446744073709551616) else .ub

/-- `parseCalcMaxFixedSignedValue`, ParseIntFieldImpl.cpp:70-78. `bitsLen - 1` is `std::size_t` arithmetic: 0 wraps and the shift is undefined
    (an `assert` in debug builds). -/
def calcMaxFixedSigned (bits : Nat) : Res Int :=
  if 64 ≤ bits then .ok i64Max
  else if bits = 0 then .ub
  else do
    let s ← shl1 (bits - 1)
    pure (castI64 ((s - 1 : Nat) : Int))

/-- `~x` on `uintmax_t`. Helper of `calcMinFixedSigned`, ParseIntFieldImpl.cpp:80-84. -/
def notU64 (x : Nat) : Nat := 18446744073709551615 - x

/-- `parseCalcMinFixedSignedValue`, ParseIntFieldImpl.cpp:80-84 -/
def calcMinFixedSigned (bits : Nat) : Res Int := do
  let m ← calcMaxFixedSigned bits
  pure (castI64 (notU64 (castU64 m)))

/-- `parseCalcMaxFixedUnsignedValue`, ParseIntFieldImpl.cpp:86-94 -/
def calcMaxFixedUnsigned (bits : Nat) : Res Nat :=
  if 64 ≤ bits then .ok 18446744073709551615
  else do
    let s ← shl1 bits
    pure (s - 1)

/-- `totalValueBits`, ParseIntFieldImpl.cpp:98, 108, 120 -/
def varBits (bits : Nat) : Nat := min (bits / 8 * 7) 64

/-- `parseCalcMaxVarUnsignedValue`, ParseIntFieldImpl.cpp:96-104 -/
def calcMaxVarUnsigned (bits : Nat) : Res Nat :=
  if varBits bits = 64 then .ok 18446744073709551615
  else do
    let s ← shl1 (varBits bits)
    pure (s - 1)

/-- `parseCalcMaxVarSignedValue`, ParseIntFieldImpl.cpp:106-116 -/
def calcMaxVarSigned (bits : Nat) : Res Int :=
  if varBits bits = 64 then .ok i64Max
  else do
    let result ← calcMaxVarUnsigned bits
    let mask := (result + 1) % 18446744073709551616 / 2
    pure (castI64 ((result ^^^ mask : Nat) : Int))

/-- `parseCalcMinVarSignedValue`, ParseIntFieldImpl.cpp:118-127 (`~` on `intmax_t`) -/
def calcMinVarSigned (bits : Nat) : Res Int :=
  if varBits bits = 64 then .ok i64Min
  else do
    let m ← calcMaxVarSigned bits
    pure (castI64 (castU64 (-m - 1)))

/-- `parseCalcMinValue`, ParseIntFieldImpl.cpp:255-266 -/
def calcMinValue (t : IntType) (bits : Nat) : Res Int :=
  if isUnsigned t then .ok 0
  else if t = .intvar then calcMinVarSigned bits
  else calcMinFixedSigned bits

/-- `parseCalcMaxUnsignedValue`, ParseIntFieldImpl.cpp:129-136 -/
def calcMaxUnsigned (t : IntType) (bits : Nat) : Res Nat :=
  if t = .uintvar then calcMaxVarUnsigned bits else calcMaxFixedUnsigned bits

/-- `parseCalcMaxValue`, ParseIntFieldImpl.cpp:268-283 -/
def calcMaxValue (t : IntType) (bits : Nat) : Res Int :=
  if isBigUnsigned t then do
    let m ← calcMaxUnsigned t bits
    pure (castI64 m)
  else if t = .intvar then calcMaxVarSigned bits
  else if isUnsigned t then do
    let m ← calcMaxUnsigned t bits
    pure (castI64 m)
  else calcMaxFixedSigned bits

/-! ## State -/

/-- `ParseValidRangeInfo`, include/commsdsl/parse/ParseIntField.h:58-64 -/
structure RangeInfo where
  min : Int
  max : Int
  since : Nat
  depr : Nat
  deriving DecidableEq, Repr

/-- `ParseSpecialValueInfo`, include/commsdsl/parse/ParseIntField.h:68-76 -/
structure SpecialInfo where
  value : Int
  since : Nat
  depr : Nat
  description : Str := []
  displayName : Str := []
  deriving DecidableEq, Repr

/-- `ParseIntFieldImpl::ParseState`, ParseIntFieldImpl.h:194-216. `m_specials` (a `std::map`) is an association list in order of definition:
    iteration order is not modelled. -/
structure State where
  type : Option IntType := none
  endian : Option Endian := none
  length : Nat := 0
  bitLength : Nat := 0
  serOffset : Int := 0
  typeMin : Int := 0
  typeMax : Int := 0
  min : Int := 0
  max : Int := 0
  default : Int := 0
  scaling : Int × Int := (0, 0)
  validRanges : List RangeInfo := []
  specials : List (Str × SpecialInfo) := []
  units : Units := .unknown
  displayDecimals : Nat := 0
  displayOffset : Int := 0
  validCheckVersion : Bool := false
  signExt : Bool := true
  nonUniqueSpecials : Bool := false
  availableLengthLimit : Bool := false
  deriving DecidableEq, Repr

/-- What a field needs from the protocol object: DSL version, version and endian of the schema being parsed, and the values of other
    fields: `ParseProtocolImpl::parseStrToNumeric(str, false, ..)` (with the `isBigUnsigned` flag), `parseStrToBool(str, true, ..)` and
    `parseStrToString(str, true, ..)`. Helper of `initState`, ParseIntFieldImpl.cpp:140-144. -/
structure Env where
  dsl : Nat
  schemaVersion : Nat
  schemaEndian : Endian
  strToNumeric : Str → Option (Int × Bool)
  strToBool : Str → Option Bool := fun _ => none
  strToString : Str → Option Str := fun _ => none

/-- What `ParseFieldImpl::parse` (ParseFieldImpl.cpp:69-130) has prepared when `parseImpl` runs: node, collected properties, versions. -/
structure Ctx where
  node : Xml
  props : Props
  since : Nat
  depr : Nat
  bitfieldMember : Bool

/-- Constructor, ParseIntFieldImpl.cpp:140-144 -/
def initState (env : Env) : State := { nonUniqueSpecials := !Dsl.isSupported env.dsl .nonUniqueSpecialsAllowed }

/-- `parseValidateAndUpdateBoolPropValue`, ParseFieldImpl.cpp:736-761 -/
def updateBool (dsl : Nat) (props : Props) (name : Str) (cur : Bool) : Res Bool :=
  if !props.validateSingle name then .err
  else match props.find name with
  | none => .ok cur
  | some s => if !Dsl.propertySupported dsl name then .ok cur else .ofOption (strToBool s)

/-- `parseUpdateType`, ParseIntFieldImpl.cpp:512-543 -/
def updateType (c : Ctx) (st : State) : Res State :=
  let mustHave := st.type.isNone
  if !c.props.validateSingle "type".toList mustHave then .err
  else match c.props.find "type".toList with
  | none => .ok st
  | some s => match typeValue s with
    | none => .err
    | some t =>
      if mustHave then .ok { st with type := some t }
      else if st.type = some t then .ok st
      else .err

/-- `parseEndian`, parse_common.cpp:1295-1316 -/
def endianOf (s : Str) (dflt : Endian) : Option Endian :=
  if s.isEmpty then some dflt
  else if toLower s = "little".toList then some .little
  else if toLower s = "big".toList then some .big
  else none

/-- `parseUpdateEndian`, ParseIntFieldImpl.cpp:545-562 -/
def updateEndian (env : Env) (c : Ctx) (st : State) : Res State :=
  if !c.props.validateSingle "endian".toList then .err
  else
    let s := c.props.getStr "endian".toList
    if s.isEmpty && st.endian.isSome then .ok st
    else match endianOf s env.schemaEndian with
    | none => .err
    | some e => .ok { st with endian := some e }

/-- `parseUpdateLength`, ParseIntFieldImpl.cpp:564-612 -/
def updateLength (c : Ctx) (t : IntType) (st : State) : Res State :=
  if !c.props.validateSingle "length".toList then .err
  else
    let maxLength := maxTypeLength t
    let s := c.props.getStr "length".toList
    if s.isEmpty then
      if st.length = 0 then .ok { st with length := maxLength } else .ok st
    else match strToUintMax s with
    | none => .err
    | some newLength =>
      if newLength = 0 then .err
      else if st.length = newLength then .ok st
      else if st.length ≠ 0 then .err
      else if maxLength < newLength then .err
      else .ok { st with length := newLength }

/-- `parseValidateBitLengthValueImpl`, ParseIntFieldImpl.cpp:459-477 -/
def validateBitLength (t : IntType) (st : State) (bitLength : Nat) : Bool :=
  if t = .intvar ∨ t = .uintvar then false
  else if st.length * 8 < bitLength then false
  else true

/-- `parseUpdateBitLength`, ParseIntFieldImpl.cpp:614-654 -/
def updateBitLength (c : Ctx) (t : IntType) (st : State) : Res State :=
  if !c.props.validateSingle "bitLength".toList then .err
  else
    let maxBitLength := st.length * 8
    let s := c.props.getStr "bitLength".toList
    if s.isEmpty then
      if st.bitLength = 0 then .ok { st with bitLength := maxBitLength } else .ok st
    else if !c.bitfieldMember then .ok { st with bitLength := maxBitLength }
    else match strToUnsigned s with
    | none => .err
    | some b => if validateBitLength t st b then .ok { st with bitLength := b } else .err

/-- The scaling text, ParseIntFieldImpl.cpp:826-872; `none` is a reported error. -/
def parseScaling (s : Str) : Option (Int × Int) :=
  match findFrom '/' s 0 with
  | none => do
    let num ← strToIntMax s
    pure (num, 1)
  | some sepPos =>
    if (findFrom '/' s (sepPos + 1)).isSome then none
    else
      let numStr := s.take sepPos
      let denomStr := s.drop (sepPos + 1)
      if numStr.isEmpty || denomStr.isEmpty then none
      else do
        let num ← strToIntMax numStr
        let denom ← strToIntMax denomStr
        pure (num, denom)

/-- `parseUpdateScaling`, ParseIntFieldImpl.cpp:805-885 -/
def updateScaling (c : Ctx) (st : State) : Res State :=
  if !c.props.validateSingle "scaling".toList then .err
  else
    let num0 := if st.scaling.1 = 0 then 1 else st.scaling.1
    let denom0 := if st.scaling.2 = 0 then 1 else st.scaling.2
    let s := c.props.getStr "scaling".toList
    match (if s.isEmpty then some (num0, denom0) else parseScaling s) with
    | none => .err
    | some (num, denom) => if num = 0 ∨ denom = 0 then .err else .ok { st with scaling := (num, denom) }

/-- `parseUpdateSerOffset`, ParseIntFieldImpl.cpp:656-677 -/
def updateSerOffset (c : Ctx) (st : State) : Res State :=
  if !c.props.validateSingle "serOffset".toList then .err
  else
    let s := c.props.getStr "serOffset".toList
    if s.isEmpty then .ok st
    else match strToIntMax s with
    | none => .err
    | some v => .ok { st with serOffset := v }

/-- Signed 64-bit subtraction; overflow is undefined. Helper of `minUpdateS`, ParseIntFieldImpl.cpp:708-722. -/
def subI64 (a b : Int) : Res Int := if a - b < i64Min ∨ i64Max < a - b then .ub else .ok (a - b)

/-- `updateMinValueFunc` with `ValType == std::intmax_t`, ParseIntFieldImpl.cpp:708-722 -/
def minUpdateS (off val : Int) : Res Int :=
  if off < 0 then subI64 val off
  else if i64Min + off < val then subI64 val off
  else .ok val

/-- `updateMaxValueFunc` with `ValType == std::intmax_t`, ParseIntFieldImpl.cpp:724-738 -/
def maxUpdateS (off val : Int) : Res Int :=
  if off < 0 then
    if val < i64Max + off then subI64 val off else .ok val
  else subI64 val off

/-- `updateMinValueFunc` with `ValType == std::uint64_t`: everything is modulo 2^64. Helper of `updateMinMax`, ParseIntFieldImpl.cpp:679-756. -/
def minUpdateU (off : Int) (val : Nat) : Nat :=
  if off < 0 then castU64 (val - off)
  else if castU64 (0 + off) < val then castU64 (val - off)
  else val

/-- `updateMaxValueFunc` with `ValType == std::uint64_t`. Helper of `updateMinMax`, ParseIntFieldImpl.cpp:679-756. -/
def maxUpdateU (off : Int) (val : Nat) : Nat :=
  if off < 0 then
    if val < castU64 (18446744073709551615 + off) then castU64 (val - off) else val
  else castU64 (val - off)

/-- The check at ParseIntFieldImpl.cpp:691-706: `std::abs` of `INT64_MIN` is undefined. -/
def checkSerOffset (t : IntType) (st : State) : Res Unit :=
  if isBigUnsigned t || decide (st.typeMax = i64Max) then .ok ()
  else
    let diff := st.typeMax - st.typeMin
    if st.serOffset = i64Min then .ub
    else if (st.serOffset.natAbs : Int) < diff then .ok ()
    else .err

/-- `parseUpdateMinMaxValues`, ParseIntFieldImpl.cpp:679-756 -/
def updateMinMax (t : IntType) (st0 : State) : Res State := do
  let mn ← calcMinValue t st0.bitLength
  let mx ← calcMaxValue t st0.bitLength
  let st := { st0 with typeMin := minTypeValue t, typeMax := maxTypeValue t, min := mn, max := mx }
  if st.serOffset = 0 then pure st
  else do
    checkSerOffset t st
    if !isUnsigned t then do
      let mn' ← minUpdateS st.serOffset mn
      let mx' ← maxUpdateS st.serOffset mx
      pure { st with min := mn', max := mx' }
    else
      pure { st with
        min := castI64 (minUpdateU st.serOffset (castU64 mn)),
        max := castI64 (maxUpdateU st.serOffset (castU64 mx)) }

/-- `parseUpdateNonUniqueSpecialsAllowed`, ParseIntFieldImpl.cpp:1003-1006 -/
def updateNonUnique (env : Env) (c : Ctx) (st : State) : Res State := do
  let b ← updateBool env.dsl c.props "nonUniqueSpecialsAllowed".toList st.nonUniqueSpecials
  pure { st with nonUniqueSpecials := b }

/-- `m_specials.find(name)`. Helper of `strToValue`, ParseIntFieldImpl.cpp:1605-1650. -/
def findSpecial (l : List (Str × SpecialInfo)) (name : Str) : Option SpecialInfo :=
  (l.find? fun p => p.1 == name).map Prod.snd

/-- `parseStrToValue`, ParseIntFieldImpl.cpp:1605-1650; `none` is `false`. -/
def strToValue (env : Env) (t : IntType) (specials : List (Str × SpecialInfo)) (s : Str) : Option Int :=
  match (if isValidName s then findSpecial specials s else none) with
  | some i => some i.value
  | none =>
    if isValidRefName s then
      match env.strToNumeric s with
      | none => none
      | some (val, big) =>
        if !big && decide (val < 0) && isUnsigned t then none
        else if big && !isBigUnsigned t then none
        else some val
    else if isBigUnsigned t then (strToUintMax s).map fun n => castI64 n
    else strToIntMax s

/-- The comparisons of `checkSpecialInRangeFunc` (1096-1113) and `checkValueFunc` (1668-1693): unsigned for the big unsigned types, signed
    otherwise. A value outside `[m_minValue, m_maxValue]` only gives a warning. -/
def inTypeRange (t : IntType) (st : State) (v : Int) : Bool :=
  if isBigUnsigned t then !(decide (castU64 v < castU64 st.typeMin) || decide (castU64 st.typeMax < castU64 v))
  else !(decide (v < st.typeMin) || decide (st.typeMax < v))

/-- `PropNames` of a `<special>`, ParseIntFieldImpl.cpp:1017-1024 -/
def specialPropNames : List Str :=
  ["name".toList, "val".toList, "sinceVersion".toList, "deprecated".toList, "description".toList, "displayName".toList]

/-- One iteration of the loop in `parseUpdateSpecials`, ParseIntFieldImpl.cpp:1008-1149; `rec` is `recSpecials` (its keys). -/
def specialStep (env : Env) (c : Ctx) (t : IntType) (s : Xml) (st : State) (rec : List Int) : Res (State × List Int) := do
  let props ← Res.ofOption (childrenAsProps s specialPropNames (nodeProps s))
  Res.check (props.validateSingle "name".toList true)
  Res.check (props.validateSingle "val".toList true)
  Res.check (props.validateSingle "sinceVersion".toList)
  Res.check (props.validateSingle "deprecated".toList)
  Res.check (props.validateSingle "description".toList)
  Res.check (props.validateSingle "displayName".toList)
  let name := props.getStr "name".toList
  Res.check (isValidName name)
  Res.check (findSpecial st.specials name).isNone
  let val ← Res.ofOption (strToValue env t st.specials (props.getStr "val".toList))
  Res.check (st.nonUniqueSpecials || !rec.contains val)
  let rec' := if st.nonUniqueSpecials then rec else rec ++ [val]
  Res.check (inTypeRange t st val)
  let (since, depr) ← Res.ofOption (Versions.getAndCheck env.schemaVersion props c.since c.depr)
  let info : SpecialInfo :=
    { value := val, since := since, depr := depr,
      description := props.getStr "description".toList, displayName := props.getStr "displayName".toList }
  pure ({ st with specials := st.specials ++ [(name, info)] }, rec')

/-- The loop of `parseUpdateSpecials`. Helper of `updateSpecials`, ParseIntFieldImpl.cpp:1008-1149. -/
def specialsLoop (env : Env) (c : Ctx) (t : IntType) : List Xml → State → List Int → Res State
  | [], st, _ => .ok st
  | s :: ss, st, rec => do
    let (st', rec') ← specialStep env c t s st rec
    specialsLoop env c t ss st' rec'

/-- `parseUpdateSpecials`, ParseIntFieldImpl.cpp:1008-1149 -/
def updateSpecials (env : Env) (c : Ctx) (t : IntType) (st : State) : Res State :=
  specialsLoop env c t (getChildren c.node ["special".toList]) st []

/-- `parseUpdateDefaultValueInternal`, ParseIntFieldImpl.cpp:1652-1707 -/
def updateDefaultInternal (env : Env) (t : IntType) (s : Str) (st : State) : Res State := do
  let val ← Res.ofOption (strToValue env t st.specials s)
  Res.check (inTypeRange t st val)
  pure { st with default := val }

/-- `parseUpdateDefaultValue`, ParseIntFieldImpl.cpp:758-771 -/
def updateDefault (env : Env) (c : Ctx) (t : IntType) (st : State) : Res State :=
  if !c.props.validateSingle "defaultValue".toList then .err
  else
    let s := c.props.getStr "defaultValue".toList
    if s.isEmpty then .ok st else updateDefaultInternal env t s st

/-- `parseUpdateDefaultValidValue`, ParseIntFieldImpl.cpp:773-803 -/
def updateDefaultValid (env : Env) (c : Ctx) (t : IntType) (st : State) : Res State :=
  let prop := "defaultValidValue".toList
  if !c.props.validateSingle prop then .err
  else match c.props.find prop with
  | none => .ok st
  | some s =>
    if !Dsl.propertySupported env.dsl prop then .ok st
    else do
      let st' ← updateDefaultInternal env t s st
      pure { st' with validRanges := st'.validRanges ++ [⟨st'.default, st'.default, c.since, c.depr⟩] }

/-- `parseUpdateValidCheckVersion`, ParseIntFieldImpl.cpp:887-890 -/
def updateValidCheckVersion (env : Env) (c : Ctx) (st : State) : Res State := do
  let b ← updateBool env.dsl c.props "validCheckVersion".toList st.validCheckVersion
  pure { st with validCheckVersion := b }

/-! ## Valid ranges -/

/-- `parseValidateValidRangeStr`, ParseIntFieldImpl.cpp:1501-1564 (values outside the type only give warnings). -/
def validRangeStr (env : Env) (t : IntType) (specials : List (Str × SpecialInfo)) (s : Str) : Res (Int × Int) := do
  let (lo, hi) ← parseRange s
  let mn ← Res.ofOption (strToValue env t specials lo)
  let mx ← Res.ofOption (strToValue env t specials hi)
  Res.check (if isBigUnsigned t then decide (castU64 mn ≤ castU64 mx) else decide (mn ≤ mx))
  pure (mn, mx)

/-- What the four properties mean: text to bounds. `validRange` 1269/1290, `validValue` 1326/1347 (`parseValidateValidValueStr`, 1566-1603),
    `validMin` 1387-1391/1408-1412, `validMax` 1448-1452/1469-1473. -/
inductive RangeProp where
  | range | value | min | max
  deriving DecidableEq, Repr

/-- Name of the property. Helper of `checkRangeAttr`, ParseIntFieldImpl.cpp:1260-1277, 1318-1336, 1379-1397, 1440-1458. -/
def RangeProp.name : RangeProp → Str
  | .range => "validRange".toList
  | .value => "validValue".toList
  | .min => "validMin".toList
  | .max => "validMax".toList

/-- Bounds designated by the text of a property. Helper of `checkRangeAttr`, ParseIntFieldImpl.cpp:1260-1277, 1318-1336, 1379-1397, 1440-1458. -/
def RangeProp.bounds (env : Env) (t : IntType) (st : State) (p : RangeProp) (s : Str) : Res (Int × Int) :=
  match p with
  | .range => validRangeStr env t st.specials s
  | .value => do let v ← Res.ofOption (strToValue env t st.specials s); pure (v, v)
  | .min => do let v ← Res.ofOption (strToValue env t st.specials s); pure (v, st.max)
  | .max => do let v ← Res.ofOption (strToValue env t st.specials s); pure (st.min, v)

/-- `parseCheckValid...AsAttr`, ParseIntFieldImpl.cpp:1260-1277, 1318-1336, 1379-1397, 1440-1458 -/
def checkRangeAttr (env : Env) (c : Ctx) (t : IntType) (p : RangeProp) (st : State) : Res State :=
  match (nodeProps c.node).find p.name with
  | none => .ok st
  | some s => do
    let (mn, mx) ← p.bounds env t st s
    pure { st with validRanges := st.validRanges ++ [⟨mn, mx, c.since, c.depr⟩] }

/-- `parseCheckValid...AsChild`, ParseIntFieldImpl.cpp:1279-1300, 1338-1361, 1399-1422, 1460-1483 -/
def checkRangeChild (env : Env) (c : Ctx) (t : IntType) (p : RangeProp) (child : Xml) (st : State) : Res State := do
  let s ← Res.ofOption (nodeValue child)
  let (mn, mx) ← p.bounds env t st s
  let (since, depr) ← Res.ofOption (Versions.getAndCheckNode env.schemaVersion child c.since c.depr)
  pure { st with validRanges := st.validRanges ++ [⟨mn, mx, since, depr⟩] }

/-- Loop over the children of `parseCheckValid...Props`. Helper of `checkRangeProps`, ParseIntFieldImpl.cpp:1302-1316, 1363-1377, 1424-1438, 1485-1499. -/
def checkRangeChildren (env : Env) (c : Ctx) (t : IntType) (p : RangeProp) : List Xml → State → Res State
  | [], st => .ok st
  | ch :: chs, st => do
    let st' ← checkRangeChild env c t p ch st
    checkRangeChildren env c t p chs st'

/-- `parseCheckValid...Props`, ParseIntFieldImpl.cpp:1302-1316, 1363-1377, 1424-1438, 1485-1499 -/
def checkRangeProps (env : Env) (c : Ctx) (t : IntType) (p : RangeProp) (st : State) : Res State := do
  let st' ← checkRangeAttr env c t p st
  checkRangeChildren env c t p (getChildren c.node [p.name]) st'

/-- First comparator, ParseIntFieldImpl.cpp:908-933 -/
def ltByVersion (big : Bool) (a b : RangeInfo) : Bool :=
  if a.since ≠ b.since then decide (a.since < b.since)
  else if a.depr ≠ b.depr then decide (a.depr < b.depr)
  else if big then
    if a.min ≠ b.min then decide (castU64 a.min < castU64 b.min) else decide (castU64 a.max < castU64 b.max)
  else if a.min ≠ b.min then decide (a.min < b.min)
  else decide (a.max < b.max)

/-- Second comparator, ParseIntFieldImpl.cpp:970-998 -/
def ltByValue (big : Bool) (a b : RangeInfo) : Bool :=
  if a.min ≠ b.min then
    if big then decide (castU64 a.min < castU64 b.min) else decide (a.min < b.min)
  else if a.max ≠ b.max then
    if big then decide (castU64 a.max < castU64 b.max) else decide (a.max < b.max)
  else if a.since ≠ b.since then decide (a.since < b.since)
  else decide (a.depr < b.depr)

/-- Inner loop of the merge, ParseIntFieldImpl.cpp:941-955: `cur` is `*iter`, the list is what follows. `iter->m_max + 1` is signed
    arithmetic: undefined for `INT64_MAX` (evaluated only for equal version windows). `nextIter->m_deprecatedSince = 0` marks absorbed ranges. -/
def mergeInner (cur : RangeInfo) : List RangeInfo → Res (RangeInfo × List RangeInfo)
  | [] => .ok (cur, [])
  | n :: ns =>
    if n.depr = 0 then do
      let (cur', ns') ← mergeInner cur ns
      pure (cur', n :: ns')
    else if cur.since ≠ n.since ∨ cur.depr ≠ n.depr then .ok (cur, n :: ns)
    else if i64Max < cur.max + 1 then .ub
    else if cur.max + 1 < n.min then .ok (cur, n :: ns)
    else do
      let (cur', ns') ← mergeInner { cur with max := Max.max cur.max n.max } ns
      pure (cur', { n with depr := 0 } :: ns')

/-- Outer loop of the merge, ParseIntFieldImpl.cpp:936-956; `fuel` bounds the number of iterations (the length of the list). -/
def mergeOuter : Nat → List RangeInfo → Res (List RangeInfo)
  | 0, l => .ok l
  | _ + 1, [] => .ok []
  | fuel + 1, r :: rs =>
    if r.depr = 0 then do
      let rs' ← mergeOuter fuel rs
      pure (r :: rs')
    else do
      let (r', rs') ← mergeInner r rs
      let rs'' ← mergeOuter fuel rs'
      pure (r' :: rs'')

/-- Sort, merge, erase, sort: ParseIntFieldImpl.cpp:904-998 -/
def normaliseRanges (t : IntType) (l : List RangeInfo) : Res (List RangeInfo) := do
  let big := isBigUnsigned t
  let sorted := sortBy (ltByVersion big) l
  let merged ← mergeOuter sorted.length sorted
  let kept := merged.filter fun r => r.depr ≠ 0
  pure (sortBy (ltByValue big) kept)

/-- `parseUpdateValidRanges`, ParseIntFieldImpl.cpp:892-1001 -/
def updateValidRanges (env : Env) (c : Ctx) (t : IntType) (st : State) : Res State := do
  let st1 ← checkRangeProps env c t .range st
  let st2 ← checkRangeProps env c t .value st1
  let st3 ← checkRangeProps env c t .min st2
  let st4 ← checkRangeProps env c t .max st3
  let rs ← normaliseRanges t st4.validRanges
  pure { st4 with validRanges := rs }

/-- `parseUpdateUnits`, ParseIntFieldImpl.cpp:1151-1170 -/
def updateUnits (c : Ctx) (st : State) : Res State :=
  if !c.props.validateSingle "units".toList then .err
  else match c.props.find "units".toList with
  | none => .ok st
  | some s => match strToUnits s with
    | none => .err
    | some u => .ok { st with units := u }

/-- `parseUpdateDisplayDecimals`, ParseIntFieldImpl.cpp:1172-1191 -/
def updateDisplayDecimals (c : Ctx) (st : State) : Res State :=
  if !c.props.validateSingle "displayDecimals".toList then .err
  else match c.props.find "displayDecimals".toList with
  | none => .ok st
  | some s => match strToUnsigned s with
    | none => .err
    | some u => .ok { st with displayDecimals := u }

/-- `parseUpdateDisplayOffset`, ParseIntFieldImpl.cpp:1193-1212 -/
def updateDisplayOffset (c : Ctx) (st : State) : Res State :=
  if !c.props.validateSingle "displayOffset".toList then .err
  else match c.props.find "displayOffset".toList with
  | none => .ok st
  | some s => match strToIntMax s with
    | none => .err
    | some u => .ok { st with displayOffset := u }

/-- `parseUpdateSignExt`, ParseIntFieldImpl.cpp:1214-1247 (the rest of it only emits a warning) -/
def updateSignExt (env : Env) (c : Ctx) (st : State) : Res State := do
  let b ← updateBool env.dsl c.props "signExt".toList st.signExt
  pure { st with signExt := b }

/-- `parseUpdateAvailableLengthLimit`, ParseIntFieldImpl.cpp:1255-1258 -/
def updateAvailableLengthLimit (env : Env) (c : Ctx) (st : State) : Res State := do
  let b ← updateBool env.dsl c.props "availableLengthLimit".toList st.availableLengthLimit
  pure { st with availableLengthLimit := b }

/-- `parseImpl`, ParseIntFieldImpl.cpp:368-390, from the given initial (new or reused) state. `parseUpdateDisplaySpecials` only warns. -/
def parseImpl (env : Env) (c : Ctx) (st0 : State) : Res State := do
  let st ← updateType c st0
  match st.type with
  | none => .err -- excluded: `parseUpdateType` leaves a type
  | some t => do
    let st ← updateEndian env c st
    let st ← updateLength c t st
    let st ← updateBitLength c t st
    let st ← updateScaling c st
    let st ← updateSerOffset c st
    let st ← updateMinMax t st
    let st ← updateNonUnique env c st
    let st ← updateSpecials env c t st
    let st ← updateDefault env c t st
    let st ← updateDefaultValid env c t st
    let st ← updateValidCheckVersion env c st
    let st ← updateValidRanges env c t st
    let st ← updateUnits c st
    let st ← updateDisplayDecimals c st
    let st ← updateDisplayOffset c st
    let st ← updateSignExt env c st
    updateAvailableLengthLimit env c st

/-- States of accepted `<int>` fields: a new definition or one that reuses an accepted field (`parseReuseImpl`, ParseIntFieldImpl.cpp:360-366,
    copies the state; `parseCheckReuse` runs before `parseImpl`), in any schema and position. -/
inductive Accepted : State → Prop where
  | fresh {env : Env} {c : Ctx} {st : State} : parseImpl env c (initState env) = .ok st → Accepted st
  | reuse {env : Env} {c : Ctx} {st0 st : State} : Accepted st0 → parseImpl env c st0 = .ok st → Accepted st

/-- `parseMinLengthImpl`, ParseIntFieldImpl.cpp:392-399 -/
def minLength (st : State) : Nat :=
  if st.type = some .intvar ∨ st.type = some .uintvar then 1 else st.length

/-- `parseMaxLengthImpl`, ParseIntFieldImpl.cpp:401-404 -/
def maxLength (st : State) : Nat := st.length

end Commsdsl.IntF
