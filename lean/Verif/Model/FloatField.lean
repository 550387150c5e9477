import Verif.Model.IntField
/-!
# `<float>` fields (`lib/src/parse/ParseFloatFieldImpl.cpp`)

A `double` is `nan`, one of the infinities or a finite number. Every finite `double` is an integral multiple of `2^-1074`, so that `fin n`
stands for `n * 2^-1074`; `-0.0` and `0.0` are the same number here (the code only compares values). Reading a number from a text (`std::stod`,
which may fail) is a parameter of the model. Asserts are not there in release builds and not modelled.
-/
namespace Commsdsl.FloatF
open Commsdsl Text

/-- Values of type `double`. C++ library, not in /repo; used e.g. in ParseFloatFieldImpl.cpp:39-104. -/
inductive Dbl where
  | nan
  | negInf
  | fin (units : Int)
  | posInf
  deriving DecidableEq, Repr

namespace Dbl

/-- `std::isnan`. C++ library, not in /repo; used e.g. in ParseFloatFieldImpl.cpp:39-104. -/
def isNan : Dbl → Bool
  | nan => true
  | _ => false

/-- `std::isinf`. C++ library, not in /repo; used e.g. in ParseFloatFieldImpl.cpp:39-104. -/
def isInf : Dbl → Bool
  | negInf => true
  | posInf => true
  | _ => false

/-- `std::isnan(val) || std::isinf(val)`, e.g. ParseFloatFieldImpl.cpp:376, 453 -/
def special (d : Dbl) : Bool := d.isNan || d.isInf

/-- `operator<` of `double`. C++ library, not in /repo; used e.g. in ParseFloatFieldImpl.cpp:39-104. -/
def lt : Dbl → Dbl → Bool
  | nan, _ => false
  | _, nan => false
  | _, negInf => false
  | negInf, _ => true
  | posInf, _ => false
  | fin _, posInf => true
  | fin a, fin b => decide (a < b)

/-- `std::max`. C++ library, not in /repo; used e.g. in ParseFloatFieldImpl.cpp:39-104. -/
def max (a b : Dbl) : Dbl := if lt a b then b else a

end Dbl

/-- `parseCompareLess`, ParseFloatFieldImpl.cpp:39-66 -/
def compareLess (a b : Dbl) : Bool :=
  if a.isNan then false
  else if b.isNan then true
  else if a.isInf then
    if a.lt (.fin 0) then !b.isInf || Dbl.lt (.fin 0) b else false
  else if b.isInf then
    if b.lt (.fin 0) then false else true
  else a.lt b

/-- `std::numeric_limits<float>::max()` in units of `2^-1074`. C++ library, not in /repo; used e.g. in ParseFloatFieldImpl.cpp:39-104. -/
def floatMax : Int := (2 ^ 24 - 1) * 2 ^ 104 * 2 ^ 1074
/-- `std::numeric_limits<double>::max()` in units of `2^-1074`. C++ library, not in /repo; used e.g. in ParseFloatFieldImpl.cpp:39-104. -/
def doubleMax : Int := (2 ^ 53 - 1) * 2 ^ 971 * 2 ^ 1074

/-- `parseMaxValueForType`, ParseFloatFieldImpl.cpp:87-104 -/
def maxOfType (double : Bool) : Dbl := .fin (if double then doubleMax else floatMax)
/-- `parseMinValueForType`, ParseFloatFieldImpl.cpp:68-85 -/
def minOfType (double : Bool) : Dbl := .fin (if double then -doubleMax else -floatMax)

/-- `ParseValidRangeInfo`, include/commsdsl/parse/ParseFloatField.h:47-53 -/
structure RangeInfo where
  min : Dbl
  max : Dbl
  since : Nat
  depr : Nat
  deriving DecidableEq, Repr

/-- `ParseSpecialValueInfo`, include/commsdsl/parse/ParseFloatField.h:57-64 -/
structure SpecialInfo where
  value : Dbl
  since : Nat
  depr : Nat
  description : Str := []
  displayName : Str := []
  deriving DecidableEq, Repr

/-- `ParseFloatFieldImpl::ParseState`, ParseFloatFieldImpl.h:143-159. `double` is `m_type == ParseType::Double`; `m_specials` (a `std::map`) is an
    association list in order of definition. -/
structure State where
  double : Option Bool := none
  endian : Option IntF.Endian := none
  length : Nat := 0
  typeMin : Dbl := .fin 0
  typeMax : Dbl := .fin 0
  default : Dbl := .fin 0
  validRanges : List RangeInfo := []
  specials : List (Str × SpecialInfo) := []
  units : Units := .unknown
  displayDecimals : Nat := 0
  validCheckVersion : Bool := false
  nonUniqueSpecials : Bool := false
  deriving DecidableEq, Repr

/-- What reading values needs besides: `std::stod` (`none` for an exception) and `ParseProtocolImpl::parseStrToFp(ref, false, ..)`
    (ParseProtocolImpl.cpp:228-240). -/
structure Fp where
  stod : Str → Option Dbl := fun _ => none
  strToFp : Str → Option Dbl := fun _ => none

/-- Constructor, ParseFloatFieldImpl.cpp:108-112 -/
def initState (env : IntF.Env) : State := { nonUniqueSpecials := !Dsl.isSupported env.dsl .nonUniqueSpecialsAllowed }

/-- `m_specials.find`. Helper of `strToValue`, ParseFloatFieldImpl.cpp:1087-1121. -/
def findSpecial (l : List (Str × SpecialInfo)) (name : Str) : Option SpecialInfo :=
  (l.find? fun p => p.1 == name).map Prod.snd

/-- `parseStrToDouble`, parse_common.cpp:989-1022 -/
def strToDouble (fp : Fp) (s : Str) (allowSpecials : Bool) : Option Dbl :=
  if allowSpecials && s == "nan".toList then some .nan
  else if allowSpecials && s == "inf".toList then some .posInf
  else if allowSpecials && s == "-inf".toList then some .negInf
  else fp.stod s

/-- `parseIsFpSpecial`, parse_common.cpp:1060-1070 -/
def isFpSpecial (s : Str) : Bool := ["nan".toList, "inf".toList, "-inf".toList].contains s

/-- `parseStrToValue`, ParseFloatFieldImpl.cpp:1087-1121; `none` is `false`. -/
def strToValue (fp : Fp) (specials : List (Str × SpecialInfo)) (s : Str) (allowSpecials : Bool := true) : Option Dbl :=
  if allowSpecials && isFpSpecial (toLower s) then strToDouble fp (toLower s) allowSpecials
  else match (if isValidName s then findSpecial specials s else none) with
  | some i => some i.value
  | none => if isValidRefName s then fp.strToFp s else strToDouble fp (toLower s) allowSpecials

/-! ## Type, endian, length -/

/-- `Map` of `parseUpdateType`, ParseFloatFieldImpl.cpp:284-293 -/
def typeOf (s : Str) : Option Bool :=
  if toLower s = "float".toList then some false
  else if toLower s = "double".toList then some true
  else none

/-- `parseUpdateType`, ParseFloatFieldImpl.cpp:271-313 -/
def updateType (c : IntF.Ctx) (st : State) : Res State :=
  if !c.props.validateSingle "type".toList st.double.isNone then .err
  else match c.props.find "type".toList with
  | none => .ok st
  | some s =>
    match typeOf s with
    | none => .err
    | some t =>
      if st.double.isNone then .ok { st with double := some t }
      else if st.double = some t then .ok st
      else .err

/-- `parseUpdateEndian`, ParseFloatFieldImpl.cpp:315-329 -/
def updateEndian (env : IntF.Env) (c : IntF.Ctx) (st : State) : Res State :=
  if !c.props.validateSingle "endian".toList then .err
  else match IntF.endianOf (c.props.getStr "endian".toList) env.schemaEndian with
  | none => .err
  | some e => .ok { st with endian := some e }

/-- `parseUpdateLength`, ParseFloatFieldImpl.cpp:331-352 -/
def updateLength (st : State) : Res State :=
  match st.double with
  | none => .err
  | some d => .ok { st with length := if d then 8 else 4 }

/-- `parseUpdateMinMaxValues`, ParseFloatFieldImpl.cpp:354-359 -/
def updateMinMax (st : State) : State :=
  { st with typeMin := minOfType (st.double == some true), typeMax := maxOfType (st.double == some true) }

/-- `parseUpdateNonUniqueSpecialsAllowed`, ParseFloatFieldImpl.cpp:515-518 -/
def updateNonUnique (env : IntF.Env) (c : IntF.Ctx) (st : State) : Res State := do
  let b ← IntF.updateBool env.dsl c.props "nonUniqueSpecialsAllowed".toList st.nonUniqueSpecials
  pure { st with nonUniqueSpecials := b }

/-! ## Special values and the default value -/

/-- `(!isSpecial) && ((val < min) || (max < val))` reports an error, ParseFloatFieldImpl.cpp:376-393, 627-634, 1070-1082 -/
def inTypeRange (st : State) (v : Dbl) : Bool := v.special || !(v.lt st.typeMin || st.typeMax.lt v)

/-- One iteration of the loop in `parseUpdateSpecials`, ParseFloatFieldImpl.cpp:520-659. `rec` are the values seen: the keys of `recSpecials`, and
    `nan` when `prevNanSpecial` is not empty. -/
def specialStep (env : IntF.Env) (fp : Fp) (c : IntF.Ctx) (s : Xml) (st : State) (rec : List Dbl) : Res (State × List Dbl) := do
  let props ← Res.ofOption (childrenAsProps s IntF.specialPropNames (nodeProps s))
  Res.check (props.validateSingle "name".toList true)
  Res.check (props.validateSingle "val".toList true)
  Res.check (props.validateSingle "sinceVersion".toList)
  Res.check (props.validateSingle "deprecated".toList)
  Res.check (props.validateSingle "description".toList)
  Res.check (props.validateSingle "displayName".toList)
  let name := props.getStr "name".toList
  Res.check (isValidName name)
  Res.check (findSpecial st.specials name).isNone
  let val ← Res.ofOption (strToValue fp st.specials (props.getStr "val".toList))
  Res.check (st.nonUniqueSpecials || !rec.contains val)
  let rec' := if st.nonUniqueSpecials then rec else rec ++ [val]
  Res.check (inTypeRange st val)
  let (since, depr) ← Res.ofOption (Versions.getAndCheck env.schemaVersion props c.since c.depr)
  let info : SpecialInfo :=
    { value := val, since := since, depr := depr,
      description := props.getStr "description".toList, displayName := props.getStr "displayName".toList }
  pure ({ st with specials := st.specials ++ [(name, info)] }, rec')

/-- The loop of `parseUpdateSpecials`. Helper of `updateSpecials`, ParseFloatFieldImpl.cpp:520-659. -/
def specialsLoop (env : IntF.Env) (fp : Fp) (c : IntF.Ctx) : List Xml → State → List Dbl → Res State
  | [], st, _ => .ok st
  | s :: ss, st, rec => do
    let (st', rec') ← specialStep env fp c s st rec
    specialsLoop env fp c ss st' rec'

/-- `parseUpdateSpecials`, ParseFloatFieldImpl.cpp:520-659 -/
def updateSpecials (env : IntF.Env) (fp : Fp) (c : IntF.Ctx) (st : State) : Res State :=
  specialsLoop env fp c (getChildren c.node ["special".toList]) st []

/-- `parseUpdateDefaultValue`, ParseFloatFieldImpl.cpp:361-396 -/
def updateDefault (fp : Fp) (c : IntF.Ctx) (st : State) : Res State :=
  if !c.props.validateSingle "defaultValue".toList then .err
  else if (c.props.getStr "defaultValue".toList).isEmpty then .ok st
  else match strToValue fp st.specials (c.props.getStr "defaultValue".toList) with
  | none => .err
  | some v => if inTypeRange st v then .ok { st with default := v } else .err

/-- `parseUpdateValidCheckVersion`, ParseFloatFieldImpl.cpp:398-401 -/
def updateValidCheckVersion (env : IntF.Env) (c : IntF.Ctx) (st : State) : Res State := do
  let b ← IntF.updateBool env.dsl c.props "validCheckVersion".toList st.validCheckVersion
  pure { st with validCheckVersion := b }

/-! ## Valid ranges -/

/-- The properties that add ranges: `validFullRange`, `validRange`, `validValue`, `validMin`, `validMax`. Helper of `RangeProp.bounds`, ParseFloatFieldImpl.cpp:711-737, 739-768, 790-829, 848-890, 909-950, 969-1010. -/
inductive RangeProp where
  | full | range | value | min | max
  deriving DecidableEq, Repr

/-- Name of the property. Helper of `checkRangeAttr`, ParseFloatFieldImpl.cpp:711-737, 790-807, 848-866, 909-927, 969-987. -/
def RangeProp.name : RangeProp → Str
  | .full => "validFullRange".toList
  | .range => "validRange".toList
  | .value => "validValue".toList
  | .min => "validMin".toList
  | .max => "validMax".toList

/-- `parseValidateValidRangeStr`, ParseFloatFieldImpl.cpp:1030-1058 -/
def validRangeStr (fp : Fp) (st : State) (s : Str) : Res (Dbl × Dbl) := do
  let (lo, hi) ← parseRange s
  let mn ← Res.ofOption (strToValue fp st.specials lo false)
  let mx ← Res.ofOption (strToValue fp st.specials hi false)
  Res.check (!mx.lt mn)
  pure (mn, mx)

/-- `parseValidateValidValueStr`, ParseFloatFieldImpl.cpp:1060-1085 -/
def validValueStr (fp : Fp) (st : State) (s : Str) (allowSpecials : Bool) : Res Dbl := do
  let v ← Res.ofOption (strToValue fp st.specials s allowSpecials)
  Res.check (inTypeRange st v)
  pure v

/-- Bounds designated by the text of a property; `none` when it asks for nothing (`validFullRange="false"`).
    ParseFloatFieldImpl.cpp:711-737, 739-768, 790-829, 848-890, 909-950, 969-1010 -/
def RangeProp.bounds (fp : Fp) (st : State) (p : RangeProp) (s : Str) : Res (Option (Dbl × Dbl)) :=
  match p with
  | .full => do let b ← Res.ofOption (strToBool s); pure (if b then some (st.typeMin, st.typeMax) else none)
  | .range => do let r ← validRangeStr fp st s; pure (some r)
  | .value => do let v ← validValueStr fp st s true; pure (some (v, v))
  | .min => do let v ← validValueStr fp st s false; pure (some (v, st.typeMax))
  | .max => do let v ← validValueStr fp st s false; pure (some (st.typeMin, v))

/-- `m_validRanges.push_back(info)`. Helper of `checkRangeAttr`, ParseFloatFieldImpl.cpp:711-737, 790-807, 848-866, 909-927, 969-987. -/
def pushRange (st : State) (b : Dbl × Dbl) (v : Nat × Nat) : State :=
  { st with validRanges := st.validRanges ++ [⟨b.1, b.2, v.1, v.2⟩] }

/-- `parseCheck...AsAttr`, ParseFloatFieldImpl.cpp:711-737, 790-807, 848-866, 909-927, 969-987 -/
def checkRangeAttr (fp : Fp) (c : IntF.Ctx) (p : RangeProp) (st : State) : Res State :=
  match (nodeProps c.node).find p.name with
  | none => .ok st
  | some s => do
    let b ← p.bounds fp st s
    pure (match b with | none => st | some b => pushRange st b (c.since, c.depr))

/-- The rest of `parseCheck...AsChild` once the bounds are known. Helper of `checkRangeChild`, ParseFloatFieldImpl.cpp:739-768, 809-829, 868-890, 929-950, 989-1010. -/
def childRange (env : IntF.Env) (c : IntF.Ctx) (child : Xml) (st : State) : Option (Dbl × Dbl) → Res State
  | none => .ok st
  | some b => do
    let v ← Res.ofOption (Versions.getAndCheckNode env.schemaVersion child c.since c.depr)
    pure (pushRange st b v)

/-- `parseCheck...AsChild`, ParseFloatFieldImpl.cpp:739-768, 809-829, 868-890, 929-950, 989-1010 -/
def checkRangeChild (env : IntF.Env) (fp : Fp) (c : IntF.Ctx) (p : RangeProp) (child : Xml) (st : State) : Res State := do
  let s ← Res.ofOption (nodeValue child)
  let b ← p.bounds fp st s
  childRange env c child st b

/-- Loop over the children of `parseCheck...Props`. Helper of `checkRangeProps`, ParseFloatFieldImpl.cpp:770-788, 831-846, 892-907, 952-967, 1012-1028. -/
def checkRangeChildren (env : IntF.Env) (fp : Fp) (c : IntF.Ctx) (p : RangeProp) : List Xml → State → Res State
  | [], st => .ok st
  | ch :: chs, st => do
    let st' ← checkRangeChild env fp c p ch st
    checkRangeChildren env fp c p chs st'

/-- `parseCheck...Props`, ParseFloatFieldImpl.cpp:770-788, 831-846, 892-907, 952-967, 1012-1028 -/
def checkRangeProps (env : IntF.Env) (fp : Fp) (c : IntF.Ctx) (p : RangeProp) (st : State) : Res State := do
  let st' ← checkRangeAttr fp c p st
  checkRangeChildren env fp c p (getChildren c.node [p.name]) st'

/-- First comparator, ParseFloatFieldImpl.cpp:415-440 -/
def ltByVersion (a b : RangeInfo) : Bool :=
  if a.since ≠ b.since then decide (a.since < b.since)
  else if a.depr ≠ b.depr then decide (a.depr < b.depr)
  else if compareLess a.min b.min then true
  else if compareLess b.min a.min then false
  else compareLess a.max b.max

/-- Second comparator, ParseFloatFieldImpl.cpp:482-510 -/
def ltByValue (a b : RangeInfo) : Bool :=
  if compareLess a.min b.min then true
  else if compareLess b.min a.min then false
  else if compareLess a.max b.max then true
  else if compareLess b.max a.max then false
  else if a.since ≠ b.since then decide (a.since < b.since)
  else decide (a.depr < b.depr)

/-- Inner loop of the merge, ParseFloatFieldImpl.cpp:448-471: `cur` is `*iter`, the list is what follows. `nextIter->m_deprecatedSince = 0` marks
    absorbed ranges. -/
def mergeInner (cur : RangeInfo) : List RangeInfo → RangeInfo × List RangeInfo
  | [] => (cur, [])
  | n :: ns =>
    if n.depr = 0 then ((mergeInner cur ns).1, n :: (mergeInner cur ns).2)
    else if cur.since ≠ n.since ∨ cur.depr ≠ n.depr ∨ cur.max.special = true ∨ n.min.special = true ∨ compareLess cur.max n.min = true then
      (cur, n :: ns)
    else
      ((mergeInner { cur with max := Dbl.max cur.max n.max } ns).1,
        { n with depr := 0 } :: (mergeInner { cur with max := Dbl.max cur.max n.max } ns).2)

/-- Outer loop of the merge, ParseFloatFieldImpl.cpp:442-472; `fuel` bounds the number of iterations (the length of the list). -/
def mergeOuter : Nat → List RangeInfo → List RangeInfo
  | 0, l => l
  | _ + 1, [] => []
  | fuel + 1, r :: rs =>
    if r.depr = 0 then r :: mergeOuter fuel rs
    else (mergeInner r rs).1 :: mergeOuter fuel (mergeInner r rs).2

/-- Sort, merge, erase, sort: ParseFloatFieldImpl.cpp:415-510 -/
def normaliseRanges (l : List RangeInfo) : List RangeInfo :=
  sortBy ltByValue ((mergeOuter (sortBy ltByVersion l).length (sortBy ltByVersion l)).filter fun r => r.depr ≠ 0)

/-- `parseUpdateValidRanges`, ParseFloatFieldImpl.cpp:403-513 -/
def updateValidRanges (env : IntF.Env) (fp : Fp) (c : IntF.Ctx) (st : State) : Res State := do
  Res.check (c.props.validateSingle "validFullRange".toList)
  let st ← checkRangeProps env fp c .full st
  let st ← checkRangeProps env fp c .range st
  let st ← checkRangeProps env fp c .value st
  let st ← checkRangeProps env fp c .min st
  let st ← checkRangeProps env fp c .max st
  pure { st with validRanges := normaliseRanges st.validRanges }

/-! ## The rest -/

/-- `parseUpdateUnits`, ParseFloatFieldImpl.cpp:661-681 -/
def updateUnits (c : IntF.Ctx) (st : State) : Res State :=
  if !c.props.validateSingle "units".toList then .err
  else match c.props.find "units".toList with
  | none => .ok st
  | some s => match strToUnits s with
    | none => .err
    | some u => .ok { st with units := u }

/-- `parseUpdateDisplayDecimals`, ParseFloatFieldImpl.cpp:683-703 -/
def updateDisplayDecimals (c : IntF.Ctx) (st : State) : Res State :=
  if !c.props.validateSingle "displayDecimals".toList then .err
  else match c.props.find "displayDecimals".toList with
  | none => .ok st
  | some s => match strToUnsigned s with
    | none => .err
    | some u => .ok { st with displayDecimals := u }

/-- `parseImpl`, ParseFloatFieldImpl.cpp:204-219, from the given initial (new or reused) state. `parseUpdateDisplaySpecials` only warns. -/
def parseImpl (env : IntF.Env) (fp : Fp) (c : IntF.Ctx) (st : State) : Res State := do
  let st ← updateType c st
  let st ← updateEndian env c st
  let st ← updateLength st
  let st ← updateNonUnique env c (updateMinMax st)
  let st ← updateSpecials env fp c st
  let st ← updateDefault fp c st
  let st ← updateValidCheckVersion env c st
  let st ← updateValidRanges env fp c st
  let st ← updateUnits c st
  updateDisplayDecimals c st

/-- States of accepted `<float>` fields: a new definition or one that reuses an accepted field (`parseReuseImpl`, ParseFloatFieldImpl.cpp:196-202,
    copies the state), in any schema and position. -/
inductive Accepted : State → Prop where
  | fresh {env : IntF.Env} {fp : Fp} {c : IntF.Ctx} {st : State} : parseImpl env fp c (initState env) = .ok st → Accepted st
  | reuse {env : IntF.Env} {fp : Fp} {c : IntF.Ctx} {st0 st : State} : Accepted st0 → parseImpl env fp c st0 = .ok st → Accepted st

/-- `parseHasNonUniqueSpecials`, ParseFloatFieldImpl.cpp:114-151: the flag set and, among the values, more than one `nan` or two equal other values
    (the values without `nan` are sorted and neighbours compared). -/
def adjacentEqual : List Dbl → Bool
  | [] => false
  | [_] => false
  | a :: b :: r => (a == b) || adjacentEqual (b :: r)

/-- `parseHasNonUniqueSpecials`, ParseFloatFieldImpl.cpp:114-151 -/
def hasNonUniqueSpecials (st : State) : Bool :=
  st.nonUniqueSpecials &&
    let vs := (st.specials.map fun s => s.2.value).filter fun v => !v.isNan
    (decide (vs.length + 1 < st.specials.length) || adjacentEqual (sortBy Dbl.lt vs))

/-! ## Numbers of other fields -/

/-- Rounding of a natural number to 53 significant bits, to even in the middle (`static_cast<double>` of an integer). Helper of `ofInt`, ParseFieldImpl.cpp:595-602. -/
def round53 (n : Nat) : Nat :=
  if n < 2 ^ 53 then n
  else
    let e := Nat.log2 n - 52
    let q := n / 2 ^ e
    let r := n % 2 ^ e
    if 2 ^ (e - 1) < r ∨ (r = 2 ^ (e - 1) ∧ q % 2 = 1) then (q + 1) * 2 ^ e else q * 2 ^ e

/-- `static_cast<double>(intVal)`, ParseFieldImpl.cpp:595-602 -/
def ofInt (v : Int) : Dbl := .fin ((if v < 0 then -(round53 v.natAbs : Int) else (round53 v.natAbs : Int)) * 2 ^ 1074)

/-- `ParseFieldImpl::parseStrToFpImpl`, ParseFieldImpl.cpp:587-603: the numeric value of another kind of field. -/
def ofNumeric (v : Int × Bool) : Dbl := if v.2 then ofInt (castU64 v.1) else ofInt v.1

end Commsdsl.FloatF
