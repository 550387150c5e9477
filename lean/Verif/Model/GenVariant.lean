import Verif.Model.GenRead
/-!
# The read function of variants (`app/commsdsl2comms/src/CommsVariantField.cpp`, `CommsIntField.cpp`)

Code given by the user (overrides) is left out.
-/
namespace Commsdsl.Gen
open Commsdsl Text IntF Fld

/-- `genParseUnitsToOpt`, comms.cpp:1106-1165 -/
def unitsOpt : Units → Str
  | .unknown => []
  | .nanoseconds => "comms::option::def::UnitsNanoseconds".toList
  | .microseconds => "comms::option::def::UnitsMicroseconds".toList
  | .milliseconds => "comms::option::def::UnitsMilliseconds".toList
  | .seconds => "comms::option::def::UnitsSeconds".toList
  | .minutes => "comms::option::def::UnitsMinutes".toList
  | .hours => "comms::option::def::UnitsHours".toList
  | .days => "comms::option::def::UnitsDays".toList
  | .weeks => "comms::option::def::UnitsWeeks".toList
  | .nanometers => "comms::option::def::UnitsNanometers".toList
  | .micrometers => "comms::option::def::UnitsMicrometers".toList
  | .millimeters => "comms::option::def::UnitsMillimeters".toList
  | .centimeters => "comms::option::def::UnitsCentimeters".toList
  | .meters => "comms::option::def::UnitsMeters".toList
  | .kilometers => "comms::option::def::UnitsKilometers".toList
  | .nanometersPerSecond => "comms::option::def::UnitsNanometersPerSecond".toList
  | .micrometersPerSecond => "comms::option::def::UnitsMicrometersPerSecond".toList
  | .millimetersPerSecond => "comms::option::def::UnitsMillimetersPerSecond".toList
  | .centimetersPerSecond => "comms::option::def::UnitsCentimetersPerSecond".toList
  | .metersPerSecond => "comms::option::def::UnitsMetersPerSecond".toList
  | .kilometersPerSecond => "comms::option::def::UnitsKilometersPerSecond".toList
  | .kilometersPerHour => "comms::option::def::UnitsKilometersPerHour".toList
  | .hertz => "comms::option::def::UnitsHertz".toList
  | .kiloHertz => "comms::option::def::UnitsKilohertz".toList
  | .megaHertz => "comms::option::def::UnitsMegahertz".toList
  | .gigaHertz => "comms::option::def::UnitsGigahertz".toList
  | .degrees => "comms::option::def::UnitsDegrees".toList
  | .radians => "comms::option::def::UnitsRadians".toList
  | .nanoamps => "comms::option::def::UnitsNanoamps".toList
  | .microamps => "comms::option::def::UnitsMicroamps".toList
  | .milliamps => "comms::option::def::UnitsMilliamps".toList
  | .amps => "comms::option::def::UnitsAmps".toList
  | .kiloamps => "comms::option::def::UnitsKiloamps".toList
  | .nanovolts => "comms::option::def::UnitsNanovolts".toList
  | .microvolts => "comms::option::def::UnitsMicrovolts".toList
  | .millivolts => "comms::option::def::UnitsMillivolts".toList
  | .volts => "comms::option::def::UnitsVolts".toList
  | .kilovolts => "comms::option::def::UnitsKilovolts".toList
  | .bytes => "comms::option::def::UnitsBytes".toList
  | .kilobytes => "comms::option::def::UnitsKilobytes".toList
  | .megabytes => "comms::option::def::UnitsMegabytes".toList
  | .gigabytes => "comms::option::def::UnitsGigabytes".toList
  | .terabytes => "comms::option::def::UnitsTerabytes".toList

/-- `commsAddFieldDefOptions`, CommsField.cpp:779-836, for a field that is a member of a bundle, without name; `cust` is the option of customizable fields
    (CommsField.cpp:785-788), or nothing. -/
def fieldDefOpts (cust : List Str) (c : Common) : List Str :=
  cust ++ (if c.failOnInvalid then ["comms::option::def::FailOnInvalid<>".toList] else []) ++
    (if c.pseudo then ["comms::option::def::EmptySerialization".toList] else []) ++ (if c.fixedValue then ["comms::option::def::FixedValue".toList] else [])

/-- The class of a key: its C++ type, options and byte order. The options are compared as a list, in the code as a text: they do not contain the separator. Helper of `keyClass`, CommsIntField.cpp:71-74, 125-145, 585-606, 719-742. -/
structure KeyClass where
  ty : CppInt
  opts : List Str
  endian : Option Endian
  deriving DecidableEq, Repr

/-- `commsVariantPropKeyType` and what is compared by `commsVariantIsPropKeyEquivalent`, CommsIntField.cpp:71-74, 125-145, 585-606, 719-742 -/
def keyClass (cust : List Str) (c : Common) (t : IntType) (st : IntF.State) : Res KeyClass := do
  let off ← serOffsetOpts st
  let disp ← displayOffsetOpts st
  let sc ← scalingOpts st
  pure ⟨cppIntType t (IntF.maxLength st), fieldDefOpts cust c ++ intLengthOpts t st false ++ off ++ disp ++ sc ++
    (if (unitsOpt st.units).isEmpty then [] else [unitsOpt st.units]), st.endian⟩

/-- `commsVariantPropKeyValueStr`, CommsIntField.cpp:76-96 -/
def keyLabel (t : IntType) (st : IntF.State) : Res Str :=
  if !isUnsigned t then numToStringS st.default
  else .ok (numToStringU (castU64 st.default) 0 ++ " /* ".toList ++ numToStringU (castU64 st.default) (IntF.maxLength st * 2) ++ " */".toList)

/-- `commsintIsValidPropKeyInternal`, CommsVariantField.cpp:46-74, `commsVariantIsValidPropKey`, CommsIntField.cpp:98-123 -/
def isPropKey (c : Common) (st : IntF.State) : Bool :=
  c.failOnInvalid && !c.pseudo && (match st.validRanges with
    | [r] => r.min == r.max && r.min == st.default
    | _ => false)

/-- `commsBundleGetValidPropKeyInternal`, CommsVariantField.cpp:76-99. `commsHasGeneratedReadCode` (CommsField.cpp:211-214, 610-613) is false for every
    `<int>`. -/
def bundleKey : List Field → Option (Common × IntF.State)
  | .int c st :: _ => if isPropKey c st then some (c, st) else none
  | _ => none

/-- A key: the index of the member of the variant, and the `<int>` field. Helper of `keyLoop`, CommsVariantField.cpp:1083-1115. -/
structure Key where
  idx : Nat
  c : Common
  st : IntF.State

/-- The class of a key; `cust` gives the options of customizable fields. Helper of `keyLoop`, CommsVariantField.cpp:1083-1115. -/
def Key.cls (cust : Nat → List Str) (k : Key) : Res KeyClass :=
  match k.st.type with
  | none => .ub
  | some t => keyClass (cust k.idx) k.c t k.st

/-- The loop of `commsOptimizedReadKeyInternal`, CommsVariantField.cpp:1083-1115, on the members from index `i` on: the first key (`propKey`) and the texts of all keys
    up to here; `none` if the read is not to be optimized. -/
def keyLoop (cust : Nat → List Str) : Nat → Option Key → List Str → List Field → Res (Option (Option Key))
  | _, first, _, [] => .ok (some first)
  | i, first, seen, m :: ms =>
    match throughRefs m with
    | some (.bundle _ bs _ _) =>
      match bundleKey bs with
      | none => if ms.isEmpty then .ok (some first) else .ok none
      | some (c, st) =>
        match st.type with
        | none => .ub
        | some t => (keyLabel t st).bind fun l =>
          if seen.contains l then .ok none
          else match first with
          | none => keyLoop cust (i + 1) (some ⟨i, c, st⟩) (l :: seen) ms
          | some k0 => (k0.cls cust).bind fun a => (Key.cls cust ⟨i, c, st⟩).bind fun b =>
              if a = b then keyLoop cust (i + 1) (some k0) (l :: seen) ms else .ok none
    | some _ => .ok none
    | none => .ub

/-- `commsOptimizedReadKeyInternal`, CommsVariantField.cpp:1073-1119 -/
def optimizedKey (cust : Nat → List Str) (ms : List Field) : Res (Option KeyClass) :=
  if ms.length ≤ 1 then .ok none
  else (keyLoop cust 0 none [] ms).bind fun r => match r with
    | none => .ok none
    | some none => .ub
    | some (some k) => (k.cls cust).bind fun a => .ok (some a)

/-- The generated function: the class of the key that is read, labels of the cases with the index of the member to be read then, the index of the member for
    `default`. Helper of `variantRead`, CommsVariantField.cpp:335-445. -/
structure KeySwitch where
  key : KeyClass
  cases : List (Str × Nat)
  dflt : Option Nat
  deriving DecidableEq, Repr

/-- The loop, CommsVariantField.cpp:344-404, on the members from index `i` on. -/
def caseLoop : Nat → List Field → Res (List (Str × Nat) × Option Nat)
  | _, [] => .ok ([], none)
  | i, m :: ms =>
    match throughRefs m with
    | some (.bundle _ (.int c st :: _) _ _) =>
      if !ms.isEmpty || isPropKey c st then
        match st.type with
        | none => .ub
        | some t => (keyLabel t st).bind fun l => (caseLoop (i + 1) ms).bind fun r => .ok ((l, i) :: r.1, r.2)
      else .ok ([], some i)
    | _ => .ub

/-- `commsDefReadFuncBodyImpl`, CommsVariantField.cpp:335-445: `none` if there is no function. -/
def variantRead (cust : Nat → List Str) (ms : List Field) : Res (Option KeySwitch) :=
  (optimizedKey cust ms).bind fun k => match k with
    | none => .ok none
    | some k => (caseLoop 0 ms).bind fun r => .ok (some ⟨k, r.1, r.2⟩)

end Commsdsl.Gen
