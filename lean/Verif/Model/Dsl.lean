import Verif.Model.Text
/-!
# DSL feature gating (`lib/src/parse/ParseProtocolImpl.cpp:321-507`)
-/
namespace Commsdsl.Dsl
open Commsdsl

/-- `parseIsFeatureSupported`, ParseProtocolImpl.cpp:321-329; `dsl` is `parseCurrSchema().parseDslVersion()`. -/
def featureSupported (dsl minDslVersion : Nat) : Bool := if dsl = 0 then true else decide (minDslVersion ≤ dsl)

/-- `parseIsFeatureDeprecated`, ParseProtocolImpl.cpp:331-339 -/
def featureDeprecated (dsl deprecatedVersion : Nat) : Bool := if dsl = 0 then false else decide (deprecatedVersion ≤ dsl)

/-- The table of `parseIsPropertySupported`, ParseProtocolImpl.cpp:341-374 -/
def supportedTable : List (Str × Nat) := [
  ("validateMinLength".toList, 4), ("defaultValidValue".toList, 4), ("availableLengthLimit".toList, 4),
  ("copyCodeFrom".toList, 5), ("semanticLayerType".toList, 5), ("checksumFrom".toList, 5), ("checksumUntil".toList, 5),
  ("termSuffix".toList, 5), ("missingOnReadFail".toList, 5), ("missingOnInvalid".toList, 5), ("reuseCode".toList, 5),
  ("construct".toList, 6), ("readCond".toList, 6), ("validCond".toList, 6), ("constructAsReadCond".toList, 6),
  ("constructAsValidCond".toList, 6), ("fixedValue".toList, 7), ("copyConstructFrom".toList, 7),
  ("copyReadCondFrom".toList, 7), ("copyValidCondFrom".toList, 7), ("seekField".toList, 8), ("escField".toList, 8)]

/-- `parseIsPropertySupported`, ParseProtocolImpl.cpp:341-374 -/
def propertySupported (dsl : Nat) (name : Str) : Bool :=
  match (supportedTable.find? fun p => p.1 == name) with
  | none => true
  | some p => featureSupported dsl p.2

/-- The table of `parseIsPropertyDeprecated`, ParseProtocolImpl.cpp:376-392 -/
def deprecatedTable : List (Str × Nat) := [
  ("displayReadOnly".toList, 7), ("displayHidden".toList, 7), ("displaySpecials".toList, 7),
  ("displayExtModeCtrl".toList, 7), ("displayIdxReadOnlyHidden".toList, 7)]

/-- `parseIsPropertyDeprecated`, ParseProtocolImpl.cpp:376-392. Unknown names count as deprecated, as in the code. -/
def propertyDeprecated (dsl : Nat) (name : Str) : Bool :=
  match (deprecatedTable.find? fun p => p.1 == name) with
  | none => true
  | some p => featureDeprecated dsl p.2

/-- The features that have their own query function, ParseProtocolImpl.cpp:394-507. -/
inductive Feature where
  | fieldValueReference | semanticTypeLength | semanticTypeRefInheritance | nonUniqueSpecialsAllowed
  | fieldAlias | copyFieldsFromBundle | overrideType | nonIntSemanticTypeLength | memberReplace | multiSchema
  | interfaceFieldReference | failOnInvalidInMessage | sizeCompInConditionals | existsCheckInConditionals
  | validValueInStringAndData | validateMinLengthForFields | messageReuse | interfaceReuse | validCondInCompositeFields
  | namespaceDisplayName | frameDisplayName | layerDisplayName | syncSuffixLayer
  deriving DecidableEq, Repr

/-- The `parseIs...Supported()` functions, ParseProtocolImpl.cpp:394-507. -/
def isSupported (dsl : Nat) : Feature → Bool
  | .fieldValueReference | .semanticTypeLength | .semanticTypeRefInheritance | .nonUniqueSpecialsAllowed => featureSupported dsl 2
  | .fieldAlias => featureSupported dsl 3
  | .copyFieldsFromBundle | .overrideType => featureSupported dsl 4
  | .nonIntSemanticTypeLength | .memberReplace | .multiSchema => featureSupported dsl 5
  | .interfaceFieldReference | .failOnInvalidInMessage | .sizeCompInConditionals | .existsCheckInConditionals =>
    featureSupported dsl 6
  | .validValueInStringAndData | .validateMinLengthForFields | .messageReuse | .interfaceReuse | .validCondInCompositeFields
  | .namespaceDisplayName | .frameDisplayName | .layerDisplayName => featureSupported dsl 7
  | .syncSuffixLayer => featureSupported dsl 8

end Commsdsl.Dsl
