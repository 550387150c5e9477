import Verif.Model.FieldParse
/-!
# Values of fields, as other elements refer to them (`parseStrToNumeric`, `parseStrToBool`, `parseStrToString`, `parseStrToData`)

`dsl` is the DSL version of the schema being parsed (`parseIsFieldValueReferenceSupported()`). A `<ref>` without target cannot exist after
parsing (asserted in ParseRefFieldImpl.cpp:279); the model returns nothing for it.
-/
namespace Commsdsl.Fld
open Commsdsl Text

/-- `parseIsFieldValueReferenceSupported()`. Helper of `intNumeric`, ParseIntFieldImpl.cpp:426-457. -/
abbrev refOk (dsl : Nat) : Bool := Dsl.isSupported dsl .fieldValueReference

/-- A number with the `isBigUnsigned` flag: `updateIsBigUnsignedFunc`, ParseIntFieldImpl.cpp:432-441 -/
def withBig (t : Option IntF.IntType) (v : Int) : Int × Bool :=
  (v, (match t with | some t => IntF.isBigUnsigned t | none => false) && decide (9223372036854775807 < castU64 v))

/-- `ParseIntFieldImpl::parseStrToNumericImpl`, ParseIntFieldImpl.cpp:426-457 -/
def intNumeric (dsl : Nat) (st : IntF.State) (s : Str) : Option (Int × Bool) :=
  if !refOk dsl then none
  else if s.isEmpty then some (withBig st.type st.default)
  else (IntF.findSpecial st.specials s).map fun i => withBig st.type i.value

/-- `ParseSetFieldImpl::parseStrToBoolImpl`, ParseSetFieldImpl.cpp:202-220 -/
def setBool (dsl : Nat) (st : SetF.State) (s : Str) : Option Bool :=
  if !refOk dsl then none
  else if s.isEmpty then some st.defaultBit
  else (SetF.findBit st.bits s).map fun b => b.default

/-- `ParseSetFieldImpl::parseStrToNumericImpl`, ParseSetFieldImpl.cpp:181-200 -/
def setNumeric (dsl : Nat) (st : SetF.State) (s : Str) : Option (Int × Bool) :=
  (setBool dsl st s).map fun b => (if b then 1 else 0, false)

section
variable {α : Type} (dsl : Nat) (leaf : Field → Str → Option α)

mutual
/-- The way from a field to the value: the kinds with a value of the wanted type answer themselves (`leaf`); `<ref>`
    (ParseRefFieldImpl.cpp:270-281), `<optional>` (ParseOptionalFieldImpl.cpp:539-562), `<bundle>`, `<bitfield>`, `<variant>`
    (`parseStrToValueOnFields`, ParseFieldImpl.cpp:916-946) pass the question on. -/
def fieldValue : Field → Str → Option α
  | .int c st, s => leaf (.int c st) s
  | .enum c st, s => leaf (.enum c st) s
  | .set c st, s => leaf (.set c st) s
  | .float c st, s => leaf (.float c st) s
  | .string c st p, s => leaf (.string c st p) s
  | .data c st p, s => leaf (.data c st p) s
  | .list c st a b d e t, s => leaf (.list c st a b d e t) s
  | .bitfield _ _ ms _, s => if s.isEmpty || !refOk dsl then none else memberValue ms (beforeDot s) (afterDot s)
  | .bundle _ ms _ _, s => if s.isEmpty || !refOk dsl then none else memberValue ms (beforeDot s) (afterDot s)
  | .variant _ _ ms, s => if s.isEmpty || !refOk dsl then none else memberValue ms (beforeDot s) (afterDot s)
  | .optional _ _ f _, s => if s.isEmpty || !refOk dsl then none else optValue f s
  | .ref _ _ t, s => if !refOk dsl then none else slotValue t s
/-- The first member of a name, ParseFieldImpl.cpp:927-936 -/
def memberValue : List Field → Str → Str → Option α
  | [], _, _ => none
  | f :: fs, n, rest => if f.name = n then fieldValue f rest else memberValue fs n rest
/-- Only an owned field of an `<optional>` is looked at. Helper of `fieldValue`, ParseRefFieldImpl.cpp:270-281. -/
def optValue : Slot Field → Str → Option α
  | .none, _ => none
  | .ext _, _ => none
  | .own f, s => if f.name = beforeDot s then fieldValue f (afterDot s) else none
/-- The target of a `<ref>`. Helper of `fieldValue`, ParseRefFieldImpl.cpp:270-281. -/
def slotValue : Slot Field → Str → Option α
  | .none, _ => none
  | .ext f, s => fieldValue f s
  | .own f, s => fieldValue f s
end
end

/-- Kinds with a numeric value. The overrides of `parseStrToNumericImpl`, ParseFieldImpl.cpp:573-585. -/
def numericLeaf (dsl : Nat) : Field → Str → Option (Int × Bool)
  | .int _ st, s => intNumeric dsl st s
  | .enum _ st, s => EnumF.strToNumeric dsl st s
  | .set _ st, s => setNumeric dsl st s
  | _, _ => none

/-- Kinds with a boolean value. The overrides of `parseStrToBoolImpl`, ParseFieldImpl.cpp:604-613. -/
def boolLeaf (dsl : Nat) : Field → Str → Option Bool
  | .set _ st, s => setBool dsl st s
  | _, _ => none

/-- Kinds with a string value, ParseStringFieldImpl.cpp:217-229 -/
def stringLeaf (dsl : Nat) : Field → Str → Option Str
  | .string _ st _, s => if refOk dsl && s.isEmpty then some st.default else none
  | _, _ => none

/-- Kinds with raw data, ParseDataFieldImpl.cpp:184-196 -/
def dataLeaf (dsl : Nat) : Field → Str → Option (List Nat)
  | .data _ st _, s => if refOk dsl && s.isEmpty then some st.default else none
  | _, _ => none

/-- Floating point values: `ParseFloatFieldImpl::parseStrToFpImpl`, ParseFloatFieldImpl.cpp:232-251; the other kinds give their number,
    `ParseFieldImpl::parseStrToFpImpl`, ParseFieldImpl.cpp:587-603 -/
def fpLeaf (dsl : Nat) : Field → Str → Option FloatF.Dbl
  | .float _ st, s =>
    if !refOk dsl then none
    else if s.isEmpty then some st.default
    else (FloatF.findSpecial st.specials s).map fun i => i.value
  | f, s => (numericLeaf dsl f s).map FloatF.ofNumeric

/-- `parseStrToNumeric`, `parseStrToBool`: bitfields, bundles and variants pass numbers and booleans on
    (ParseBitfieldFieldImpl.cpp:197-210, ParseBundleFieldImpl.cpp:235-248, ParseVariantFieldImpl.cpp:178-191). -/
def Field.numeric (dsl : Nat) (f : Field) (s : Str) : Option (Int × Bool) := fieldValue dsl (numericLeaf dsl) f s
/-- `parseStrToFp` of a field: ParseRefFieldImpl.cpp:161-170, ParseOptionalFieldImpl.cpp:180-193, ParseFieldImpl.cpp:968-984. -/
def Field.fpVal (dsl : Nat) (f : Field) (s : Str) : Option FloatF.Dbl := fieldValue dsl (fpLeaf dsl) f s
/-- `parseStrToBool` of a field. ParseFieldImpl.cpp:604-613 and 986-1002. -/
def Field.boolVal (dsl : Nat) (f : Field) (s : Str) : Option Bool := fieldValue dsl (boolLeaf dsl) f s
/-- `parseStrToString` of a field. (A `<bitfield>` has no strings inside, so that passing the question on does not matter.). ParseFieldImpl.cpp:615-624 and 1004-1021. -/
def Field.stringVal (dsl : Nat) (f : Field) (s : Str) : Option Str := fieldValue dsl (stringLeaf dsl) f s
/-- `parseStrToData` of a field. ParseFieldImpl.cpp:626-635 and 1023-1040. -/
def Field.dataVal (dsl : Nat) (f : Field) (s : Str) : Option (List Nat) := fieldValue dsl (dataLeaf dsl) f s

end Commsdsl.Fld
