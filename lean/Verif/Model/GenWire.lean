import Verif.Model.GenScope
import Verif.Model.GenSchema
import Verif.Model.GenText
import Verif.Model.EnumField
import Verif.Model.SetField
import Verif.Model.Field
/-!
# Options about serialisation of numeric fields (`app/commsdsl2comms/src/CommsIntField.cpp`, `CommsEnumField.cpp`, `CommsSetField.cpp`, `CommsRefField.cpp`,
`CommsField.cpp`)

Every function gives the texts it appends to the list of options.
-/
namespace Commsdsl.Gen
open Commsdsl Text IntF Fld

/-- `LengthMap`, CommsIntField.cpp:775-786, CommsEnumField.cpp:1223-1234 -/
def lengthMap : IntType → Nat
  | .int8 | .uint8 => 1
  | .int16 | .uint16 => 2
  | .int32 | .uint32 => 4
  | .int64 | .uint64 => 8
  | .intvar | .uintvar => 0

/-- `secondParam`, CommsIntField.cpp:761-764, 798-801 -/
def signParam (ext : Bool) : Str := if ext then [] else ", false".toList

/-- `commsAddLengthOptInternal`, CommsIntField.cpp:744-808, on what the parse object says: `parseMinLength`, `parseMaxLength`, `parseBitLength`,
    `parseSignExt`. -/
def lengthOpts (t : IntType) (minLen maxLen bits : Nat) (ext : Bool) : List Str :=
  if t = .intvar ∨ t = .uintvar then
    ["comms::option::def::VarLength<".toList ++ numToStringU minLen 0 ++ ", ".toList ++ numToStringU maxLen 0 ++ ">".toList]
  else if bits ≠ 0 then ["comms::option::def::FixedBitLength<".toList ++ numToStringU bits 0 ++ signParam ext ++ ">".toList]
  else if lengthMap t ≠ minLen then ["comms::option::def::FixedLength<".toList ++ numToStringU minLen 0 ++ signParam ext ++ ">".toList]
  else []

/-- `commsAddLengthOptInternal`, CommsIntField.cpp:744-808, for a field that is a member of a bitfield or not (`parseBitLengthImpl`, ParseIntFieldImpl.cpp:406-412).
    The lengths are those of ParseIntFieldImpl.cpp:392-404. -/
def intLengthOpts (t : IntType) (st : IntF.State) (member : Bool) : List Str :=
  lengthOpts t (IntF.minLength st) (IntF.maxLength st) (if member then st.bitLength else 0) st.signExt

/-- `commsAddLengthOptInternal`, CommsEnumField.cpp:1200-1253: the same without the second parameter. -/
def enumLengthOpts (t : IntType) (st : EnumF.State) (member : Bool) : List Str :=
  lengthOpts t (IntF.minLength st.num) (IntF.maxLength st.num) (if member then st.num.bitLength else 0) true

/-- `commsAddLengthOptInternal`, CommsSetField.cpp:701-710 -/
def setLengthOpts (st : SetF.State) (member : Bool) : List Str :=
  if member && st.bitLength != 0 then ["comms::option::def::FixedBitLength<".toList ++ numToStringU st.bitLength 0 ++ ">".toList]
  else ["comms::option::def::FixedLength<".toList ++ numToStringU st.length 0 ++ ">".toList]

/-- `commsAddBitLengthOptInternal`, CommsRefField.cpp:224-231 -/
def refLengthOpts (bits : Nat) (member : Bool) : List Str :=
  if member && bits != 0 then ["comms::option::def::FixedBitLength<".toList ++ numToStringU bits 0 ++ ">".toList] else []

/-- An option with one signed number. Helper of `serOffsetOpts`, CommsIntField.cpp:810-823. -/
def numOpt (name : String) (v : Int) : Res (List Str) := do
  let s ← numToStringS v
  pure ["comms::option::def::".toList ++ name.toList ++ "<".toList ++ s ++ ">".toList]

/-- `commsAddSerOffsetOptInternal`, CommsIntField.cpp:810-823 -/
def serOffsetOpts (st : IntF.State) : Res (List Str) := if st.serOffset = 0 then .ok [] else numOpt "NumValueSerOffset" st.serOffset

/-- `commsAddDisplayOffsetOptInternal`, CommsIntField.cpp:825-838 -/
def displayOffsetOpts (st : IntF.State) : Res (List Str) := if st.displayOffset = 0 then .ok [] else numOpt "DisplayOffset" st.displayOffset

/-- `commsAddScalingOptInternal`, CommsIntField.cpp:840-864 -/
def scalingOpts (st : IntF.State) : Res (List Str) :=
  if st.scaling.1 = 1 ∧ st.scaling.2 = 1 then .ok []
  else if st.scaling.1 = 0 ∨ st.scaling.2 = 0 then .ok []
  else do
    let a ← numToStringS st.scaling.1
    let b ← numToStringS st.scaling.2
    pure ["comms::option::def::ScalingRatio<".toList ++ a ++ ", ".toList ++ b ++ ">".toList]

/-- The end of the two `commsAddDefaultValueOptInternal`s, CommsIntField.cpp:888-908, CommsEnumField.cpp:1178-1197 -/
def nonZeroDefault (t : IntType) (d : Int) : Res (List Str) :=
  if d = 0 then .ok []
  else if d < 0 ∧ (t = .uint64 ∨ t = .uintvar) then
    .ok ["comms::option::def::DefaultBigUnsignedNumValue<".toList ++ numToStringU (castU64 d) 0 ++ ">".toList]
  else numOpt "DefaultNumValue" d

/-- `commsAddDefaultValueOptInternal`, CommsIntField.cpp:876-909; `sem` is the semantic type of the field. -/
def intDefaultOpts (g : GVer) (sem : Sem) (t : IntType) (st : IntF.State) : Res (List Str) :=
  if st.default = 0 ∧ sem = .version then .ok ["comms::option::def::DefaultNumValue<".toList ++ numToStringU g.version 0 ++ ">".toList]
  else nonZeroDefault t st.default

/-- `commsAddDefaultValueOptInternal`, CommsEnumField.cpp:1173-1198 -/
def enumDefaultOpts (t : IntType) (st : EnumF.State) : Res (List Str) := nonZeroDefault t st.num.default

/-- `genParseEndianToOpt`, comms.cpp:1084-1104 -/
def endianOpt : Endian → Str
  | .little => "comms::option::def::LittleEndian".toList
  | .big => "comms::option::def::BigEndian".toList

/-- `commsFieldBaseParams`, CommsField.cpp:764-777; the text between the angle brackets behind `FieldBase`. -/
def fieldBaseParams (schema field : Endian) : Str := if schema = field then [] else endianOpt field

end Commsdsl.Gen
