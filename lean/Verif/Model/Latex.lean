import Verif.Model.GenText
import Verif.Model.GenSet
import Verif.Model.GenFloat
import Verif.Model.EnumField
/-!
# The LaTeX documents (`app/commsdsl2latex/src`)

The texts and table rows the `commsdsl2latex` tool writes about schema elements. File handling, section titles and the fixed texts around the
tables are not modelled.
-/
namespace Commsdsl.Gen
open Commsdsl Text IntF Msg

/-! ## Escaping -/

/-- The characters looked for in `latexEscString`, LatexGenerator.cpp:211 -/
def isTexSpecial (c : Char) : Bool := "{}#%$_&".toList.contains c

/-- The loop of `latexEscString`, LatexGenerator.cpp:210-221: positions are found in `tmp`, text is copied from `s`. `none` when the fuel is
    exhausted (it never is: `pos` grows). -/
def escLoop (s tmp : Str) : Nat → Nat → Option Str
  | 0, _ => none
  | fuel + 1, pos =>
    if s.length ≤ pos then some []
    else match findFirstOf isTexSpecial tmp pos with
      | none => some (s.drop pos)
      | some next =>
        if s.length ≤ next then some (s.drop pos)
        else (escLoop s tmp fuel (next + 1)).map fun r => (s.drop pos).take (next - pos) ++ '\\' :: (s.drop next).take 1 ++ r

/-- `LatexGenerator::latexEscString`, LatexGenerator.cpp:204-225 -/
def latexEsc (s : Str) : Str :=
  let tmp := strReplace s "\\".toList "\\textbackslash{}".toList
  let r := (escLoop s tmp (s.length + 1) 0).getD []
  strReplace (strReplace r "^".toList "\\^{}".toList) "~".toList "\\~{}".toList

/-- `util::genDisplayName`, lib/src/gen/util.cpp:719-730 -/
def displayNameOf (disp name : Str) : Str := if disp.isEmpty then name else if disp == "_".toList then [] else disp

/-- `LatexGenerator::latexEscDisplayName`, LatexGenerator.cpp:227-235 -/
def latexName (disp name : Str) : Str :=
  let r := displayNameOf disp name
  latexEsc (if r.isEmpty then name else r)

/-! ## Labels -/

/-- `GenElem::GenType` without `Invalid`, include/commsdsl/gen/GenElem.h -/
inductive ElemKind where
  | ns | msg | field | iface | frame | layer | schema
  deriving DecidableEq, Repr

/-- `latexLabelPrefix`, LatexGenerator.cpp:106-129 -/
def labelPrefix : ElemKind → Str
  | .ns => "ns_".toList
  | .msg => "msg_".toList
  | .field => "field_".toList
  | .iface => "iface_".toList
  | .frame => "frame_".toList
  | .layer => "layer_".toList
  | .schema => "schema_".toList

/-- The name of the element with the prefix, LatexGenerator.cpp:189-192 -/
def labelSeg (k : ElemKind) (name : Str) : Str := if name.isEmpty then [] else labelPrefix k ++ name

/-- `LatexGenerator::latexLabelId`, LatexGenerator.cpp:181-202, for the element reached by the path, innermost element first. -/
def labelId : List (ElemKind × Str) → Str
  | [] => []
  | (k, name) :: parents =>
    let prefix' := labelId parents
    let seg := labelSeg k name
    (if !prefix'.isEmpty && !seg.isEmpty then prefix' ++ ":".toList else prefix') ++ seg

/-! ## Numbers and lengths -/

/-- `LatexGenerator::latexIntegralToStr`, LatexGenerator.cpp:250-263 -/
def latexInt (value : Int) (uns : Bool) (hexWidth : Nat) : Str :=
  if uns || decide (0 ≤ value) then toDec (castU64 value) ++ " (0x".toList ++ padZero hexWidth (toHex false (castU64 value)) ++ ")".toList
  else toDecS value

/-- The text of the lengths in the tables of members and layers, LatexField.cpp:397-409, LatexFrame.cpp:178-191, and, with the unit, in
    the details of fields and messages, LatexField.cpp:281-291, LatexMessage.cpp:213-226. The largest `std::size_t` is `InvalidLength`. -/
def lengthText (min max : Nat) : Str :=
  if max = min then toDec min
  else if max = 2 ^ 64 - 1 then toDec min ++ "+".toList
  else toDec min ++ (" - ".toList ++ toDec max)

/-! ## Values of `<int>` and `<enum>` fields -/

/-- The text of a valid range, LatexIntField.cpp:77-98 -/
def latexRange (uns : Bool) (r : RangeInfo) : Str :=
  if r.min = r.max then latexInt r.min uns 0
  else "[".toList ++ latexInt r.min uns 0 ++ " - ".toList ++ latexInt r.max uns 0 ++ "]".toList

/-- The valid ranges that are listed, LatexIntField.cpp:77-98 -/
def latexRanges (g : GVer) (uns : Bool) (rs : List RangeInfo) : List Str :=
  (rs.filter fun r => doesExist g r.since r.depr true).map (latexRange uns)

/-- One row of the table of values or special values. Helper of `ValueRow.text`, LatexEnumField.cpp:72-75. -/
structure ValueRow where
  value : Int
  name : Str
  description : Str
  deriving DecidableEq, Repr

/-- The text of a row, LatexEnumField.cpp:72-75, LatexIntField.cpp:161-164 -/
def ValueRow.text (uns : Bool) (hexWidth : Nat) (r : ValueRow) : Str :=
  latexInt r.value uns hexWidth ++ " & ".toList ++ r.name ++ " & ".toList ++ r.description

/-- The row of a value, LatexEnumField.cpp:72-75, LatexIntField.cpp:132-136 -/
def rowOf (p : Str × SpecialInfo) : ValueRow := { value := p.2.value, name := latexName p.2.displayName p.1, description := p.2.description }

/-- The order of the rows of special values, LatexIntField.cpp:144-157 -/
def rowLt (uns : Bool) (a b : ValueRow) : Bool :=
  if a.value = b.value then strLt a.name b.name
  else if uns then decide (castU64 a.value < castU64 b.value)
  else decide (a.value < b.value)

/-- The rows of special values, LatexIntField.cpp:125-164 -/
def specialRows (g : GVer) (uns : Bool) (l : List (Str × SpecialInfo)) : List ValueRow :=
  sortBy (rowLt uns) ((l.filter fun p => doesExist g p.2.since p.2.depr true).map rowOf)

/-- One entry of the reverse table of an `<enum>`, LatexEnumField.cpp:61-76 -/
def enumRow (g : GVer) (st : EnumF.State) (e : Int × Str) : Option ValueRow :=
  match st.values.find? fun p => p.1 == e.2 with
  | none => none
  | some p => if doesExist g p.2.since p.2.depr true then some (rowOf p) else none

/-- The rows of values of an `<enum>`, LatexEnumField.cpp:54-77 -/
def enumRows (g : GVer) (st : EnumF.State) : List ValueRow := st.rev.filterMap (enumRow g st)

/-! ## Bits of `<set>` fields -/

/-- One row of the table of bits: the indices, the mask, and the bit it is about, if any. Helper of `gapRows`, LatexSetField.cpp:77-82. -/
structure BitRow where
  first : Nat
  last : Nat
  mask : BitVec 64
  bit : Option (Str × SetF.BitInfo)
  deriving DecidableEq, Repr

/-- The rows of single bits that are not named, LatexSetField.cpp:77-82; shifting by 64 or more is undefined. -/
def gapRows (first : Nat) : Nat → Res (List BitRow)
  | 0 => .ok []
  | n + 1 =>
    if 64 ≤ first then .ub
    else (gapRows (first + 1) n).bind fun r => .ok ({ first := first, last := first, mask := bitMask first, bit := none } :: r)

/-- The row of a named bit, LatexSetField.cpp:84-123. The look up of the name is not checked (the assertion is compiled out). -/
def namedRow (st : SetF.State) (e : Nat × Str) : Res BitRow :=
  match SetF.findBit st.bits e.2 with
  | none => .ub
  | some info => if 64 ≤ e.1 then .ub else .ok { first := e.1, last := e.1, mask := bitMask e.1, bit := some (e.2, info) }

/-- The rows of the named bits and those between them, LatexSetField.cpp:75-124; gives the index after the last one too. -/
def bitRowsLoop (st : SetF.State) : Nat → List (Nat × Str) → Res (List BitRow × Nat)
  | gap, [] => .ok ([], gap)
  | gap, e :: es =>
    (gapRows gap (e.1 - gap)).bind fun before =>
      (namedRow st e).bind fun row =>
        (bitRowsLoop st (e.1 + 1) es).bind fun r => .ok (before ++ row :: r.1, r.2)

/-- The number of bits in the table, LatexSetField.cpp:126-129. `parseBitLength` is 0 unless the field is a member of a `<bitfield>`
    (ParseSetFieldImpl.cpp:136-143). -/
def bitLimit (member : Bool) (st : SetF.State) : Nat :=
  if member && decide (st.bitLength ≠ 0) then min (st.length * 8) st.bitLength else st.length * 8

/-- The mask of the bits from `i` on, LatexSetField.cpp:132-135 -/
def maskLoop (m : BitVec 64) (i : Nat) : Nat → Res (BitVec 64)
  | 0 => .ok m
  | n + 1 => if 64 ≤ i then .ub else maskLoop (m ||| bitMask i) (i + 1) n

/-- The last row, LatexSetField.cpp:131-144 -/
def lastRow (limit gap : Nat) : Res (List BitRow) :=
  if gap < limit then (maskLoop 0#64 gap (limit - gap)).bind fun m => .ok [{ first := gap, last := limit - 1, mask := m, bit := none }]
  else .ok []

/-- The rows of the table of bits, LatexSetField.cpp:74-144; `member` tells members of bitfields. -/
def bitRows (member : Bool) (st : SetF.State) : Res (List BitRow) :=
  (bitRowsLoop st 0 st.rev).bind fun r => (lastRow (bitLimit member st) r.2).bind fun l => .ok (r.1 ++ l)

/-- `maskStr`, LatexSetField.cpp:60-66 -/
def maskText (hexWidth : Nat) (m : BitVec 64) : Str := "0x".toList ++ padZero hexWidth (toHex false m.toNat)

/-- `std::to_string` of a `bool`. Helper of `bitNote`, LatexSetField.cpp:90-123. -/
def boolDigit (b : Bool) : Str := if b then "1".toList else "0".toList

/-- The versions of a bit, LatexSetField.cpp:94-104 -/
def versionNote (b : SetF.BitInfo) : Str :=
  (if b.since ≠ 0 then "Introduced in version ".toList ++ latexInt b.since true 0 ++ ". ".toList else []) ++
  (if b.depr ≠ Versions.notYet then "Deprecated in version ".toList ++ latexInt b.depr true 0 ++ ". ".toList else [])

/-- What follows the name of a bit, LatexSetField.cpp:90-123 -/
def bitNote (b : SetF.BitInfo) : Str :=
  b.description ++
  (if b.description.isEmpty then [] else (if b.description.getLast? != some '.' then ".".toList else []) ++ " ".toList) ++
  (if b.reserved then "Expected to be ".toList ++ boolDigit b.reservedValue ++ ". ".toList else []) ++ versionNote b

/-- The text of a row, LatexSetField.cpp:78-79, 88-123, 137-142 -/
def BitRow.text (st : SetF.State) (r : BitRow) : Str :=
  toDec r.first ++ (if r.first < r.last then " - ".toList ++ toDec r.last else []) ++ " & ".toList ++ maskText (st.length * 2) r.mask ++
  match r.bit with
  | none => " & & Reserved. Expected to be ".toList ++ boolDigit st.reservedBit ++ ".".toList
  | some (name, b) => " & ".toList ++ latexName b.displayName name ++ " & ".toList ++ bitNote b

end Commsdsl.Gen
