import Verif.Model.GenSchema
import Verif.Model.GenText
import Verif.Model.EnumField
/-!
# Generated validity checks and name tables of numeric fields (`app/commsdsl2comms/src/CommsIntField.cpp`, `CommsEnumField.cpp`, `lib/src/gen/GenEnumField.cpp`)

The generator writes C++ text. Here a generated option, condition or table entry is a piece of data with the numbers in it; `VOpt.text` is the text of an option.
Numbers kept in `std::intmax_t` variables are `Int`s; `castU64` is `static_cast<std::uintmax_t>`.
-/
namespace Commsdsl.Gen
open Commsdsl Text IntF

/-- The options about valid values that the generator passes to the COMMS field classes, CommsIntField.cpp:905-1064, CommsEnumField.cpp:1255-1370. -/
inductive VOpt where
  | num (x : Int)
  | range (a b : Int)
  | bigNum (n : Nat)
  | bigRange (a b : Nat)
  | versionStorage
  | invalidByDefault
  deriving DecidableEq, Repr

/-- The text of an option, CommsIntField.cpp:1008-1052, 1057-1063 -/
def VOpt.text : VOpt → Res Str
  | .num x => do
    let a ← numToStringS x
    pure ("comms::option::def::ValidNumValue<".toList ++ a ++ ">".toList)
  | .range x y => do
    let a ← numToStringS x
    let b ← numToStringS y
    pure ("comms::option::def::ValidNumValueRange<".toList ++ a ++ ", ".toList ++ b ++ ">".toList)
  | .bigNum n => .ok ("comms::option::def::ValidBigUnsignedNumValue<".toList ++ numToStringU n 0 ++ ">".toList)
  | .bigRange n m => .ok ("comms::option::def::ValidBigUnsignedNumValueRange<".toList ++ numToStringU n 0 ++ ", ".toList ++ numToStringU m 0 ++ ">".toList)
  | .versionStorage => .ok "comms::option::def::VersionStorage".toList
  | .invalidByDefault => .ok "comms::option::def::InvalidByDefault".toList

/-- One check of a generated `valid()` function: the version conditions, if there are any, and the bounds compared with the value,
    CommsIntField.cpp:303-350, CommsEnumField.cpp:366-437. -/
structure Check where
  frm : Option Nat
  upto : Option Nat
  min : Int
  max : Int
  deriving DecidableEq, Repr

/-- The body of a generated `valid()` function: none, `Base::valid()` or else one of the checks (CommsIntField.cpp:294-299, CommsEnumField.cpp:439-445), or
    `Base::valid()` and a binary search among enumerators (CommsEnumField.cpp:304-317). -/
inductive Body where
  | none
  | anyOf (checks : List Check)
  | listed (names : List Str)
  deriving DecidableEq, Repr

/-- `bigUnsigned` of the `commsAddValidRangesOptInternal`s, CommsIntField.cpp:914-916, CommsEnumField.cpp:1260-1262 -/
def bigOpt (t : IntType) (maxLen : Nat) : Bool := t == .uint64 || (t != .uintvar && decide (8 ≤ maxLen))

/-- `bigUnsigned` of the `commsDefValidFuncBodyImpl`s and of the preparation of enums, CommsIntField.cpp:302-304, CommsEnumField.cpp:384-386, 586-588 -/
def bigBody (t : IntType) : Bool := t == .uint64 || t == .uintvar

/-- The option for one range, CommsIntField.cpp:1005-1052; the lambda in CommsEnumField.cpp:1268-1317 is the same. -/
def rangeOpt (big : Bool) (r : RangeInfo) : VOpt :=
  if big && !(decide ((castU64 r.min : Int) ≤ i64Max) && decide ((castU64 r.max : Int) ≤ i64Max)) then
    if r.min = r.max then .bigNum (castU64 r.min) else .bigRange (castU64 r.min) (castU64 r.max)
  else if r.min = r.max then .num r.min else .range r.min r.max

/-! ## `<int>` -/

/-- `needToMergeCheck`, CommsIntField.cpp:930-957: the sum wraps for `std::uintmax_t`, for `std::intmax_t` an overflow is undefined. -/
def mergeCheck (big : Bool) (a b : RangeInfo) : Res Bool :=
  if big then .ok (decide (castU64 b.min ≤ (castU64 a.max + 1) % 18446744073709551616))
  else if i64Max < a.max + 1 then .ub
  else .ok (decide (b.min ≤ a.max + 1))

/-- `<` on `std::uintmax_t` or `std::intmax_t`, CommsIntField.cpp:964-979, CommsEnumField.cpp:604-608 -/
def lessN (big : Bool) (x y : Int) : Bool := if big then decide (castU64 x < castU64 y) else decide (x < y)

/-- The update of the upper bound, CommsIntField.cpp:964-982 -/
def mergeMax (big : Bool) (a b : RangeInfo) : RangeInfo := if lessN big a.max b.max then { a with max := b.max } else a

/-- The loop that merges neighbours, CommsIntField.cpp:924-985; called for lists that are not empty. The merged range keeps the versions of the first one. -/
def unify (big : Bool) : List RangeInfo → Res (List RangeInfo)
  | [] => .ok []
  | [r] => .ok [r]
  | r :: n :: rest => do
    let m ← mergeCheck big r n
    if m then unify big (mergeMax big r n :: rest)
    else do
      let l ← unify big (n :: rest)
      pure (r :: l)
termination_by l => l.length

/-- The loop over the ranges, CommsIntField.cpp:988-1054: the options, and `versionStorageRequired`. -/
def intOptsLoop (g : GVer) (chk big : Bool) : List RangeInfo → List VOpt × Bool
  | [] => ([], false)
  | r :: rs =>
    let rest := intOptsLoop g chk big rs
    if !doesExist g r.since r.depr (!chk) then rest
    else if chk && isOptional g r.since r.depr false then (rest.1, true)
    else (rangeOpt big r :: rest.1, rest.2)

/-- `validCheckVersion`, CommsIntField.cpp:272-274, 918-920, CommsEnumField.cpp:288-290, 560-562 -/
def checkVersion (g : GVer) (validCheckVersion : Bool) : Bool := g.versionDependent && validCheckVersion

/-- The loop that merges neighbours runs unless versions are checked, CommsIntField.cpp:922-986. -/
def intRanges (big chk : Bool) (l : List RangeInfo) : Res (List RangeInfo) := if chk then .ok l else unify big l

/-- `commsAddValidRangesOptInternal`, CommsIntField.cpp:905-1065, for a field of the given type, greatest length, flag and valid ranges. -/
def intOpts (g : GVer) (t : IntType) (maxLen : Nat) (vcv : Bool) (ranges : List RangeInfo) : Res (List VOpt) :=
  if ranges.isEmpty then .ok []
  else do
    let l ← intRanges (bigOpt t maxLen) (checkVersion g vcv) ranges
    let r := intOptsLoop g (checkVersion g vcv) (bigOpt t maxLen) l
    pure (r.1 ++ (if r.2 then .versionStorage :: (if r.1.isEmpty then [.invalidByDefault] else []) else []))

/-- One check, CommsIntField.cpp:309-346 -/
def intCheck (t : IntType) (r : RangeInfo) : Check :=
  { frm := if 0 < r.since then some r.since else none
    upto := if r.depr < Versions.notYet then some r.depr else none
    min := if bigBody t then (castU64 r.min : Int) else r.min
    max := if bigBody t then (castU64 r.max : Int) else r.max }

/-- `commsDefValidFuncBodyImpl`, CommsIntField.cpp:268-357 -/
def intBody (g : GVer) (t : IntType) (vcv : Bool) (ranges : List RangeInfo) : Body :=
  if !checkVersion g vcv then .none
  else
    let l := ranges.filter fun r => isOptional g r.since r.depr true
    if l.isEmpty then .none else .anyOf (l.map (intCheck t))

/-! ## `<enum>`: valid values -/

/-- The ranges before sorting, CommsEnumField.cpp:564-582. The order is the one of the definitions instead of the one of the names: it is lost when sorting,
    except among ranges that differ only in versions which are not looked at. -/
def enumSingles (g : GVer) (chk : Bool) (st : EnumF.State) : List RangeInfo :=
  (st.values.filter fun p => doesExist g p.2.since p.2.depr (!chk)).map fun p => ⟨p.2.value, p.2.value, p.2.since, p.2.depr⟩

/-- The comparator, CommsEnumField.cpp:591-609 -/
def enumLt (big chk : Bool) (a b : RangeInfo) : Bool :=
  if chk && a.since != b.since then decide (a.since < b.since)
  else if chk && a.depr != b.depr then decide (a.depr < b.depr)
  else lessN big a.min b.min

/-- There is a gap between the ranges, CommsEnumField.cpp:631-634, 643-646 -/
def enumGap (big : Bool) (a b : RangeInfo) : Bool :=
  if big then decide (castU64 a.max < 18446744073709551615) && decide (castU64 a.max + 1 < castU64 b.min)
  else decide (a.max < i64Max) && decide (a.max + 1 < b.min)

/-- The inner loop of the merge, CommsEnumField.cpp:618-653; the new upper bound is the greater one as unsigned or signed number. -/
def enumMergeInner (big chk : Bool) (cur : RangeInfo) : List RangeInfo → RangeInfo × List RangeInfo
  | [] => (cur, [])
  | n :: ns =>
    if n.depr = 0 then
      let r := enumMergeInner big chk cur ns
      (r.1, n :: r.2)
    else if chk && (cur.since != n.since || cur.depr != n.depr) then (cur, n :: ns)
    else if enumGap big cur n then (cur, n :: ns)
    else
      let r := enumMergeInner big chk (mergeMax big cur n) ns
      (r.1, { n with depr := 0 } :: r.2)

/-- The outer loop of the merge, CommsEnumField.cpp:612-654 -/
def enumMerge (big chk : Bool) : Nat → List RangeInfo → List RangeInfo
  | 0, l => l
  | _ + 1, [] => []
  | fuel + 1, r :: rs =>
    if r.depr = 0 then r :: enumMerge big chk fuel rs
    else
      let m := enumMergeInner big chk r rs
      m.1 :: enumMerge big chk fuel m.2

/-- `commsPrepareValidRangesInternal`, CommsEnumField.cpp:556-666: `m_validRanges`; an error if no value exists. -/
def enumRanges (g : GVer) (t : IntType) (st : EnumF.State) : Res (List RangeInfo) :=
  let chk := checkVersion g st.num.validCheckVersion
  let l := enumSingles g chk st
  if l.isEmpty then .err
  else if l.length ≤ 1 then .ok l
  else
    let s := sortBy (enumLt (bigBody t) chk) l
    .ok ((enumMerge (bigBody t) chk s.length s).filter fun r => r.depr ≠ 0)

/-- `CommsMaxRangesInOpts`, CommsEnumField.cpp:41 -/
def maxRangesInOpts : Nat := 5

/-- Valid in all versions, CommsEnumField.cpp:352-355, 1329-1337 -/
def uncond (r : RangeInfo) : Bool := r.since == 0 && r.depr == Versions.notYet

/-- `commsAddValidRangesOptInternal`, CommsEnumField.cpp:1255-1370; with versions the run of ranges valid in all versions gets options. -/
def enumOpts (g : GVer) (t : IntType) (st : EnumF.State) (ranges : List RangeInfo) : List VOpt :=
  if !checkVersion g st.num.validCheckVersion then
    if maxRangesInOpts < ranges.length then [] else ranges.map (rangeOpt (bigOpt t st.num.length))
  else
    let run := (ranges.dropWhile fun r => !uncond r).takeWhile uncond
    if run.isEmpty then [.versionStorage, .invalidByDefault]
    else (if run.length ≠ ranges.length then [.versionStorage] else []) ++ run.map (rangeOpt (bigOpt t st.num.length))

/-- The enumerators listed by `valid()`: the first one of each value, CommsEnumField.cpp:330-340 -/
def listedNames : Option Int → List (Int × Str) → List Str
  | _, [] => []
  | prev, e :: es => if prev = some e.1 then listedNames prev es else e.2 :: listedNames (some e.1) es

/-- The checks of `valid()`, CommsEnumField.cpp:349-437: consecutive ranges with the same versions are put under one version condition; the model
    repeats the condition for every range. -/
def enumCheck (t : IntType) (r : RangeInfo) : Check :=
  { frm := if r.since = 0 then none else some r.since
    upto := if r.since ≠ 0 ∧ Versions.notYet ≤ r.depr then none else some r.depr
    min := if bigBody t then (castU64 r.min : Int) else r.min
    max := if bigBody t then (castU64 r.max : Int) else r.max }

/-- `commsDefValidFuncBodyImpl`, CommsEnumField.cpp:285-451 (not for the enum of the message ids, whose enumerators are elsewhere). -/
def enumBody (g : GVer) (t : IntType) (st : EnumF.State) (ranges : List RangeInfo) : Body :=
  if !checkVersion g st.num.validCheckVersion then
    if ranges.length ≤ maxRangesInOpts then .none else .listed (listedNames none st.rev)
  else .anyOf ((ranges.filter fun r => !uncond r).map (enumCheck t))

/-! ## `<enum>`: enumerators and names -/

/-- `genSortedRevValues`, GenEnumField.cpp:78-99 -/
def sortedRev (t : IntType) (st : EnumF.State) : List (Int × Str) :=
  if bigBody t then sortBy (fun a b => decide (castU64 a.1 < castU64 b.1)) st.rev else st.rev

/-- `genHexWidth`, GenEnumField.cpp:101-108 -/
def hexWidth (st : EnumF.State) : Nat := if st.hexAssign then st.num.length * 2 else 0

/-- `genValueToString`, GenEnumField.cpp:127-136 -/
def valueToString (t : IntType) (st : EnumF.State) (v : Int) : Res Str :=
  if bigBody t || decide (0 < hexWidth st) then .ok (numToStringU (castU64 v) (hexWidth st)) else numToStringS v

/-- `genMaxTypeValueInternal`, GenEnumField.cpp:39-64 -/
def maxEnumValue : IntType → Nat
  | .int8 => 127
  | .uint8 => 255
  | .int16 => 32767
  | .uint16 => 65535
  | .int32 => 2147483647
  | .uint32 => 4294967295
  | .int64 | .intvar => 9223372036854775807
  | .uint64 | .uintvar => 18446744073709551615

/-- `genHasValuesLimit`, GenEnumField.cpp:138-146; `last` is the last one of the sorted values. -/
def hasValuesLimit (t : IntType) (last : Int) : Bool :=
  if bigBody t then decide (castU64 last < maxEnumValue t) else decide (last < castI64 (maxEnumValue t))

/-- `genAdjustFirstLetterInName`, GenEnumField.cpp:154-168; `first` is the name of the first one of the sorted values. -/
def adjustFirst (first val : Str) : Str :=
  match first, val with
  | f :: _, c :: cs => if toLowerC f = f then toLowerC c :: cs else val
  | _, _ => val

/-- The loop of `genAdjustName`, GenEnumField.cpp:110-125: `_` is appended while the name is taken; at most once for each name. -/
def freeName (taken : List Str) : Nat → Str → Str
  | 0, s => s
  | fuel + 1, s => if taken.contains s then freeName taken fuel (s ++ ['_']) else s

/-- `genAdjustName`, GenEnumField.cpp:110-125 -/
def adjustName (st : EnumF.State) (first val : Str) : Str := freeName (st.values.map Prod.fst) st.values.length (adjustFirst first val)

/-- The enumerators for the values, CommsEnumField.cpp:70-84, 111-118: name and text of the value. -/
def enumeratorsLoop (g : GVer) (t : IntType) (st : EnumF.State) : List (Int × Str) → Res (List (Str × Str))
  | [] => .ok []
  | e :: es =>
    match findSpecial st.values e.2 with
    | none => enumeratorsLoop g t st es
    | some i =>
      if !doesExist g i.since i.depr false then enumeratorsLoop g t st es
      else do
        let s ← valueToString t st e.1
        let rest ← enumeratorsLoop g t st es
        pure ((e.2, s) :: rest)

/-- `revValues.back().first + 1` on `std::intmax_t`, CommsEnumField.cpp:145 -/
def incI64 (v : Int) : Res Int := if i64Max < v + 1 then .ub else .ok (v + 1)

/-- The enumerators generated for convenience, CommsEnumField.cpp:129-147 -/
def extraEnumerators (t : IntType) (st : EnumF.State) (first last : Int × Str) : Res (List (Str × Str)) := do
  let a ← valueToString t st first.1
  let b ← valueToString t st last.1
  if hasValuesLimit t last.1 then do
    let n ← incI64 last.1
    let c ← valueToString t st n
    pure [(adjustName st first.2 "FirstValue".toList, a), (adjustName st first.2 "LastValue".toList, b), (adjustName st first.2 "ValuesLimit".toList, c)]
  else pure [(adjustName st first.2 "FirstValue".toList, a), (adjustName st first.2 "LastValue".toList, b)]

/-- `commsEnumValues`, CommsEnumField.cpp:55-151, without the comments and the layout. -/
def enumerators (g : GVer) (t : IntType) (st : EnumF.State) : Res (List (Str × Str)) := do
  let l ← enumeratorsLoop g t st (sortedRev t st)
  match (sortedRev t st).head?, (sortedRev t st).getLast? with
  | some a, some b => do
    let x ← extraEnumerators t st a b
    pure (l ++ x)
  | _, _ => pure l

/-- `getDisplayNameFunc`, CommsEnumField.cpp:836-848, 960-972, 1044-1056 -/
def shownName (e : Str × SpecialInfo) : Str :=
  if e.2.displayName.isEmpty then e.1 else if e.2.displayName = "_".toList then [] else e.2.displayName

/-- The value whose name is shown for the value with the given first name, CommsEnumField.cpp:856-884, 986-1012, 1078-1104: another one with the same number
    is taken if the first one is deprecated. `none`: the assertions fail. -/
def chosenValue (g : GVer) (st : EnumF.State) (e : Int × Str) : Option (Str × SpecialInfo) :=
  match findSpecial st.values e.2 with
  | none => none
  | some i =>
    if !st.nonUnique || decide (g.version < i.depr) || EnumF.isUnique st then some (e.2, i)
    else
      match ((st.rev.filter fun x => x.1 == e.1).filterMap fun x => (findSpecial st.values x.2).map fun j => (x.2, j)).find? (fun p => decide (g.version < p.2.depr)) with
      | some p => some p
      | none => some (e.2, i)

/-- `commsIsDirectValueNameMappingInternal`, CommsEnumField.cpp:668-690 -/
def isDirect (st : EnumF.State) : Bool :=
  match st.rev.head?, st.rev.getLast? with
  | some a, some b => !decide (a.1 < 0) && !(decide (st.rev.length * 110 / 100 ≤ castU64 b.1) && decide (10 ≤ castU64 b.1))
  | _, _ => false

/-- The loop of `commsCommonValueNamesMapDirectBodyInternal`, CommsEnumField.cpp:826-884: `none` is `nullptr`; the number is `nextValue`. -/
def directLoop (g : GVer) (st : EnumF.State) : Int → List (Int × Str) → List (Option Str)
  | _, [] => []
  | next, e :: es =>
    if e.1 < next then directLoop g st next es
    else List.replicate (e.1 - next).toNat none ++ ((chosenValue g st e).map shownName :: directLoop g st (e.1 + 1) es)

/-- The pairs of enumerator and name of the plain table, CommsEnumField.cpp:1034-1106 -/
def pairsLoop (g : GVer) (st : EnumF.State) : Option Int → List (Int × Str) → List (Str × Str)
  | _, [] => []
  | prev, e :: es =>
    if prev = some e.1 then pairsLoop g st prev es
    else (e.2, ((chosenValue g st e).map shownName).getD []) :: pairsLoop g st (some e.1) es

/-- `revValues.find`: the model takes the first entry (the standard leaves open which one of several; the usual libraries return the first one). Helper of `bigPairsLoop`, CommsEnumField.cpp:929-1016. -/
def findRev (l : List (Int × Str)) (v : Int) : Option (Int × Str) := l.find? fun e => e.1 == v

/-- The pairs for 64 bit unsigned values, CommsEnumField.cpp:929-1016: the numbers are sorted as unsigned ones, and looked up again. -/
def bigPairsLoop (g : GVer) (st : EnumF.State) : Option Int → List Nat → List (Str × Str)
  | _, [] => []
  | prev, n :: ns =>
    if prev = some (castI64 n) then bigPairsLoop g st prev ns
    else match findRev st.rev (castI64 n) with
    | none => bigPairsLoop g st prev ns
    | some e => (e.2, ((chosenValue g st e).map shownName).getD []) :: bigPairsLoop g st (some e.1) ns

/-- The table returned by the generated `valueNamesMap()`. Helper of `nameTable`, CommsEnumField.cpp:790-812, 898-927. -/
inductive NameTable where
  | direct (names : List (Option Str))
  | search (pairs : List (Str × Str))
  deriving DecidableEq, Repr

/-- `commsCommonValueNamesMapFuncCodeInternal`, CommsEnumField.cpp:790-812, 898-927 -/
def nameTable (g : GVer) (t : IntType) (st : EnumF.State) : NameTable :=
  if isDirect st then .direct (directLoop g st 0 st.rev)
  else if t == .uint64 || (t == .uintvar && decide (8 ≤ st.num.length)) then
    .search (bigPairsLoop g st none (sortBy (fun a b => decide (a < b)) (st.rev.map fun e => castU64 e.1)))
  else .search (pairsLoop g st none st.rev)

end Commsdsl.Gen
