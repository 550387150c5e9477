import Verif.Model.GenValid
import Verif.Model.FloatField
import Verif.Model.Message
import Verif.Model.GenScope
/-!
# Generated code of `<float>` fields, and special values of numeric fields (`app/commsdsl2comms/src/CommsFloatField.cpp`, `CommsIntField.cpp`)

A generated condition is a piece of data with the numbers in it; `FLit.text` is the text of a number.
-/
namespace Commsdsl.Gen
open Commsdsl Text FloatF Msg

/-! ## Numbers -/

/-- The texts written for values of floating point type. `dec neg k` is `static_cast<ValueType>(X)`, where `X` is `k / 1000000` with six digits after
    the point, and a sign in front. Helper of `floatLit`, CommsFloatField.cpp:39-95. -/
inductive FLit where
  | nan
  | posInf
  | negInf
  | lowest
  | max
  | dec (neg : Bool) (k : Nat)
  deriving DecidableEq, Repr

/-- Division rounded to the nearest number, in the middle to the even one. Modelling device, without code of its own; used for `std::to_string` in CommsFloatField.cpp:39-95. -/
def divRound (a b : Nat) : Nat :=
  if b < 2 * (a % b) ∨ (2 * (a % b) = b ∧ a / b % 2 = 1) then a / b + 1 else a / b

/-- `std::to_string(double)`: the number of millionths it prints. Helper of `floatLit`, CommsFloatField.cpp:39-95. -/
def micros (n : Int) : Nat := divRound (n.natAbs * 1000000) (2 ^ 1074)

/-- `commsValueToString`, CommsFloatField.cpp:39-95. The difference to the limit of the type is taken without rounding;
    `std::numeric_limits<double>::epsilon()` is `2^-52`. -/
def floatLit (double : Bool) : Dbl → FLit
  | .nan => .nan
  | .posInf => .posInf
  | .negInf => .negInf
  | .fin n =>
    if ((if double then -doubleMax else -floatMax) - n).natAbs < 2 ^ 1022 then .lowest
    else if ((if double then doubleMax else floatMax) - n).natAbs < 2 ^ 1022 then .max
    else .dec (decide (n < 0)) (micros n)

/-- The text, CommsFloatField.cpp:44-58, 78-95; no number of the type has more than 320 digits before the point. -/
def FLit.text : FLit → Str
  | .nan => "std::numeric_limits<ValueType>::quiet_NaN()".toList
  | .posInf => "std::numeric_limits<ValueType>::infinity()".toList
  | .negInf => "-std::numeric_limits<ValueType>::infinity()".toList
  | .lowest => "std::numeric_limits<ValueType>::lowest()".toList
  | .max => "std::numeric_limits<ValueType>::max()".toList
  | .dec neg k => "static_cast<ValueType>(".toList ++ ((if neg then ['-'] else []) ++ digitsLoop 10 false 320 (k / 1000000) ++ ['.'] ++ padZero 6 (toDec (k % 1000000))) ++ ")".toList

/-! ## `valid()` -/

/-- The comparisons with the value of the field: `commsCmpToString` of a limit, CommsFloatField.cpp:97-119, and `commsAddRangeComparison`,
    CommsFloatField.cpp:163-187. `near` is the comparison up to an epsilon, CommsFloatField.cpp:121. -/
inductive FCmp where
  | isNan
  | isNegInf
  | isPosInf
  | eq (x : FLit)
  | range (a b : FLit)
  | near (x : FLit)
  deriving DecidableEq, Repr

/-- `commsCmpToString`, CommsFloatField.cpp:97-122 -/
def cmpOf (double : Bool) : Dbl → FCmp
  | .nan => .isNan
  | .negInf => .isNegInf
  | .posInf => .isPosInf
  | .fin n => .near (floatLit double (.fin n))

/-- The comparison for a range, CommsFloatField.cpp:737-742, 795-800, 820-825 with 163-187. `min == max` is false for NaN. -/
def rangeCmp (double : Bool) (r : FloatF.RangeInfo) : FCmp :=
  if r.min.special then cmpOf double r.min
  else if r.min = r.max then .eq (floatLit double r.min)
  else .range (floatLit double r.min) (floatLit double r.max)

/-- One check of the generated `valid()`: version conditions, if any, and the comparison. Helper of `versionCheck`, CommsFloatField.cpp:803-866. -/
structure FCheck where
  frm : Option Nat
  upto : Option Nat
  cmp : FCmp
  deriving DecidableEq, Repr

/-- The range is valid in a part of the versions of the field only, CommsFloatField.cpp:385-386, 434-436, 707-708, 784-785; `fs` and `fd` are the versions
    of the field. -/
def floatDependent (fs fd : Nat) (r : FloatF.RangeInfo) : Bool := decide (fs < r.since) || decide (r.depr < fd)

/-- The comparator, CommsFloatField.cpp:753-775 -/
def floatVerLt (a b : FloatF.RangeInfo) : Bool :=
  if a.since ≠ b.since then decide (a.since < b.since)
  else if a.depr ≠ b.depr then decide (b.depr < a.depr)
  else if b.min.isNan then !a.min.isNan
  else if a.min.isNan then false
  else if a.min ≠ b.min then a.min.lt b.min
  else a.max.lt b.max

/-- A check without version conditions. Helper of `versionChecks`, CommsFloatField.cpp:748-872. -/
def plainCheck (double : Bool) (r : FloatF.RangeInfo) : FCheck := ⟨none, none, rangeCmp double r⟩

/-- A check under version conditions, CommsFloatField.cpp:803-866; consecutive ranges with the same versions are put under one condition, which the model
    repeats. -/
def versionCheck (double : Bool) (r : FloatF.RangeInfo) : FCheck :=
  { frm := if r.since = 0 then none else some r.since
    upto := if r.since ≠ 0 ∧ Versions.notYet ≤ r.depr then none else some r.depr
    cmp := rangeCmp double r }

/-- `commsValidVersionBasedConditionsInternal`, CommsFloatField.cpp:748-872 -/
def versionChecks (double : Bool) (fs fd : Nat) (ranges : List FloatF.RangeInfo) : List FCheck :=
  let l := sortBy floatVerLt ranges
  (l.takeWhile fun r => !floatDependent fs fd r).map (plainCheck double) ++ (l.dropWhile fun r => !floatDependent fs fd r).map (versionCheck double)

/-- `commsDefValidFuncBodyImpl`, CommsFloatField.cpp:362-412 with 728-746: the checks; there is no function if there are no ranges. -/
def floatBody (g : GVer) (double vcv : Bool) (fs fd : Nat) (ranges : List FloatF.RangeInfo) : List FCheck :=
  if checkVersion g vcv && ranges.any (floatDependent fs fd) then versionChecks double fs fd ranges else ranges.map (plainCheck double)

/-- The options about valid values: `VersionStorage` and `InvalidByDefault`. Helper of `floatOpts`, CommsFloatField.cpp:688-726. -/
structure FloatOpts where
  versionStorage : Bool
  invalidByDefault : Bool
  deriving DecidableEq, Repr

/-- `commsAddVersionOptInternal` and `commsAddInvalidOptInternal`, CommsFloatField.cpp:688-726 -/
def floatOpts (g : GVer) (vcv : Bool) (fs fd : Nat) (ranges : List FloatF.RangeInfo) : FloatOpts :=
  { versionStorage := checkVersion g vcv && ranges.any (floatDependent fs fd)
    invalidByDefault := !ranges.isEmpty }

/-- The number a field is constructed with, CommsFloatField.cpp:259-277: none is zero. -/
def floatDefault (double : Bool) (d : Dbl) : Option FLit := if d = .fin 0 then none else some (floatLit double d)

/-! ## Special values -/

/-- The order of the special values of an `<int>`, GenIntField.cpp:46-60 -/
def intSpecialLt (uns : Bool) (a b : Str × IntF.SpecialInfo) : Bool :=
  if a.2.value = b.2.value then strLt a.1 b.1
  else if uns then decide (castU64 a.2.value < castU64 b.2.value)
  else decide (a.2.value < b.2.value)

/-- `genIsUnsignedType`, GenIntField.cpp:82-94 -/
def unsignedType : IntF.IntType → Bool
  | .uint8 | .uint16 | .uint32 | .uint64 | .uintvar => true
  | _ => false

/-- `genSpecialsSortedByValue` of an `<int>`, GenIntField.cpp:37-62 -/
def intSpecials (t : IntF.IntType) (l : List (Str × IntF.SpecialInfo)) : List (Str × IntF.SpecialInfo) := sortBy (intSpecialLt (unsignedType t)) l

/-- The order of the special values of a `<float>`, GenFloatField.cpp:46-101 -/
def floatSpecialLt (a b : Str × FloatF.SpecialInfo) : Bool :=
  if a.2.value.isNan then (if b.2.value.isNan then strLt a.1 b.1 else false)
  else if b.2.value.isNan then true
  else if a.2.value = .posInf then (if b.2.value = .posInf then strLt a.1 b.1 else false)
  else if a.2.value = .negInf then (if b.2.value = .negInf then strLt a.1 b.1 else true)
  else if a.2.value ≠ b.2.value then a.2.value.lt b.2.value
  else strLt a.1 b.1

/-- `genSpecialsSortedByValue` of a `<float>`, GenFloatField.cpp:38-104 -/
def floatSpecials (l : List (Str × FloatF.SpecialInfo)) : List (Str × FloatF.SpecialInfo) := sortBy floatSpecialLt l

/-- The number in the text of a special value of an `<int>`, CommsIntField.cpp:516-525 -/
def intSpecialText (t : IntF.IntType) (v : Int) : Res Str := if bigBody t then .ok (numToStringU (castU64 v) 0) else numToStringS v

/-- The functions `valueX()` for the special values of an `<int>`, CommsIntField.cpp:494-546: `X` and the text of the number. The functions `isX()` and
    `setX()` are generated for the same ones, CommsIntField.cpp:631-673. -/
def intAccessors (g : GVer) (t : IntF.IntType) : List (Str × IntF.SpecialInfo) → Res (List (Str × Str))
  | [] => .ok []
  | s :: ss =>
    if !doesExist g s.2.since s.2.depr true then intAccessors g t ss
    else do
      let v ← intSpecialText t s.2.value
      let rest ← intAccessors g t ss
      pure ((className s.1, v) :: rest)

/-- The functions `valueX()` and `isX()` for the special values of a `<float>`, CommsFloatField.cpp:473-515, 555-602: `X`, the number and the comparison. -/
def floatAccessors (g : GVer) (double : Bool) (l : List (Str × FloatF.SpecialInfo)) : List (Str × FLit × FCmp) :=
  (l.filter fun s => doesExist g s.2.since s.2.depr true).map fun s => (className s.1, floatLit double s.2.value, cmpOf double s.2.value)

/-- The table of `specialNamesMap()`: the functions `valueX()` that are called and the names, CommsIntField.cpp:548-583, CommsFloatField.cpp:517-553 -/
def specialsMap {α : Type} (l : List (Str × α)) : List (Str × Str) := l.map fun s => (className s.1, s.1)

end Commsdsl.Gen
