import Verif.Model.GenValid
/-!
# The enumerators of the C interface (`app/commsdsl2c/src/CEnumField.cpp`)
-/
namespace Commsdsl.Gen
open Commsdsl Text IntF

/-- `cMaxLimitValStrInternal`, CEnumField.cpp:38-83; `len` is the length of the field. The bound of `uint32` fits `std::intmax_t`. -/
def cTypeLimit (t : IntType) (len : Nat) : Int :=
  match t with
  | .int8 => 127
  | .uint8 => 255
  | .int16 => 32767
  | .uint16 => 65535
  | .int32 => 2147483647
  | .uint32 => 4294967295
  | .int64 | .uint64 => 2147483647
  | .intvar => if len ≤ 2 then 32767 else if len ≤ 4 then 2147483647 else 2147483647
  | .uintvar => if len ≤ 2 then 65535 else if len ≤ 4 then 4294967295 else 2147483647

/-- The enumerators for the values, CEnumField.cpp:110-168 -/
def cEnumLoop (g : GVer) (t : IntType) (st : EnumF.State) (pfx : Str) : List (Int × Str) → Res (List (Str × Str))
  | [] => .ok []
  | e :: es =>
    match findSpecial st.values e.2 with
    | none => cEnumLoop g t st pfx es
    | some i =>
      if !doesExist g i.since i.depr false then cEnumLoop g t st pfx es
      else do
        let s ← valueToString t st e.1
        let rest ← cEnumLoop g t st pfx es
        pure ((pfx ++ e.2, s) :: rest)

/-- The enumerators generated for convenience, CEnumField.cpp:170-193 -/
def cEnumExtra (t : IntType) (st : EnumF.State) (pfx : Str) (first last : Int × Str) : Res (List (Str × Str)) := do
  let a ← valueToString t st first.1
  let b ← valueToString t st last.1
  if hasValuesLimit t last.1 then do
    let n ← incI64 last.1
    let c ← valueToString t st n
    let d ← valueToString t st (cTypeLimit t st.num.length)
    pure [(pfx ++ adjustName st first.2 "FirstValue".toList, a), (pfx ++ adjustName st first.2 "LastValue".toList, b),
      (pfx ++ adjustName st first.2 "ValuesLimit".toList, c), (pfx ++ "TypeValuesLimit".toList, d)]
  else pure [(pfx ++ adjustName st first.2 "FirstValue".toList, a), (pfx ++ adjustName st first.2 "LastValue".toList, b)]

/-- The prefix of the enumerators: the one asked for, otherwise the one made from the C name of the field. CEnumField.cpp:99-102 -/
def cEnumPrefix (cName forced : Str) : Str := if forced.isEmpty then cName ++ "_".toList ++ "ValueType".toList ++ "_".toList else forced

/-- `cEnumValues`, CEnumField.cpp:95-196, without the comments and the layout. -/
def cEnumerators (g : GVer) (t : IntType) (st : EnumF.State) (cName forced : Str) : Res (List (Str × Str)) := do
  let l ← cEnumLoop g t st (cEnumPrefix cName forced) (sortedRev t st)
  match (sortedRev t st).head?, (sortedRev t st).getLast? with
  | some a, some b => do
    let x ← cEnumExtra t st (cEnumPrefix cName forced) a b
    pure (l ++ x)
  | _, _ => pure l

end Commsdsl.Gen
