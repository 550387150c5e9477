import Verif.Model.GenVersion
/-!
# Compile time checks of lengths in generated messages (`app/commsdsl2comms/src/CommsMessage.cpp:1197-1247`)
-/
namespace Commsdsl.Gen
open Commsdsl Text Fld

/-- `genMaxPossibleLength`, comms.cpp:1168-1171 (the constant: comms.cpp:36): the marker of "unlimited". -/
def maxPossible : Nat := 18446744073709551615

/-- `genAddLength`, comms.cpp:1173-1180, in `std::size_t` -/
def addLength (len1 len2 : Nat) : Nat := if maxPossible - len1 ≤ len2 then maxPossible else (len1 + len2) % 18446744073709551616

mutual
/-- `commsMinLengthImpl`: CommsField.cpp:680-683, CommsIntField.cpp:382-389, CommsEnumField.cpp:481-488, CommsSetField.cpp:387-394, CommsBundleField.cpp:409-418,
    CommsRefField.cpp:155-159. A missing target would be a null dereference; accepted fields have one. -/
def commsMinImpl (g : GVer) : Place → Field → Res Nat
  | _, .int _ st => .ok (if st.availableLengthLimit then 1 else IntF.minLength st)
  | _, .enum _ st => .ok (if st.num.availableLengthLimit then 1 else EnumF.minLength st)
  | _, .set _ st => .ok (if st.availableLengthLimit then 1 else SetF.minLength st)
  | pl, .bundle c ms _ _ => commsMinSum g (.field c.w.since pl) ms 0
  | pl, .ref c _ t => commsMinTarget g (.field c.w.since pl) t
  | _, f => minLength f

/-- The `accumulate` over `commsMinLength`, CommsBundleField.cpp:412-417, CommsMessage.cpp:1219-1225 -/
def commsMinSum (g : GVer) (pl : Place) : List Field → Nat → Res Nat
  | [], soFar => .ok soFar
  | m :: ms, soFar => do
    let a ← (if versionOpt g pl m then .ok 0 else commsMinImpl g pl m : Res Nat)
    commsMinSum g pl ms (addLength soFar a)

/-- `commsMinLength` of the target, CommsRefField.cpp:155-159: a global field. -/
def commsMinTarget (g : GVer) (pl : Place) : Slot Field → Res Nat
  | .none => .ub
  | .ext f => if versionOpt g .other f then .ok 0 else commsMinImpl g .other f
  | .own f => if versionOpt g pl f then .ok 0 else commsMinImpl g pl f
end

/-- `commsMinLength`, CommsField.cpp:216-223 -/
def commsMin (g : GVer) (pl : Place) (f : Field) : Res Nat := if versionOpt g pl f then .ok 0 else commsMinImpl g pl f

mutual
/-- `commsMaxLengthImpl`: CommsField.cpp:685-688, CommsBundleField.cpp:420-429, CommsDataField.cpp:426-434, CommsStringField.cpp:378-386, CommsListField.cpp:538-546,
    CommsRefField.cpp:161-165, CommsOptionalField.cpp:493-501, CommsVariantField.cpp:587-596 -/
def commsMaxImpl : Field → Res Nat
  | .bundle _ ms _ _ => commsMaxSum ms 0
  | .string c st p => if st.length ≠ 0 then maxLength (.string c st p) else .ok maxPossible
  | .data c st p => if st.length ≠ 0 then maxLength (.data c st p) else .ok maxPossible
  | .list c st e n l el t => if st.count ≠ 0 then maxLength (.list c st e n l el t) else .ok maxPossible
  | .ref _ _ t => commsMaxTarget t
  | .optional _ _ f _ => commsMaxTarget f
  | .variant _ _ ms => commsMaxMax ms 0
  | f => maxLength f

/-- The `accumulate` over `commsMaxLength`, CommsBundleField.cpp:423-428, CommsMessage.cpp:1226-1232; `commsMaxLength`, CommsField.cpp:225-232 -/
def commsMaxSum : List Field → Nat → Res Nat
  | [], soFar => .ok soFar
  | m :: ms, soFar => do
    let a ← (if m.sem = .length then .ok maxPossible else commsMaxImpl m : Res Nat)
    commsMaxSum ms (addLength soFar a)

/-- The `accumulate` of a variant, CommsVariantField.cpp:590-595 -/
def commsMaxMax : List Field → Nat → Res Nat
  | [], soFar => .ok soFar
  | m :: ms, soFar => do
    let a ← (if m.sem = .length then .ok maxPossible else commsMaxImpl m : Res Nat)
    commsMaxMax ms (max soFar a)

/-- `commsMaxLength` of the field of a slot, CommsRefField.cpp:163-164, CommsOptionalField.cpp:495-500 -/
def commsMaxTarget : Slot Field → Res Nat
  | .none => .ub
  | .ext f => if f.sem = .length then .ok maxPossible else commsMaxImpl f
  | .own f => if f.sem = .length then .ok maxPossible else commsMaxImpl f
end

/-- `commsMaxLength`, CommsField.cpp:225-232 -/
def commsMax (f : Field) : Res Nat := if f.sem = .length then .ok maxPossible else commsMaxImpl f

mutual
/-- `commsHasCustomLength`, CommsField.cpp:409-420, with CommsBitfieldField.cpp:308-317, CommsBundleField.cpp:519-528 and the generated function of variants,
    CommsVariantField.cpp:507-531, which is never empty. Custom code of the user is not modelled. -/
def hasCustomLength : Field → Bool
  | .variant .. => true
  | .bundle _ ms _ _ => anyCustomLength ms
  | .bitfield _ _ ms _ => anyCustomLength ms
  | _ => false
/-- The `any_of`s over it. Helper of `hasCustomLength`, CommsField.cpp:409-420. -/
def anyCustomLength : List Field → Bool
  | [] => false
  | m :: ms => hasCustomLength m || anyCustomLength ms
end

/-- The values in the generated assertions: the minimal length, and the maximal length if that is asserted. Helper of `lengthCheck`, CommsMessage.cpp:1197-1247. -/
structure LengthCheck where
  least : Nat
  most : Option Nat
  deriving DecidableEq, Repr

/-- `commsDefLengthCheckInternal`, CommsMessage.cpp:1197-1247: nothing, or the assertions. -/
def lengthCheck (g : GVer) (since : Nat) (fields : List Field) : Res (Option LengthCheck) :=
  if anyCustomLength fields then .ok none
  else do
    let a ← commsMinSum g (.message since) fields 0
    let b ← commsMaxSum fields 0
    pure (some ⟨a, if b ≠ maxPossible then some b else none⟩)

end Commsdsl.Gen
