import Verif.Model.SetField
import Verif.Model.FloatField
import Verif.Model.Cond
import Verif.Model.Length
/-!
# Field objects (`lib/src/parse/ParseFieldImpl.h` and its subclasses)

`Field` is a snapshot of a `ParseFieldImpl` object after `parse()`: the tree it owns (`std::unique_ptr` members) and the trees it points to
(`const ParseFieldImpl*`, always global fields parsed earlier). Left out of the state of every field: the seven `*Override` properties,
extra attributes and children (only collected for tools), the XML node (only for messages), the display properties that are ignored since DSL
version 7.
-/
namespace Commsdsl.Fld
open Commsdsl Text

/-- `ParseField::ParseSemanticType`, include/commsdsl/parse/ParseField.h:45-53 -/
inductive Sem where
  | none | version | messageId | length
  deriving DecidableEq, Repr

/-- `ParseField::ParseKind`, include/commsdsl/parse/ParseField.h:27-43 -/
inductive Kind where
  | int | enum | set | float | bitfield | bundle | string | data | list | ref | optional | variant
  deriving DecidableEq, Repr

/-- `ParseFieldImpl::ParseReusableState`, ParseFieldImpl.h:410-433, together with the versions kept by `ParseObject` (ParseObject.h:104-109).
    `inBitfield` stands for `parseIsBitfieldMember()` (ParseFieldImpl.cpp:235-240): the parent is a `<bitfield>`; the copy constructor keeps the
    parent pointer, so that it survives cloning. -/
structure Common where
  name : Str := []
  displayName : Str := []
  description : Str := []
  copyCodeFrom : Str := []
  sem : Sem := .none
  validateMinLength : Int := -1
  pseudo : Bool := false
  fixedValue : Bool := false
  customizable : Bool := false
  failOnInvalid : Bool := false
  forceGen : Bool := false
  w : Versions.Window := {}
  inBitfield : Bool := false
  deriving DecidableEq, Repr

/-- `ParseFloatFieldImpl::ParseState`, ParseFloatFieldImpl.h:143-159 -/
abbrev FloatState := FloatF.State

/-- `ParseStringFieldImpl::ParseState` (ParseStringFieldImpl.h:102-111) and `ParseDataFieldImpl::ParseState` (ParseDataFieldImpl.h:94-101);
    `α` is the type of an element of the sequence. Each valid value comes with its versions. -/
structure SeqState (α : Type) where
  default : List α := []
  encoding : Str := []
  detached : Str := []
  length : Nat := 0
  zeroSuffix : Bool := false
  valid : List (List α × Nat × Nat) := []
  deriving DecidableEq, Repr

/-- `ParseListFieldImpl::ParseState` without the field pointers, ParseListFieldImpl.h:184-199 -/
structure ListState where
  count : Nat := 0
  elemFixedLength : Bool := false
  detachedCount : Str := []
  detachedLen : Str := []
  detachedElemLen : Str := []
  detachedTerm : Str := []
  deriving DecidableEq, Repr

/-- `ParseOptionalField::ParseMode`, include/commsdsl/parse/ParseOptionalField.h:34-40 -/
inductive OptMode where
  | tentative | missing | exists
  deriving DecidableEq, Repr

/-- `ParseOptionalFieldImpl::ParseState` without the field pointer, ParseOptionalFieldImpl.h:107-114 -/
structure OptState where
  mode : OptMode := .tentative
  missingOnReadFail : Bool := false
  missingOnInvalid : Bool := false
  deriving DecidableEq, Repr

/-- `ParseAliasImpl::ParseState`, ParseAliasImpl.h -/
structure Alias where
  name : Str := []
  description : Str := []
  fieldName : Str := []
  deriving DecidableEq, Repr

/-- A field used by another one: not there, a pointer to a global field (`m_ext...Field`), or an owned object. e.g. ParseStringFieldImpl.h:122 and 129. -/
inductive Slot (α : Type) where
  | none
  | ext (a : α)
  | own (a : α)

namespace Slot

/-- The field, wherever it is. e.g. ParseStringFieldImpl.h:63-70. -/
def get? {α : Type} : Slot α → Option α
  | none => Option.none
  | ext a => some a
  | own a => some a

/-- `parseHas...Field()`, e.g. ParseStringFieldImpl.h:59-62 -/
def has {α : Type} (s : Slot α) : Bool := s.get?.isSome

/-- As a list. See `Slot`, ParseStringFieldImpl.h:122 and 129. -/
def toList {α : Type} : Slot α → List α
  | none => []
  | ext a => [a]
  | own a => [a]

end Slot

/-- A field object. The classes derived from that of ParseFieldImpl.h:37-434. -/
inductive Field where
  | int (c : Common) (st : IntF.State)
  | enum (c : Common) (st : EnumF.State)
  | set (c : Common) (st : SetF.State)
  | float (c : Common) (st : FloatState)
  | bitfield (c : Common) (endian : Option IntF.Endian) (members : List Field) (cond : Option CondM.Cond)
  | bundle (c : Common) (members : List Field) (aliases : List Alias) (cond : Option CondM.Cond)
  | string (c : Common) (st : SeqState Char) (pfx : Slot Field)
  | data (c : Common) (st : SeqState Nat) (pfx : Slot Field)
  | list (c : Common) (st : ListState) (elem cnt len elemLen term : Slot Field)
  | ref (c : Common) (bitLen : Nat) (target : Slot Field)
  | optional (c : Common) (st : OptState) (field : Slot Field) (cond : Option CondM.Cond)
  | variant (c : Common) (dflt : Nat) (members : List Field)

namespace Field

/-- State common to all kinds. `m_state`, ParseFieldImpl.h:410-433. -/
def common : Field → Common
  | int c _ | enum c _ | set c _ | float c _ | bitfield c _ _ _ | bundle c _ _ _ | string c _ _ | data c _ _
  | list c _ _ _ _ _ _ | ref c _ _ | optional c _ _ _ | variant c _ _ => c

/-- The field with another common state. `m_state`, ParseFieldImpl.h:410-433. -/
def setCommon (c' : Common) : Field → Field
  | int _ st => int c' st
  | enum _ st => enum c' st
  | set _ st => set c' st
  | float _ st => float c' st
  | bitfield _ e ms cd => bitfield c' e ms cd
  | bundle _ ms al cd => bundle c' ms al cd
  | string _ st p => string c' st p
  | data _ st p => data c' st p
  | list _ st a b c d e => list c' st a b c d e
  | ref _ b t => ref c' b t
  | optional _ st f cd => optional c' st f cd
  | variant _ d ms => variant c' d ms

/-- `parseKind()`. ParseFieldImpl.h:95-98. -/
def kind : Field → Kind
  | int .. => .int
  | enum .. => .enum
  | set .. => .set
  | float .. => .float
  | bitfield .. => .bitfield
  | bundle .. => .bundle
  | string .. => .string
  | data .. => .data
  | list .. => .list
  | ref .. => .ref
  | optional .. => .optional
  | variant .. => .variant

/-- `parseName()`. ParseFieldImpl.h:91. -/
abbrev name (f : Field) : Str := f.common.name
/-- `parseSemanticType()`. ParseFieldImpl.h:102-105. -/
abbrev sem (f : Field) : Sem := f.common.sem
/-- `parseGetSinceVersion()`. ParseObject.h:62-65. -/
abbrev since (f : Field) : Nat := f.common.w.since
/-- `parseGetDeprecated()`. ParseObject.h:72-75. -/
abbrev depr (f : Field) : Nat := f.common.w.depr
/-- `parseIsDeprecatedRemoved()`. ParseObject.h:77-80. -/
abbrev removed (f : Field) : Bool := f.common.w.removed

/-- `parseMembers()`: `parseMembersImpl` of bitfield, bundle and variant; empty for all other kinds (ParseFieldImpl.cpp:658-662). -/
def members : Field → List Field
  | bitfield _ _ ms _ => ms
  | bundle _ ms _ _ => ms
  | variant _ _ ms => ms
  | _ => []

/-- All fields a field directly consists of or points to. Modelling device, without code of its own; collects what `parseMembersImpl`, ParseFieldImpl.cpp:658-662, and the pointers of the classes lead to. -/
def subs : Field → List Field
  | int _ _ | enum _ _ | set _ _ | float _ _ => []
  | bitfield _ _ ms _ => ms
  | bundle _ ms _ _ => ms
  | string _ _ p => p.toList
  | data _ _ p => p.toList
  | list _ _ e c l el t => e.toList ++ (c.toList ++ (l.toList ++ (el.toList ++ t.toList)))
  | ref _ _ t => t.toList
  | optional _ _ f _ => f.toList
  | variant _ _ ms => ms

end Field

/-! ## Lengths -/

/-- `parseBitLength()`: `parseBitLengthImpl` of ParseIntFieldImpl.cpp:406-412, ParseEnumFieldImpl.cpp:148-154, ParseSetFieldImpl.cpp:136-143,
    ParseRefFieldImpl.cpp:129-136; 0 for all others and outside of bitfields (ParseFieldImpl.cpp:558-561). -/
def Field.bitLength : Field → Nat
  | .int c st => if c.inBitfield then st.bitLength else 0
  | .enum c st => if c.inBitfield then st.num.bitLength else 0
  | .set c st => if c.inBitfield then st.bitLength else 0
  | .ref c b _ => if c.inBitfield then b else 0
  | _ => 0

/-- `std::accumulate` of the bit lengths in `std::size_t`, ParseBitfieldFieldImpl.cpp:186-195 and 377-383. -/
def totalBits : List Field → Nat
  | [] => 0
  | m :: ms => (m.bitLength + totalBits ms) % 18446744073709551616

mutual
/-- `parseMinLength()`, by kind: ParseIntFieldImpl.cpp:392-399, ParseEnumFieldImpl.cpp:134-141, ParseSetFieldImpl.cpp:131-134,
    ParseFloatFieldImpl.cpp:221-224, ParseBitfieldFieldImpl.cpp:186-195, ParseBundleFieldImpl.cpp:206-215, ParseStringFieldImpl.cpp:145-160,
    ParseDataFieldImpl.cpp:144-155, ParseListFieldImpl.cpp:138-171, ParseRefFieldImpl.cpp:116-120, ParseOptionalFieldImpl.cpp:153-156,
    ParseVariantFieldImpl.cpp:156-159. Sums and products are in `std::size_t`. A missing element or target is a null dereference. -/
def minLength : Field → Res Nat
  | .int _ st => .ok (IntF.minLength st)
  | .enum _ st => .ok (EnumF.minLength st)
  | .set _ st => .ok (SetF.minLength st)
  | .float _ st => .ok st.length
  | .bitfield _ _ ms _ => .ok (totalBits ms / 8)
  | .bundle _ ms _ _ => minSum ms
  | .string _ st p => if st.length ≠ 0 then .ok st.length else if st.zeroSuffix then .ok 1 else minOr0 p
  | .data _ st p => if st.length ≠ 0 then .ok st.length else minOr0 p
  | .list _ st e c l el t => do
    let extra ← minOr0 el
    if st.count ≠ 0 then do
      let em ← minOrUb e
      let extra' := if st.elemFixedLength then extra else extra * st.count % 18446744073709551616
      pure ((st.count * em % 18446744073709551616 + extra') % 18446744073709551616)
    else if c.has then minOrUb c
    else if l.has then minOrUb l
    else minOr0 t
  | .ref _ _ t => minOrUb t
  | .optional _ _ _ _ => .ok 0
  | .variant _ _ _ => .ok 0
/-- `std::accumulate` in `parseMinLengthImpl`, ParseBundleFieldImpl.cpp:210-219 -/
def minSum : List Field → Res Nat
  | [] => .ok 0
  | m :: ms => do
    let a ← minLength m
    let b ← minSum ms
    pure ((a + b) % 18446744073709551616)
/-- Minimal length of a field that must be there. Helper of `minLength`, ParseIntFieldImpl.cpp:392-399. -/
def minOrUb : Slot Field → Res Nat
  | .none => .ub
  | .ext f => minLength f
  | .own f => minLength f
/-- Minimal length of a field if it is there. Helper of `minLength`, ParseIntFieldImpl.cpp:392-399. -/
def minOr0 : Slot Field → Res Nat
  | .none => .ok 0
  | .ext f => minLength f
  | .own f => minLength f
end

/-- Maximal length of a sequence with a length prefix, ParseStringFieldImpl.cpp:162-188, ParseListFieldImpl.cpp:204-219: known only if the prefix
    is an `<int>` field itself. -/
def prefixedMax : Option Field → Nat
  | some (.int _ st) => Length.add (castU64 st.max) (IntF.maxLength st)
  | _ => Length.maxPossible

/-- The count prefix of a list as the code sees it in ParseListFieldImpl.cpp:188-191: `static_cast<const ParseIntFieldImpl&>` of any field
    (asserted to be an `<int>`). -/
def countPrefix : Option Field → Res IntF.State
  | some (.int _ st) => .ok st
  | _ => .ub

/-- The length of element prefixes, ParseListFieldImpl.cpp:183-185 and 195-197: once, or in front of each element. -/
def perElem (fixed : Bool) (extra count : Nat) : Res Nat := if fixed then .ok extra else Length.mul extra count

mutual
/-- `parseMaxLength()`, by kind: ParseIntFieldImpl.cpp:401-404, ParseEnumFieldImpl.cpp:143-146, ParseFieldImpl.cpp:553-556 (set, float,
    bitfield), ParseBundleFieldImpl.cpp:217-229, ParseStringFieldImpl.cpp:162-188, ParseDataFieldImpl.cpp:157-183, ParseListFieldImpl.cpp:173-222,
    ParseRefFieldImpl.cpp:122-127, ParseOptionalFieldImpl.cpp:158-162, ParseVariantFieldImpl.cpp:161-175. -/
def maxLength : Field → Res Nat
  | .int _ st => .ok (IntF.maxLength st)
  | .enum _ st => .ok (EnumF.maxLength st)
  | .set _ st => .ok (SetF.minLength st)
  | .float _ st => .ok st.length
  | .bitfield _ _ ms _ => .ok (totalBits ms / 8)
  | .bundle _ ms _ _ => maxSum ms 0
  | .string _ st p => if st.length ≠ 0 then .ok st.length else .ok (prefixedMax p.get?)
  | .data _ st p => if st.length ≠ 0 then .ok st.length else .ok (prefixedMax p.get?)
  | .list _ st e c l el _ => do
    let extra0 ← maxOr0 el
    let extra := Length.add extra0 0
    let em ← maxOrUb e
    if st.count ≠ 0 then do
      let extra' ← perElem st.elemFixedLength extra st.count
      let all ← Length.mul em st.count
      pure (Length.add all extra')
    else if c.has then do
      let cst ← countPrefix c.get?
      let count := castU64 cst.max
      let result ← Length.mul em count
      let result' := Length.add (IntF.maxLength cst) result
      let extra' ← perElem st.elemFixedLength extra count
      pure (Length.add extra' result')
    else pure (prefixedMax l.get?)
  | .ref _ _ t => maxOrUb t
  | .optional _ _ f _ => maxOrUb f
  | .variant _ _ ms => maxMax ms 0
/-- The loop in `parseMaxLengthImpl`, ParseBundleFieldImpl.cpp:221-233 -/
def maxSum : List Field → Nat → Res Nat
  | [], sum => .ok sum
  | m :: ms, sum =>
    if m.sem = .length then .ok Length.maxPossible
    else do
      let a ← maxLength m
      maxSum ms (Length.add a sum)
/-- The loop in `parseMaxLengthImpl`, ParseVariantFieldImpl.cpp:162-176; `sum` is the variable of that name. -/
def maxMax : List Field → Nat → Res Nat
  | [], sum => .ok sum
  | m :: ms, sum => do
    let a ← maxLength m
    if a = Length.maxPossible then pure a else maxMax ms (max a sum)
/-- Maximal length of a field that must be there. Helper of `maxLength`, ParseIntFieldImpl.cpp:401-404. -/
def maxOrUb : Slot Field → Res Nat
  | .none => .ub
  | .ext f => maxLength f
  | .own f => maxLength f
/-- Maximal length of a field if it is there. Helper of `maxLength`, ParseIntFieldImpl.cpp:401-404. -/
def maxOr0 : Slot Field → Res Nat
  | .none => .ok 0
  | .ext f => maxLength f
  | .own f => maxLength f
end

/-! ## Copies -/

mutual
/-- `parseClone()`: the copy constructors. ParseBitfieldFieldImpl.cpp:52-60 does not copy the condition, ParseBundleFieldImpl.cpp:60-67 copies
    neither aliases nor condition; ParseVariantFieldImpl.cpp, ParseListFieldImpl.cpp, ParseStringFieldImpl.cpp, ParseDataFieldImpl.cpp and
    ParseOptionalFieldImpl.cpp:65-77 copy everything; the others have default copies. -/
def clone : Field → Field
  | .int c st => .int c st
  | .enum c st => .enum c st
  | .set c st => .set c st
  | .float c st => .float c st
  | .bitfield c e ms _ => .bitfield c e (cloneAll ms) none
  | .bundle c ms _ _ => .bundle c (cloneAll ms) [] none
  | .string c st p => .string c st (cloneSlot p)
  | .data c st p => .data c st (cloneSlot p)
  | .list c st e cn l el t => .list c st (cloneSlot e) (cloneSlot cn) (cloneSlot l) (cloneSlot el) (cloneSlot t)
  | .ref c b t => .ref c b t
  | .optional c st f cd => .optional c st (cloneSlot f) cd
  | .variant c d ms => .variant c d (cloneAll ms)
/-- Clones of all members. Helper of `clone`, ParseBitfieldFieldImpl.cpp:52-60. -/
def cloneAll : List Field → List Field
  | [] => []
  | m :: ms => clone m :: cloneAll ms
/-- Owned fields are cloned, pointers copied. Helper of `clone`, ParseBitfieldFieldImpl.cpp:52-60. -/
def cloneSlot : Slot Field → Slot Field
  | .none => .none
  | .ext f => .ext f
  | .own f => .own (clone f)
end

/-- `parseSetSinceVersion`, ParseObject.h:62-65 -/
def Field.setSince (v : Nat) (f : Field) : Field := f.setCommon { f.common with w := { f.common.w with since := v } }

end Commsdsl.Fld
