import Verif.Model.GenCond
import Verif.Model.GenSet
import Verif.Model.GenFloat
/-!
# Versions in the generated field classes (`app/commsdsl2comms/src/CommsField.cpp` and its subclasses)
-/
namespace Commsdsl.Gen
open Commsdsl Text Fld IntF

/-! ## The wrapper of a field that some versions lack -/

/-- The option about versions of `comms::field::Optional`: `ExistsSinceVersion`, `ExistsUntilVersion`, `ExistsBetweenVersions`. Helper of `versionOption`, CommsField.cpp:1361-1377. -/
inductive VerOpt where
  | since (n : Nat)
  | upto (n : Nat)
  | between (a b : Nat)
  deriving DecidableEq, Repr

/-- The `comms::field::Optional` around a field: `ExistsByDefault` or `MissingByDefault`, and the option about versions. Helper of `wrapperOf`, CommsField.cpp:1325-1392. -/
structure Wrapper where
  existsByDefault : Bool
  opt : VerOpt
  deriving DecidableEq, Repr

/-- `x - 1` on `unsigned`. Helper of `versionOption`, CommsField.cpp:1361-1377. -/
def decU32 (n : Nat) : Nat := if n = 0 then 4294967295 else n - 1

/-- The part of `commsOptionalDefCodeInternal` about versions, CommsField.cpp:1361-1377 -/
def versionOption (f : Field) : VerOpt :=
  if f.removed then (if f.since = 0 then .upto (decU32 f.depr) else .between f.since (decU32 f.depr))
  else .since f.since

/-- `commsOptionalDefCodeInternal`, CommsField.cpp:1325-1392: the wrapper, if there is one. -/
def wrapperOf (g : GVer) (pl : Place) (f : Field) : Option Wrapper :=
  if !versionOpt g pl f then none
  else some ⟨doesExist g f.since f.depr f.removed, versionOption f⟩

/-! ## Which fields depend on the version -/

/-- The versions do not cover those of the field: the lambda of the `find_if`s, CommsIntField.cpp:370-377, CommsEnumField.cpp:470-475,
    CommsSetField.cpp:376-381, CommsFloatField.cpp:432-437 -/
def partWindow (fs fd since depr : Nat) : Bool := decide (fs < since) || decide (depr < fd)

/-- `m_validRanges` of an enum; if they cannot be prepared there is no code. Helper of `dependsImpl`, CommsIntField.cpp:354-380. -/
def enumPrepared (g : GVer) (st : EnumF.State) : List RangeInfo :=
  match st.num.type with
  | none => []
  | some t =>
    match enumRanges g t st with
    | .ok R => R
    | _ => []

mutual
/-- `commsIsVersionDependentImpl`: CommsIntField.cpp:354-380, CommsEnumField.cpp:458-479, CommsSetField.cpp:362-385, CommsFloatField.cpp:414-440,
    CommsBitfieldField.cpp:197-206, CommsBundleField.cpp:385-394, CommsVariantField.cpp:563-572, CommsListField.cpp:460-483, CommsOptionalField.cpp:478-481, and
    CommsField.cpp:655-658 for all others. It is called only if the code depends on versions, or for an option that is not looked at otherwise. -/
def dependsImpl (g : GVer) (pl : Place) : Field → Bool
  | .int c st => st.validCheckVersion && st.validRanges.any fun r => partWindow c.w.since c.w.depr r.since r.depr
  | .enum c st => st.num.validCheckVersion && (enumPrepared g st).any fun r => partWindow c.w.since c.w.depr r.since r.depr
  | .set c st => st.validCheckVersion && st.bits.any fun b => partWindow c.w.since c.w.depr b.2.since b.2.depr
  | .float c st => st.validCheckVersion && st.validRanges.any fun r => partWindow c.w.since c.w.depr r.since r.depr
  | .bitfield c _ ms _ => dependsAny g (.field c.w.since pl) ms
  | .bundle c ms _ _ => dependsAny g (.field c.w.since pl) ms
  | .variant c _ ms => dependsAny g (.field c.w.since pl) ms
  | .list c _ e n l el t => dependsSlot g (.field c.w.since pl) e || (dependsSlot g (.field c.w.since pl) n || (dependsSlot g (.field c.w.since pl) l ||
      (dependsSlot g (.field c.w.since pl) el || dependsSlot g (.field c.w.since pl) t)))
  | .optional c _ f _ => dependsSlot g (.field c.w.since pl) f
  | .string .. | .data .. | .ref .. => false

/-- Some member depends on the version: the `any_of`s over `commsIsVersionDependent`, CommsField.cpp:363-370. -/
def dependsAny (g : GVer) (pl : Place) : List Field → Bool
  | [] => false
  | m :: ms => (g.versionDependent && (versionOpt g pl m || dependsImpl g pl m)) || dependsAny g pl ms

/-- The member field that is defined inside, CommsListField.cpp:462-480, CommsOptionalField.cpp:480: other ones are not looked at. -/
def dependsSlot (g : GVer) (pl : Place) : Slot Field → Bool
  | .own m => g.versionDependent && (versionOpt g pl m || dependsImpl g pl m)
  | _ => false
end

/-- `commsIsVersionDependent`, CommsField.cpp:363-370 -/
def depends (g : GVer) (pl : Place) (f : Field) : Bool := g.versionDependent && (versionOpt g pl f || dependsImpl g pl f)

/-- The option `HasVersionDependentMembers` of bitfields, bundles and variants, CommsBitfieldField.cpp:349, CommsBundleField.cpp:546, CommsVariantField.cpp:640 -/
def membersOption (g : GVer) (pl : Place) (f : Field) : Option Bool :=
  match f with
  | .bitfield .. | .bundle .. | .variant .. => some (dependsImpl g pl f)
  | _ => none

/-! ## Names declared for fields -/

/-- The field of the slot is defined inside. Helper of `innerFields`, CommsBitfieldField.cpp:102-131. -/
def ownSlot : Slot Field → List Field
  | .own m => [m]
  | _ => []

/-- The fields that are defined inside the field, in the order of the generated code, with what follows them: CommsBitfieldField.cpp:102-131,
    CommsBundleField.cpp:103-132, CommsVariantField.cpp:220-249, CommsListField.cpp:191-211, CommsOptionalField.cpp:404-411, CommsStringField.cpp:131-138,
    CommsDataField.cpp:153-160 -/
def innerFields : Field → List Field × List Str
  | .bitfield _ _ ms _ => (ms, ["All".toList])
  | .bundle _ ms _ _ => (ms, ["All".toList])
  | .variant _ _ ms => (ms, ["All".toList])
  | .list _ _ e n l el t => (ownSlot e ++ (ownSlot n ++ (ownSlot l ++ (ownSlot el ++ ownSlot t))), [])
  | .optional _ _ f _ => (ownSlot f, [])
  | .string _ _ p => (ownSlot p, [])
  | .data _ _ p => (ownSlot p, [])
  | _ => ([], [])

/-- The struct with the member fields is generated, CommsField.cpp:1954-1959 -/
def hasMembersStruct (f : Field) : Bool := !((innerFields f).1.isEmpty && (innerFields f).2.isEmpty)

/-- The classes `commsDefCode` declares for the field, CommsField.cpp:259-278, 1314-1316, 1325-1392, 1954-1984 -/
def fieldClasses (g : GVer) (pl : Place) (f : Field) : List Str :=
  (if hasMembersStruct f then [className f.name ++ "Members".toList] else []) ++
    (if versionOpt g pl f then [className f.name ++ "Field".toList, className f.name] else [className f.name])

/-- The names declared in the scope of the member fields of a field. CommsField.cpp:259-278 and 1325-1392. -/
def memberClasses (g : GVer) (pl : Place) (f : Field) : List Str :=
  (innerFields f).1.flatMap (fieldClasses g (.field f.since pl)) ++ (innerFields f).2

/-- The names declared in the scope of the fields of a message, CommsMessage.cpp:668-699 -/
def messageClasses (g : GVer) (since : Nat) (fields : List Field) : List Str :=
  fields.flatMap (fieldClasses g (.message since)) ++ ["All".toList]

/-- Both slots have fields defined inside, with the same class name, GenListField.cpp:82-86 -/
def sameClass (a b : Slot Field) : Bool :=
  match a, b with
  | .own x, .own y => className x.name == className y.name
  | _, _ => false

/-- `genPrepare` of a list accepts the names of the fields defined inside, GenListField.cpp:44-176 -/
def listNamesOk : Field → Bool
  | .list _ _ e n l el t => !sameClass e n && (!sameClass e l && (!sameClass e el && (!sameClass n el && (!sameClass l el && !sameClass e t))))
  | _ => true

end Commsdsl.Gen
