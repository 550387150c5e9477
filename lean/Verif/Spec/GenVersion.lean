import Verif.Model.GenVersion
import Verif.Spec.GenSchema
import Verif.Spec.GenValid
import Verif.Spec.FloatField
import Verif.Spec.Field
/-!
# What versions mean for the generated field classes

The options of the COMMS library are taken by their documented meaning: `ExistsSinceVersion<N>` is for versions from `N` on, `ExistsUntilVersion<N>` for those
up to `N`, `ExistsBetweenVersions<M, N>` for those from `M` to `N`; `HasVersionDependentMembers<false>` says that the version matters for no member, so it is not
passed on to the members.
-/
namespace Commsdsl.Spec
open Commsdsl Fld Gen

/-- With the option, the field is there when the version is `v`. -/
def OptionHolds : VerOpt → Nat → Prop
  | .since n, v => n ≤ v
  | .upto n, v => v ≤ n
  | .between a b, v => a ≤ v ∧ v ≤ b

/-- Some of the windows do not cover the one from `fs` to `fd`. -/
def Partly (fs fd : Nat) (windows : List (Nat × Nat)) : Prop := ∃ w ∈ windows, fs < w.1 ∨ w.2 < fd

/-- What is valid depends on the version: the field is checked by version, and one of the ranges, values or bits has other versions than the field. -/
inductive OwnReacts (g : GVer) : Field → Prop where
  | int {c : Common} {st : IntF.State} : st.validCheckVersion = true → Partly c.w.since c.w.depr (st.validRanges.map fun r => (r.since, r.depr)) →
      OwnReacts g (.int c st)
  | float {c : Common} {st : FloatState} : st.validCheckVersion = true → Partly c.w.since c.w.depr (st.validRanges.map fun r => (r.since, r.depr)) →
      OwnReacts g (.float c st)
  | set {c : Common} {st : SetF.State} : st.validCheckVersion = true → Partly c.w.since c.w.depr (st.bits.map fun b => (b.2.since, b.2.depr)) →
      OwnReacts g (.set c st)
  | enum {c : Common} {st : EnumF.State} : st.num.validCheckVersion = true →
      Partly c.w.since c.w.depr ((st.values.filter fun p => decide (p.2.since ≤ g.version)).map fun p => (p.2.since, p.2.depr)) → OwnReacts g (.enum c st)

/-- The fields defined inside bitfields, bundles, variants, lists and optional fields. -/
inductive OwnPart : Place → Field → Place → Field → Prop where
  | bitfield {pl : Place} {c : Common} {e : Option IntF.Endian} {ms : List Field} {cd : Option CondM.Cond} {m : Field} : m ∈ ms →
      OwnPart pl (.bitfield c e ms cd) (.field c.w.since pl) m
  | bundle {pl : Place} {c : Common} {ms : List Field} {al : List Alias} {cd : Option CondM.Cond} {m : Field} : m ∈ ms →
      OwnPart pl (.bundle c ms al cd) (.field c.w.since pl) m
  | variant {pl : Place} {c : Common} {d : Nat} {ms : List Field} {m : Field} : m ∈ ms → OwnPart pl (.variant c d ms) (.field c.w.since pl) m
  | list {pl : Place} {c : Common} {st : ListState} {e n l el t : Slot Field} {m : Field} : (e = .own m ∨ n = .own m ∨ l = .own m ∨ el = .own m ∨ t = .own m) →
      OwnPart pl (.list c st e n l el t) (.field c.w.since pl) m
  | optional {pl : Place} {c : Common} {st : OptState} {cd : Option CondM.Cond} {m : Field} : OwnPart pl (.optional c st (.own m) cd) (.field c.w.since pl) m

/-- All fields a field consists of: also those that are only referred to, and prefixes of strings and data. -/
inductive AnyPart : Place → Field → Place → Field → Prop where
  | own {pl pl' : Place} {f m : Field} : OwnPart pl f pl' m → AnyPart pl f pl' m
  | refTo {pl : Place} {c : Common} {b : Nat} {m : Field} : AnyPart pl (.ref c b (.ext m)) .other m
  | field {pl : Place} {c : Common} {st : OptState} {cd : Option CondM.Cond} {m : Field} : AnyPart pl (.optional c st (.ext m) cd) .other m
  | item {pl : Place} {c : Common} {st : ListState} {e n l el t : Slot Field} {m : Field} : (e = .ext m ∨ n = .ext m ∨ l = .ext m ∨ el = .ext m ∨ t = .ext m) →
      AnyPart pl (.list c st e n l el t) .other m
  | strOwn {pl : Place} {c : Common} {st : SeqState Char} {m : Field} : AnyPart pl (.string c st (.own m)) (.field c.w.since pl) m
  | strExt {pl : Place} {c : Common} {st : SeqState Char} {m : Field} : AnyPart pl (.string c st (.ext m)) .other m
  | dataOwn {pl : Place} {c : Common} {st : SeqState Nat} {m : Field} : AnyPart pl (.data c st (.own m)) (.field c.w.since pl) m
  | dataExt {pl : Place} {c : Common} {st : SeqState Nat} {m : Field} : AnyPart pl (.data c st (.ext m)) .other m

/-- What the class does depends on the version: the field is not there in some versions, or its valid values depend on it, or this is so for a part. -/
inductive Reacts (part : Place → Field → Place → Field → Prop) (g : GVer) : Place → Field → Prop where
  | wrapped {pl : Place} {f : Field} : wrapperOf g pl f ≠ none → Reacts part g pl f
  | valid {pl : Place} {f : Field} : OwnReacts g f → Reacts part g pl f
  | part {pl pl' : Place} {f m : Field} : part pl f pl' m → Reacts part g pl' m → Reacts part g pl f

/-- All parts, the parts of parts, and so on, are defined inside. -/
inductive SelfContained : Place → Field → Prop where
  | mk {pl : Place} {f : Field} : (∀ pl' m, AnyPart pl f pl' m → OwnPart pl f pl' m) → (∀ pl' m, OwnPart pl f pl' m → SelfContained pl' m) → SelfContained pl f

end Commsdsl.Spec
