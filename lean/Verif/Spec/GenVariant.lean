import Verif.Model.GenVariant
import Verif.Spec.CondRef
import Verif.Spec.GenText
import Verif.Spec.IntField
/-!
# Reading variants

The COMMS library reads a variant by trying its members in order: the first one that can be read is taken. `ι` is the type of inputs, `α` of bundles, `ε` of errors.
-/
namespace Commsdsl.Spec
open Commsdsl Gen Fld Text IntF

/-- How the parts of bundles are read: the field of a key class (without its valid values), the rest of the members of a bundle by the function of the library
    (`readFrom<1>`), the rest as the bundle itself does it; bundles by their index. -/
structure VReader (ι α ε : Type) where
  key : KeyClass → ι → Except ε (Int × ι)
  rest : Nat → Int → ι → Except ε α
  own : Nat → Int → ι → Except ε α

/-- What matters of a member: the class of its first field, the values for which that can be read, whether the bundle leaves reading to the library. -/
structure KMember where
  key : KeyClass
  accepts : Int → Bool
  plain : Bool

/-- Options of customizable fields: `typename TOpt::…`, or nothing. -/
def Custom (l : List Str) : Prop := ∀ s ∈ l, s.head? = some 't'

/-- The value of a case label: an integer literal, perhaps with a comment behind it. -/
def CaseValue (s : Str) (v : Int) : Prop := ∃ e c, s = e ++ c ∧ CppExpr e v ∧ (c = [] ∨ ∃ t, c = " /* ".toList ++ t ++ " */".toList ∧ '*' ∉ t)

/-- The member `f` of a variant is a bundle (or a reference to one) with an `<int>` field in front; that is not read if it fails on invalid values, and the value is in
    none of its ranges. -/
def MemberIs (cust : List Str) (f : Field) (k : KMember) : Prop :=
  ∃ c bs al cd ci st t, Follows f (.bundle c (.int ci st :: bs) al cd) ∧ st.type = some t ∧ keyClass cust ci t st = .ok k.key ∧
    (∀ v, k.accepts v = true ↔ (ci.failOnInvalid = true → st.validRanges ≠ [] → ∃ r ∈ st.validRanges, interp t r.min ≤ v ∧ v ≤ interp t r.max)) ∧
    (k.plain = true ↔ bundleRead (.int ci st :: bs) = none)

/-- Member by member, from index `i` on. -/
def MembersAre (cust : Nat → List Str) : Nat → List Field → List KMember → Prop
  | _, [], [] => True
  | i, m :: ms, k :: ks => MemberIs (cust i) m k ∧ MembersAre cust (i + 1) ms ks
  | _, _, _ => False

namespace VReader
variable {ι α ε : Type} (r : VReader ι α ε)

/-- One member, with index `i`. -/
def one (i : Nat) (k : KMember) (inp : ι) : Option α :=
  match r.key k.key inp with
  | .error _ => none
  | .ok (v, inp') =>
    if k.accepts v then (if k.plain then r.rest i v inp' else r.own i v inp').toOption else none

/-- The members one after the other; the result is the index of the first one that can be read, and what is read. -/
def tried (i : Nat) : List KMember → ι → Option (Nat × α)
  | [], _ => none
  | k :: ks, inp => match r.one i k inp with
    | some a => some (i, a)
    | none => tried (i + 1) ks inp

/-- The generated function, with the values `vals` of the case labels. -/
def switched (sw : KeySwitch) (vals : List Int) (inp : ι) : Option (Nat × α) :=
  match r.key sw.key inp with
  | .error _ => none
  | .ok (v, inp') =>
    match ((sw.cases.map Prod.snd).zip vals).find? (fun p => p.2 == v) with
    | some p => (r.rest p.1 v inp').toOption.map fun a => (p.1, a)
    | none => match sw.dflt with
      | some i => (r.rest i v inp').toOption.map fun a => (i, a)
      | none => none

end VReader

end Commsdsl.Spec
