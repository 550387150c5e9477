import Verif.Model.Message
import Verif.Spec.IntField
import Verif.Spec.FloatField
/-!
# What an element has from the element it reuses
-/
namespace Commsdsl.Spec
open Commsdsl Text Fld Msg

/-- The text of a property, if it is given and the DSL version of the schema knows the property (C28). -/
def known (dsl : Nat) (props : Props) (key : Str) : Option Str := if Dsl.propertySupported dsl key = true then props.find key else none

/-- What the element says, or else what it inherits. -/
def Takes {α : Type} (given : Option Str) (inherited : α) (means : Str → α → Prop) (r : α) : Prop :=
  match given with
  | none => r = inherited
  | some s => means s r

/-- The texts of `true` and `false`. -/
def BoolText (s : Str) (b : Bool) : Prop := s.map toLowerC = (if b then "true" else "false").toList ∨ s = (if b then "1" else "0").toList

/-- The texts of the senders, in any case. -/
inductive SenderText : Str → Sender → Prop where
  | both {s : Str} : s.map toLowerC = "both".toList → SenderText s .both
  | client {s : Str} : s.map toLowerC = "client".toList → SenderText s .client
  | server {s : Str} : s.map toLowerC = "server".toList → SenderText s .server

/-- The texts of semantic types, in any case. -/
inductive SemText : Str → Sem → Prop where
  | empty : SemText [] .none
  | none {s : Str} : s.map toLowerC = "none".toList → SemText s .none
  | version {s : Str} : s.map toLowerC = "version".toList → SemText s .version
  | messageId {s : Str} : s.map toLowerC = "messageid".toList → SemText s .messageId
  | length {s : Str} : s.map toLowerC = "length".toList → SemText s .length

/-- The message that is reused; a new one, if there is none or the DSL version does not know this. -/
def MessageReused (env : MEnv) (props : Props) (x : Message) : Prop :=
  (x = {} ∧ (props.find "reuse".toList = none ∨ Dsl.isSupported env.dsl .messageReuse = false)) ∨
    ∃ s, props.find "reuse".toList = some s ∧ Dsl.isSupported env.dsl .messageReuse = true ∧ env.findMessage s = some x

/-- The interface that is reused. -/
def InterfaceReused (env : MEnv) (props : Props) (x : Interface) : Prop :=
  (x = {} ∧ (props.find "reuse".toList = none ∨ Dsl.isSupported env.dsl .interfaceReuse = false)) ∨
    ∃ s, props.find "reuse".toList = some s ∧ Dsl.isSupported env.dsl .interfaceReuse = true ∧ env.findInterface s = some x

/-- The common attributes of the field that is reused, which has to be of the same kind; those of a new one, if there is none. -/
def FieldReused (env : FEnv) (props : Props) (k : Kind) (x : Common) : Prop :=
  (x = {} ∧ props.find "reuse".toList = none) ∨ ∃ s f, props.find "reuse".toList = some s ∧ env.findField s = some f ∧ f.kind = k ∧ x = f.common

/-- The attributes fields of all kinds have. -/
def GeneralAttribute (key : Str) : Prop := key ∈ [
  "name", "displayName", "description", "reuse", "reuseCode", "copyCodeFrom", "sinceVersion", "deprecated", "removed", "semanticType", "pseudo", "fixedValue", "customizable",
  "failOnInvalid", "forceGen", "validateMinLength", "displayReadOnly", "displayHidden", "valueOverride", "readOverride", "writeOverride", "refreshOverride", "lengthOverride",
  "validOverride", "nameOverride"].map String.toList

/-- Where the code of an element is copied from when it says nothing about that: from the reused element, if `reuseCode` says so. -/
def CodeReused (dsl : Nat) (props : Props) (code : Str) : Prop :=
  ((∃ t, known dsl props "reuseCode".toList = some t ∧ BoolText t true) ∧ props.find "reuse".toList = some code) ∨
    ((¬ ∃ t, known dsl props "reuseCode".toList = some t ∧ BoolText t true) ∧ code = [])

/-- The members of a composite that reuses another one: the copies (C45) of its members, without those removed before the version `since` of the new one; none of them older than that. -/
def membersReused (since : Nat) (ms : List Field) : List Field :=
  ((ms.map clone).filter fun m => !(m.removed && decide (m.depr ≤ since))).map fun m => m.setSince (max since m.since)

/-- The field of a slot: referenced, or copied. -/
def slotReused : Slot Field → Slot Field
  | .none => .none
  | .ext f => .ext f
  | .own f => .own (clone f)

/-- The content (everything but the common attributes) of a field `g`, introduced in version `since`, is that of the field `f`. Valid ranges may be
    written in another way, valid values in another order; `endian` of a floating point number is left out;
    a list has no `termSuffix` in schemas that do not know that. -/
inductive ContentReused (dsl since : Nat) : Field → Field → Prop where
  | int {c c' : Common} {t : IntF.IntType} {st st' : IntF.State} : st.type = some t → { st' with validRanges := [] } = { st with validRanges := [] } →
      IntF.normaliseRanges t st.validRanges = .ok st'.validRanges → ContentReused dsl since (.int c st) (.int c' st')
  | enum {c c' : Common} {st : EnumF.State} : ContentReused dsl since (.enum c st) (.enum c' st)
  | set {c c' : Common} {st : SetF.State} : ContentReused dsl since (.set c st) (.set c' st)
  | float {c c' : Common} {st st' : FloatState} : { st' with validRanges := [], endian := none } = { st with validRanges := [], endian := none } →
      st'.validRanges = FloatF.normaliseRanges st.validRanges → ContentReused dsl since (.float c st) (.float c' st')
  | bitfield {c c' : Common} {e : Option IntF.Endian} {ms : List Field} {cd : Option CondM.Cond} :
      ContentReused dsl since (.bitfield c e ms cd) (.bitfield c' e ((ms.map clone).map fun m => m.setSince (max since m.since)) cd)
  | bundle {c c' : Common} {ms : List Field} {al al' : List Alias} {cd : Option CondM.Cond} :
      al' = (if Dsl.isSupported dsl .fieldAlias = true then al.filter fun a => (membersReused since ms).any fun m => m.name == a.fieldName else []) →
      ContentReused dsl since (.bundle c ms al cd) (.bundle c' (membersReused since ms) al' cd)
  | string {c c' : Common} {st st' : SeqState Char} {p : Slot Field} : { st' with valid := [] } = { st with valid := [] } → st'.valid.Perm st.valid →
      ContentReused dsl since (.string c st p) (.string c' st' (slotReused p))
  | data {c c' : Common} {st st' : SeqState Nat} {p : Slot Field} : { st' with valid := [] } = { st with valid := [] } → st'.valid.Perm st.valid →
      ContentReused dsl since (.data c st p) (.data c' st' (slotReused p))
  | list {c c' : Common} {st : ListState} {e cn l el t : Slot Field} :
      ContentReused dsl since (.list c st e cn l el t)
        (.list c' (if Dsl.propertySupported dsl "termSuffix".toList = true then st else { st with detachedTerm := [] }) (slotReused e) (slotReused cn) (slotReused l)
          (slotReused el) (if Dsl.propertySupported dsl "termSuffix".toList = true then slotReused t else .none))
  | ref {c c' : Common} {b : Nat} {t : Slot Field} : ContentReused dsl since (.ref c b t) (.ref c' b t)
  | optional {c c' : Common} {st : OptState} {f : Slot Field} {cd : Option CondM.Cond} :
      ContentReused dsl since (.optional c st f cd) (.optional c' st (slotReused f) cd)
  | variant {c c' : Common} {d : Nat} {ms : List Field} : ContentReused dsl since (.variant c d ms) (.variant c' d (membersReused since ms))

end Commsdsl.Spec
