import Verif.Model.GenUse
import Verif.Model.Field

/-!
What it means that a global field is in use. Nothing here refers to the order in which the generator visits the fields, or to its marks.
-/

namespace Commsdsl.Spec

open Commsdsl.Gen Commsdsl.Fld

/-- The fields a field is made of. -/
def slots : UField → List (USlot UField)
  | .plain _ => []
  | .bitfield _ ms | .bundle _ ms | .variant _ ms => ms.map .own
  | .string _ p | .data _ p => [p]
  | .list _ e n l el t => [e, n, l, el, t]
  | .ref _ r => [.ext r]
  | .optional _ f => [f]

/-- The field `f`, or one inside it, refers to the global field `r`. -/
inductive Uses : UField → Str → Prop where
  | ext {f : UField} {r : Str} : .ext r ∈ slots f → Uses f r
  | own {f g : UField} {r : Str} : .own g ∈ slots f → Uses g r → Uses f r

/-- The field `x` is `f` itself or inside it. -/
inductive Owns : UField → UField → Prop where
  | refl (f : UField) : Owns f f
  | step {f g x : UField} : .own g ∈ slots f → Owns g x → Owns f x

/-- A namespace is one of a list of namespaces, or inside one of them. -/
inductive NsIn : List UNs → UNs → Prop where
  | here {l : List UNs} {x : UNs} : x ∈ l → NsIn l x
  | sub {l subs : List UNs} {fields ifaces messages frames} {x : UNs} : .mk subs fields ifaces messages frames ∈ l → NsIn subs x → NsIn l x

/-- The global field `r` is defined in one of the namespaces. -/
def DefinedAt (nss : List UNs) (r : Str) : Prop :=
  ∃ subs fields ifaces messages frames, NsIn nss (.mk subs fields ifaces messages frames) ∧ r ∈ fields

/-- A field of a message that is generated, of an interface that is generated, or of a layer. -/
inductive FieldOf (nss : List UNs) : UField → Prop where
  | iface {subs fields ifaces messages frames fs f} : NsIn nss (.mk subs fields ifaces messages frames) → (true, fs) ∈ ifaces → f ∈ fs → FieldOf nss f
  | message {subs fields ifaces messages frames fs f} : NsIn nss (.mk subs fields ifaces messages frames) → (true, fs) ∈ messages → f ∈ fs →
      FieldOf nss f
  | layer {subs fields ifaces messages frames ls l f} : NsIn nss (.mk subs fields ifaces messages frames) → ls ∈ frames → l ∈ ls → l.field = .own f →
      FieldOf nss f

/-- The escape field inside a `<sync>` layer. -/
def EscapeOf (nss : List UNs) (f : UField) : Prop :=
  ∃ subs fields ifaces messages frames ls l, NsIn nss (.mk subs fields ifaces messages frames) ∧ ls ∈ frames ∧ l ∈ ls ∧ l.esc = .own f

/-- A layer has the global field `r` as its field, or, in the C++ code, as its escape field. -/
inductive LayerRef (nss : List UNs) (comms : Bool) : Str → Prop where
  | field {subs fields ifaces messages frames ls l r} : NsIn nss (.mk subs fields ifaces messages frames) → ls ∈ frames → l ∈ ls → l.field = .ext r →
      LayerRef nss comms r
  | esc {subs fields ifaces messages frames ls l r} : NsIn nss (.mk subs fields ifaces messages frames) → ls ∈ frames → l ∈ ls → l.esc = .ext r →
      comms = true → LayerRef nss comms r

/-- A global field must be generated: something that is generated uses it, or the schema asks for it (`forceGen`). -/
inductive Needed (find : Str → Option UField) (nss : List UNs) (comms : Bool) : Str → Prop where
  | field {f r} : FieldOf nss f → Uses f r → Needed find nss comms r
  | layer {r} : LayerRef nss comms r → Needed find nss comms r
  | forced {r f} : find r = some f → f.force = true → Needed find nss comms r
  | inGlobal {r' f x r} : find r' = some f → Owns f x → x.force = true → Uses x r → Needed find nss comms r
  | inEscape {f x r} : EscapeOf nss f → Owns f x → x.force = true → Uses x r → Needed find nss comms r
  | step {r f r'} : Needed find nss comms r → find r = some f → Uses f r' → Needed find nss comms r'

/-- References lead to fields, and at most `n` deep: there is no circle (C34). -/
def Layered (find : Str → Option UField) (n : Nat) : Prop :=
  ∃ rank : Str → Nat, (∀ r, (find r).isSome = true → rank r < n) ∧
    ∀ r f, find r = some f → ∀ r', Uses f r' → (find r').isSome = true ∧ rank r' < rank r

/-- The objects of the generator are those of a schema: what the namespaces define is what references find, and everything the elements refer to is
    found. -/
structure Complete (find : Str → Option UField) (nss : List UNs) : Prop where
  defined : ∀ r, (find r).isSome = true ↔ DefinedAt nss r
  field : ∀ f, FieldOf nss f → ∀ r, Uses f r → (find r).isSome = true
  escape : ∀ f, EscapeOf nss f → ∀ r, Uses f r → (find r).isSome = true
  layer : ∀ r, LayerRef nss true r → (find r).isSome = true

mutual
/-- The object of the generator for a parsed field: the same shape, and where the parsed field has a pointer to a global field there is a reference that
    leads to that field. -/
inductive Mirrors (named : Str → Option Field) : Field → UField → Prop where
  | int {c st} : Mirrors named (.int c st) (.plain c.forceGen)
  | enum {c st} : Mirrors named (.enum c st) (.plain c.forceGen)
  | set {c st} : Mirrors named (.set c st) (.plain c.forceGen)
  | float {c st} : Mirrors named (.float c st) (.plain c.forceGen)
  | bitfield {c e ms cd us} : MirrorsAll named ms us → Mirrors named (.bitfield c e ms cd) (.bitfield c.forceGen us)
  | bundle {c ms al cd us} : MirrorsAll named ms us → Mirrors named (.bundle c ms al cd) (.bundle c.forceGen us)
  | variant {c d ms us} : MirrorsAll named ms us → Mirrors named (.variant c d ms) (.variant c.forceGen us)
  | string {c st p u} : MirrorsSlot named p u → Mirrors named (.string c st p) (.string c.forceGen u)
  | data {c st p u} : MirrorsSlot named p u → Mirrors named (.data c st p) (.data c.forceGen u)
  | list {c st e n l el t ue un ul uel ut} : MirrorsSlot named e ue → MirrorsSlot named n un → MirrorsSlot named l ul → MirrorsSlot named el uel →
      MirrorsSlot named t ut → Mirrors named (.list c st e n l el t) (.list c.forceGen ue un ul uel ut)
  | ref {c k t r} : MirrorsSlot named t (.ext r) → Mirrors named (.ref c k t) (.ref c.forceGen r)
  | optional {c st f cd u} : MirrorsSlot named f u → Mirrors named (.optional c st f cd) (.optional c.forceGen u)
/-- The members. -/
inductive MirrorsAll (named : Str → Option Field) : List Field → List UField → Prop where
  | nil : MirrorsAll named [] []
  | cons {f u fs us} : Mirrors named f u → MirrorsAll named fs us → MirrorsAll named (f :: fs) (u :: us)
/-- A field that may be global. -/
inductive MirrorsSlot (named : Str → Option Field) : Slot Field → USlot UField → Prop where
  | none : MirrorsSlot named .none .none
  | ext {f r} : named r = some f → MirrorsSlot named (.ext f) (.ext r)
  | own {f u} : Mirrors named f u → MirrorsSlot named (.own f) (.own u)
end

end Commsdsl.Spec
