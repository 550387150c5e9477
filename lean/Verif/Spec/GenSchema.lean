import Verif.Model.GenSchema
import Verif.Spec.Protocol
/-!
# What the versions of an element mean; where elements are
-/
namespace Commsdsl.Spec
open Commsdsl Fld Msg Frm Proto Gen

/-- In the given version the element exists: it was added by then, and it was not removed by then. -/
def Present (since depr : Nat) (removed : Bool) (v : Nat) : Prop := since ≤ v ∧ (removed = true → v < depr)

/-- The versions of the protocol the generated code has to talk to. -/
def Supported (g : GVer) (v : Nat) : Prop := g.minRemote ≤ v ∧ v ≤ g.version

/-- The text of a reference to an element of the schema: with the name of the schema, or, if this is the schema with the given index, without. -/
def RefTextOf (ss : List Schema) (curr i : Nat) (path : Path) (name ref : Str) : Prop :=
  ∃ s, ss[i]? = some s ∧ (ref = externalRefOf true s.name path name ∨ (i = curr ∧ ref = externalRefOf false s.name path name))

end Commsdsl.Spec
