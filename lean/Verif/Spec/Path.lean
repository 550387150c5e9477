import Verif.Model.Field
/-!
# What paths mean
-/
namespace Commsdsl.Spec
open Commsdsl Fld

/-- A path of names leads from a list of members to a field inside. -/
inductive Resolves : List Field → List Str → Prop where
  | here {ms : List Field} {m : Field} : m ∈ ms → Resolves ms [m.name]
  | down {ms : List Field} {m : Field} {p : List Str} : m ∈ ms → Resolves m.members p → Resolves ms (m.name :: p)

/-- Two names that differ at most in the case of the first letter. -/
def SameName (a b : Str) : Prop := ∃ x y t, a = x :: t ∧ b = y :: t ∧ (x.toLower = y.toLower)

end Commsdsl.Spec
