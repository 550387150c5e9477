import Verif.Model.FieldParse
/-!
# Which field objects can exist
-/
namespace Commsdsl.Spec
open Commsdsl Fld

/-- Fields accepted by the parser: the result of parsing any XML element, under any parent, in any environment whose global fields have been
    accepted before. -/
inductive Accepted : Field → Prop where
  | parse {env : FEnv} {fuel : Nat} {parent : ParentInfo} {node : Xml} {f : Field} :
      (∀ s g, env.findField s = some g → Accepted g) → parseField env fuel parent node = .ok f → Accepted f

/-- All field objects in the memory of the parser after success: accepted fields, the fields inside, copies made when a message or
    interface is reused, with the version lifted there. -/
inductive Obj : Field → Prop where
  | acc {f : Field} : Accepted f → Obj f
  | inner {f g : Field} : Obj f → g ∈ f.subs → Obj g
  | copy {f : Field} : Obj f → Obj (clone f)
  | lift {f : Field} (s : Nat) : Obj f → Obj (liftSince s f)

end Commsdsl.Spec
