import Verif.Model.Protocol
import Verif.Spec.Message
/-!
# The states of the protocol object
-/
namespace Commsdsl.Spec
open Commsdsl Fld Msg Frm Proto

/-- The state after some calls of `parse`, `validate` and `enableMultipleSchemas`, in any order, with any documents and results. -/
def Reachable (fo : FloatOps) (p : Proto) : Prop := ∃ calls : List Call, p = calls.foldl (call fo) {}

/-- The state while documents are processed: reached from such a state by a prefix of what `validate` does. -/
inductive During (fo : FloatOps) : Proto → Prop where
  | between {p : Proto} : Reachable fo p → During fo p
  | inside {p q : Proto} {docs : List Xml} {d : Xml} {rest : List Xml} {done todo : List Action} {r r' : Unit} :
      Reachable fo p → p.docs = docs ++ d :: rest → p.validated = false → runDocs fo p docs = (q, .ok r) →
      docActions d = done ++ todo → ∀ {q' : Proto}, run fo q done = (q', .ok r') → During fo q'

/-- The field was accepted with references, followed from field to field, at most `n` long: whatever a reference could find while it was parsed
    has a smaller bound. -/
inductive Rank : Nat → Field → Prop where
  | parse {n : Nat} {env : FEnv} {fuel : Nat} {parent : ParentInfo} {node : Xml} {f : Field} :
      (∀ s g, env.findField s = some g → Rank n g) → parseField env fuel parent node = .ok f → Rank (n + 1) f

end Commsdsl.Spec
