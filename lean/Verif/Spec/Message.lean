import Verif.Spec.Field
import Verif.Model.Message
/-!
# Which messages and interfaces can exist
-/
namespace Commsdsl.Spec
open Commsdsl Fld Msg

/-- Messages accepted by the parser: the result of parsing any XML element in any environment whose global fields and earlier messages have been
    accepted before. -/
inductive AcceptedMsg : Message → Prop where
  | parse {env : MEnv} {node : Xml} {m : Message} :
      (∀ s g, env.fld.findField s = some g → Accepted g) → (∀ s x, env.findMessage s = some x → AcceptedMsg x) →
      parseMessage env node = .ok m → AcceptedMsg m

/-- The same for interfaces. -/
inductive AcceptedIface : Interface → Prop where
  | parse {env : MEnv} {node : Xml} {i : Interface} :
      (∀ s g, env.fld.findField s = some g → Accepted g) → (∀ s x, env.findInterface s = some x → AcceptedIface x) →
      parseInterface env node = .ok i → AcceptedIface i

end Commsdsl.Spec
