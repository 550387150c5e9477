import Verif.Model.GenSuitable
/-!
# Which interface a namespace should use
-/
namespace Commsdsl.Spec
open Commsdsl Msg Proto Gen

/-- The interface of the namespace `r`, the first one by name if there are several. -/
def FirstIn (s : Schema) (r : Path) (i : Interface) : Prop := (r, i) ∈ s.ifaces ∧ ∀ j, (r, j) ∈ s.ifaces → ¬ j.name < i.name

/-- The interface declared nearest to the namespace `q`: in the namespace itself, or in the innermost namespace around it that has one; the global
    namespace is around all others. -/
def NearestIface (s : Schema) (q : Path) (e : Path × Interface) : Prop :=
  e.1 <+: q ∧ FirstIn s e.1 e.2 ∧ ∀ f ∈ s.ifaces, f.1 <+: q → f.1.length ≤ e.1.length

/-- The same among the interfaces of the global namespace and of the namespaces that are not in another one. -/
def NearestTopIface (s : Schema) (q : Path) (e : Path × Interface) : Prop :=
  e.1.length ≤ 1 ∧ e.1 <+: q ∧ FirstIn s e.1 e.2 ∧ ∀ f ∈ s.ifaces, f.1.length ≤ 1 → f.1 <+: q → f.1.length ≤ e.1.length

end Commsdsl.Spec
