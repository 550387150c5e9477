import Verif.Model.FieldParse
/-!
# Specification: properties of a field, as attribute or as child element

The documentation of CommsDSL: a property can be an attribute (`<int name="A"/>`), a child with the value as attribute
(`<int><name value="A"/></int>`) or a child with the value as text (`<int><name>A</name></int>`).
-/
namespace Commsdsl.Spec
open Commsdsl Text Fld

/-- `c` is a child element for the property `key` with the value `v` (given without blanks around): `<key value="v"/>`, or `<key>t</key>`
    where `t` is `v` up to blanks. -/
inductive PropChild (key v : Str) : Xml → Prop where
  | value (a : Str) : trim a = v → PropChild key v (.elem key [("value".toList, a)] [])
  | text (t : Str) : normalise (trim t) = v → PropChild key v (.elem key [] [.text t])

/-- Properties that may be given many times, each one adding a range or a value. -/
def repeatable : List Str := [
  "validRange".toList, "validValue".toList, "validMin".toList, "validMax".toList, "validFullRange".toList]

/-- The properties of fields of a kind. -/
def propsOf (k : Kind) : List Str := commonProps ++ extraProps k

/-- No child of the node is a field: members are inside `<members>`, an element inside `<element>`, a field inside `<field>`. -/
def NoDirectFields (cs : List Xml) : Prop := ∀ c ∈ cs, c.isElem = true → kindOf c.name = none

/-- The property is neither an attribute nor a child. -/
def NotWritten (key : Str) (as : List (Str × Str)) (cs : List Xml) : Prop := (∀ a ∈ as, a.1 ≠ key) ∧ ∀ c ∈ cs, c.name ≠ key

/-- All values written for a property: of attributes, then of children. -/
def written (n : Xml) (key : Str) : List Str :=
  (n.attrs.filterMap fun a => if a.1 = key then some (trim a.2) else none) ++
    n.children.filterMap fun c => if c.isElem = true ∧ c.name = key then nodeValue c else none

end Commsdsl.Spec
