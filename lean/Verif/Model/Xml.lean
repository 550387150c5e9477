import Verif.Model.Text
/-!
# XML access helpers (`lib/src/parse/ParseXmlWrap.cpp`)

The model starts where libxml2 ends: a document is a tree of elements (name, attributes in document order, children), text nodes and
other nodes (comments, CDATA, processing instructions). Namespaces prefixes and line numbers (only used in messages) are left out.
-/
namespace Commsdsl
open Text

/-- Model of `xmlNode` as far as the parser reads it. C++ library, not in /repo (libxml2); read by ParseXmlWrap.cpp:36-99. -/
inductive Xml where
  | elem (name : Str) (attrs : List (Str × Str)) (children : List Xml)
  | text (content : Str)
  | other
  deriving Repr

namespace Xml

/-- `node->name`. Helper of `getChildren`, ParseXmlWrap.cpp:63-99. -/
def name : Xml → Str
  | elem n _ _ => n
  | _ => []

/-- `node->properties`. Helper of `nodeProps`, ParseXmlWrap.cpp:36-52. -/
def attrs : Xml → List (Str × Str)
  | elem _ a _ => a
  | _ => []

/-- `node->children`. Helper of `getChildren`, ParseXmlWrap.cpp:63-99. -/
def children : Xml → List Xml
  | elem _ _ c => c
  | _ => []

/-- `cur->type == XML_ELEMENT_NODE`. ParseXmlWrap.cpp:63-99. -/
def isElem : Xml → Bool
  | elem .. => true
  | _ => false

end Xml

/-- `ParsePropsMap` = `std::multimap<std::string, std::string>`. Only `find`/`lower_bound`, `count` and `insert` are used: an association
    list in insertion order, where `find` gives the first entry of a key (equal keys keep their insertion order). ParseXmlWrap.h:39. -/
abbrev Props := List (Str × Str)

namespace Props

/-- `props.find(key)` / `lower_bound` (ParseXmlWrap.cpp and parse_common.cpp:1287) -/
def find (p : Props) (key : Str) : Option Str := (List.find? (fun e => e.1 == key) p).map Prod.snd

/-- `props.count(key)`. C++ library, not in /repo; used in ParseXmlWrap.cpp:265-286. -/
def count (p : Props) (key : Str) : Nat := List.countP (fun e => e.1 == key) p

/-- `parseGetStringProp` with empty default, parse_common.cpp:1282-1293 -/
def getStr (p : Props) (key : Str) : Str := (p.find key).getD []

/-- `parseValidateSinglePropInstance`, ParseXmlWrap.cpp:265-286 -/
def validateSingle (p : Props) (key : Str) (mustHave : Bool := false) : Bool :=
  if 1 < p.count key then false
  else if p.count key = 0 ∧ mustHave then false
  else true

/-- `parseValidateNoPropInstance`, ParseXmlWrap.cpp:288-298 -/
def validateNone (p : Props) (key : Str) : Bool := (p.find key).isNone

end Props

/-- `parseNodeProps`, ParseXmlWrap.cpp:36-52: attributes with trimmed values. -/
def nodeProps (n : Xml) : Props := n.attrs.map fun a => (a.1, trim a.2)

/-- `"value"`, ParseXmlWrap.cpp:80, 131 -/
def valueAttr : Str := "value".toList

/-- `parseGetChildren`, ParseXmlWrap.cpp:63-99 (and 54-61). An empty list of names selects all elements. -/
def getChildren (n : Xml) (names : List Str := []) (skipValueAttr : Bool := false) : List Xml :=
  n.children.filter fun c =>
    c.isElem && (names.isEmpty ||
      (!(skipValueAttr && ((nodeProps c).find valueAttr).isSome) && names.contains c.name))

/-- `parseGetText`, ParseXmlWrap.cpp:101-122: empty if there is any child element, otherwise the first text node. -/
def getText (n : Xml) : Str :=
  if n.children.any Xml.isElem then []
  else match n.children.findSome? (fun c => match c with | .text t => some t | _ => none) with
  | some t => t
  | none => []

/-- `parseNodeValue`, ParseXmlWrap.cpp:124-166. `none` stands for `false`; with `mustHaveValue == false` and nothing found the passed
    string stays as it was, i.e. empty. -/
def nodeValue (n : Xml) (mustHave : Bool := true) : Option Str :=
  let v := trim (((nodeProps n).find valueAttr).getD [])
  let t := trim (getText n)
  if v.isEmpty && t.isEmpty then
    if !mustHave then some [] else none
  else if !v.isEmpty && !t.isEmpty then none
  else if !v.isEmpty then some v
  else some (normalise t)

/-- Loop of `parseChildrenAsProps`, ParseXmlWrap.cpp:168-200. On a failed `parseNodeValue` with `mustHaveValue == false` the value stays
    empty and the child is skipped. -/
def childrenAsPropsLoop (names : List Str) (mustHave : Bool) : List Xml → Props → Option Props
  | [], acc => some acc
  | c :: cs, acc =>
    if !names.contains c.name then childrenAsPropsLoop names mustHave cs acc
    else match nodeValue c mustHave with
    | none => if mustHave then none else childrenAsPropsLoop names mustHave cs acc
    | some v => childrenAsPropsLoop names mustHave cs (if v.isEmpty then acc else acc ++ [(c.name, v)])

/-- `parseChildrenAsProps`, ParseXmlWrap.cpp:168-200 -/
def childrenAsProps (n : Xml) (names : List Str) (acc : Props) (mustHave : Bool := true) : Option Props :=
  if names.isEmpty then some acc
  else childrenAsPropsLoop names mustHave (getChildren n) acc

/-- `parseHasAnyChild`, ParseXmlWrap.cpp:300-312 -/
def hasAnyChild (n : Xml) (names : List Str) : Bool := (getChildren n).any fun c => names.contains c.name

end Commsdsl
