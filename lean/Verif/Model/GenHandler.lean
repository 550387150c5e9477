import Verif.Model.GenSuitable
/-!
# The handlers of the C interface (`app/commsdsl2c/src/CMsgHandler.cpp`, `CNamespace.cpp`, `CMessage.cpp`, `CCmake.cpp`)

For every namespace with the interface that it uses there is a struct with pointers to functions, one for every message and one for the interface, and a
C++ class with a function `handle` for the C++ class of every message, which passes the message on to the function of the struct.
-/
namespace Commsdsl.Gen
open Commsdsl Text Fld Msg Frm Proto

/-- `cMessagesListInternal`, CMsgHandler.cpp:435-451; `marked` are the messages requested, `t` the namespaces of the current schema. -/
def cHandlerMessages (marked : List MsgKey) (i : Nat) (t : List GNs) (n : GNs) : List (Path × Message) :=
  (msgIdMessages t n).filter fun e => marked.contains (i, e.1, e.2.name)

/-- A C++ class of a message: the class template of the message with the interface as its argument. The options are the same everywhere. Helper of `CHandler`, CMsgHandler.cpp:322-354. -/
abbrev CMsgType := (Path × Message) × (Path × Interface)

/-- The handler of a namespace: the message types of its functions `handle`, CMsgHandler.cpp:322-354, in the order in which they are declared, and the interface
    of the last function. The names are left out. -/
structure CHandler where
  ns : Path
  iface : Path × Interface
  types : List CMsgType

/-- The handlers written for a schema: `genWriteImpl`, CNamespace.cpp:149-177, writes one if the interface used by the namespace is in this namespace. The
    other files are left out. -/
def IfaceUse.cHandlers (u : IfaceUse) (i : Nat) (marked : List MsgKey) : List CHandler :=
  let t := (u.tops[i]?).getD []
  (chainsOf [] t).filterMap fun c =>
    match c.head?, u.suitable i t c with
    | some n, some f =>
      if f.1 = n.path then some { ns := n.path, iface := f, types := (cHandlerMessages marked i t n).map fun e => (e, f) } else none
    | _, _ => none

/-- The C++ class that the handle of a message stands for, CMessage.cpp:557-597: the argument of `toMessageHandle`. A message of a namespace without an interface
    has none: `genWriteImpl`, CMessage.cpp:111-126. -/
def IfaceUse.cMessageType (u : IfaceUse) (i : Nat) (e : Path × Message) : Option CMsgType :=
  match (u.chosen i).find? fun x => x.1 == e.1 with
  | some (_, some f) => some (e, f)
  | _ => none

/-! ## The list of source files -/

/-- Whether `cInterface` gives an interface when the list of source files is written, CNamespace.cpp:63-71, 92-96: the current schema, whose global namespace
    is searched last, is the one at index `cur` then. -/
def IfaceUse.hasIface (u : IfaceUse) (i cur : Nat) (c : List GNs) : Bool :=
  match u.forced with
  | none => (u.nearest i [] c).isSome || ((globalIfaces ((u.tops[cur]?).getD [])).find? (u.isUsed cur)).isSome
  | some (j, path, name) => (decide (i = j) && (suits [] path name c).isSome) ||
    (decide (cur = j) && ((globalIfaces ((u.tops[cur]?).getD [])).find? fun e => e.1 == path && e.2.name == name).isSome)

mutual
/-- The namespaces whose handlers are in the list: `cAddSourceFiles`, CNamespace.cpp:73-90. Other files are left out. -/
def GNs.cListed (u : IfaceUse) (i cur : Nat) (up : List GNs) : GNs → List Path
  | .mk p n fs ms is frs subs =>
    if u.hasIface i cur (.mk p n fs ms is frs subs :: up) then
      cListedOf u i cur (.mk p n fs ms is frs subs :: up) subs ++ if is.isEmpty then [] else [p]
    else []
/-- Helper of `GNs.cListed`, CNamespace.cpp:73-90. -/
def cListedOf (u : IfaceUse) (i cur : Nat) (up : List GNs) : List GNs → List Path
  | [] => []
  | n :: ns => n.cListed u i cur up ++ cListedOf u i cur up ns
end

/-- `cAddSourceFiles` of a schema, CSchema.cpp:32-38, when the list is written, CCmake.cpp:211-218: the current schema is the last one then. -/
def IfaceUse.cHandlerSources (u : IfaceUse) (i : Nat) : List Path := cListedOf u i (u.tops.length - 1) [] ((u.tops[i]?).getD [])

end Commsdsl.Gen
