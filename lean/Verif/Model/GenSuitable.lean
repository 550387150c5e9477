import Verif.Model.GenMsgs
/-!
# The interface a namespace uses (`lib/src/gen/GenNamespace.cpp`, `GenGenerator.cpp`, `app/commsdsl2c/src/CNamespace.cpp`)

Messages and frames of the C, SWIG and emscripten wrappers are written for one interface, which is found from the namespace they are in.
-/
namespace Commsdsl.Gen
open Commsdsl Text Fld Msg Frm Proto

/-- An interface of the generator: index of the schema, path, name. Helper of `IfaceUse`, GenGenerator.cpp:670-675. -/
abbrev IfaceKey := Nat × Path × Str

/-! ## The interfaces in use -/

mutual
/-- `genGetAllInterfaces` of a namespace, GenNamespace.cpp:872-887, with the path of each interface. -/
def GNs.allInterfaces : GNs → List (Path × Interface)
  | .mk p _ _ _ is _ subs => allInterfacesOf subs ++ is.map fun i => (p, i)
/-- `genGetAllInterfaces` of a schema, GenSchema.cpp:634-642 -/
def allInterfacesOf : List GNs → List (Path × Interface)
  | [] => []
  | n :: ns => n.allInterfaces ++ allInterfacesOf ns
end

/-- What the generator knows about interfaces: the namespaces of each schema, the interfaces marked as referenced, the forced one
    (GenGenerator.cpp:670-675, GenInterface.cpp:123-131). -/
structure IfaceUse where
  tops : List (List GNs)
  used : List IfaceKey
  forced : Option IfaceKey

/-- `genReferenceAllInterfaces`, GenGenerator.cpp:507-512, GenSchema.cpp:461-466, GenNamespace.cpp:184-189: only namespaces at the top level are visited. -/
def referenceAllIfaces : Nat → List (List GNs) → List IfaceKey
  | _, [] => []
  | i, t :: ts => t.flatMap (fun n => n.ifaces.map fun f => (i, n.path, f.name)) ++ referenceAllIfaces (i + 1) ts

/-- The interface a reference finds, with its place: `genFindInterface`, GenGenerator.cpp:357-370 -/
def Gen.findInterfaceKey (g : Gen) (ref : Str) : Option IfaceKey :=
  let si := match ref with
    | '@' :: r => (g.schemas.findIdx? (fun s => s.name == r.takeWhile (· != '.'))).getD 0
    | _ => g.curr
  let rest := (g.externalRef ref).2
  (g.findInterface ref).map fun i => (si, (dotSplit rest).dropLast, i.name)

/-- `genReferenceRequestedInterfacesInternal`, GenGenerator.cpp:566-583; the current schema is the last one. -/
def requestedIfaces (ss : List Schema) (name : Str) : Res IfaceUse :=
  if name.isEmpty then .ok { tops := ss.map buildSchema, used := referenceAllIfaces 0 (ss.map buildSchema), forced := none }
  else match (Gen.mk ss (ss.length - 1)).findInterfaceKey name with
  | none => .err
  | some k => .ok { tops := ss.map buildSchema, used := [k], forced := some k }

/-- The interface created by `genAddDefaultInterface`, GenNamespace.cpp:957-975: it has neither a name nor fields. -/
def defaultIface : Interface := { name := [] }

/-- `genAddDefaultNamespace` and `genAddDefaultInterface`, GenSchema.cpp:736-748, GenNamespace.cpp:957-975, for a schema without interfaces. -/
def addDefault : List GNs → List GNs
  | .mk p n fs ms is frs subs :: ts =>
    if n.isEmpty then .mk p n fs ms (defaultIface :: is) frs subs :: ts
    else .mk [] [] [] [] [defaultIface] [] [] :: .mk p n fs ms is frs subs :: ts
  | [] => [.mk [] [] [] [] [defaultIface] [] []]

/-- `genPrepareDefaultInterfaceInternal`, GenGenerator.cpp:549-564, for the current schema, which is the last one. -/
def prepareDefault (u : IfaceUse) : IfaceUse :=
  match u.tops[u.tops.length - 1]? with
  | none => u
  | some t =>
    if (allInterfacesOf t).isEmpty then
      { u with tops := u.tops.set (u.tops.length - 1) (addDefault t), used := u.used ++ [(u.tops.length - 1, [], [])] }
    else u

/-- The part of `genPrepare` that is about interfaces, GenGenerator.cpp:443-456; the messages requested and what the applications do when the elements
    are created are left out. -/
def prepareIfaces (ss : List Schema) (name : Str) : Res IfaceUse := do
  let u ← requestedIfaces ss name
  pure (prepareDefault u)

/-! ## The interface of a namespace -/

/-- `genIsReferenced`, GenInterface.cpp:234-237 -/
def IfaceUse.isUsed (u : IfaceUse) (i : Nat) (e : Path × Interface) : Bool := u.used.contains (i, e.1, e.2.name)

/-- The first interface of the namespace that is referenced, GenNamespace.cpp:494-513 -/
def IfaceUse.ownIface (u : IfaceUse) (i : Nat) (n : GNs) : Option (Path × Interface) :=
  (n.ifaces.map fun f => (n.path, f)).find? (u.isUsed i)

/-- The interfaces of the first namespace without a name, GenNamespace.cpp:520-541 and 333-346; `t` are the namespaces of the current schema. -/
def globalIfaces (t : List GNs) : List (Path × Interface) :=
  match (allNsOf t).find? fun n => n.name.isEmpty with
  | none => []
  | some g => g.allInterfaces

/-- `genFindSuitableInterfaceInternal`, GenNamespace.cpp:492-545; the list is the namespace and the ones around it, from the inside. -/
def IfaceUse.nearest (u : IfaceUse) (i : Nat) (t : List GNs) : List GNs → Option (Path × Interface)
  | [] => (globalIfaces t).find? (u.isUsed i)
  | n :: up =>
    match u.ownIface i n with
    | some f => some f
    | none => u.nearest i t up

/-- `genIsSuitableInterface`, GenNamespace.cpp:313-348: interfaces are compared by their place. -/
def suits (t : List GNs) (path : Path) (name : Str) : List GNs → Option (Path × Interface)
  | [] => (globalIfaces t).find? fun e => e.1 == path && e.2.name == name
  | n :: up =>
    match (n.ifaces.map fun f => (n.path, f)).find? (fun e => e.1 == path && e.2.name == name) with
    | some e => some e
    | none => suits t path name up

/-- `genFindSuitableInterface`, GenNamespace.cpp:297-311: `cInterface`, `swigInterface`, `emscriptenInterface` of a namespace (CNamespace.cpp:63-71,
    SwigNamespace.cpp:200-208, EmscriptenNamespace.cpp:140-148). The current schema is the one of the namespace. -/
def IfaceUse.suitable (u : IfaceUse) (i : Nat) (t : List GNs) (chain : List GNs) : Option (Path × Interface) :=
  match u.forced with
  | none => u.nearest i t chain
  | some (j, path, name) => if i = j then suits t path name chain else none

mutual
/-- Every namespace with the ones around it, in the order in which namespaces are written: `genWrite`, GenNamespace.cpp:99-110, with `genGetParent`. -/
def GNs.chains (up : List GNs) : GNs → List (List GNs)
  | .mk p n fs ms is frs subs => chainsOf (.mk p n fs ms is frs subs :: up) subs ++ [.mk p n fs ms is frs subs :: up]
/-- Helper of `GNs.chains`, GenNamespace.cpp:99-110. -/
def chainsOf (up : List GNs) : List GNs → List (List GNs)
  | [] => []
  | n :: ns => n.chains up ++ chainsOf up ns
end

/-- The interface of every namespace of a schema, with the path of the namespace. Helper of `IfaceUse.cMessageType`, CMessage.cpp:557-597. -/
def IfaceUse.chosen (u : IfaceUse) (i : Nat) : List (Path × Option (Path × Interface)) :=
  let t := (u.tops[i]?).getD []
  (chainsOf [] t).map fun c => (((c.head?.map GNs.path).getD []), u.suitable i t c)

end Commsdsl.Gen
