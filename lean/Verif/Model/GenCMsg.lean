import Verif.Model.GenC
/-!
# The functions of the C interface for messages, interfaces and frames (`CMessage.cpp`, `CInterface.cpp`, `CFrame.cpp`, `CLayer.cpp` of `app/commsdsl2c/src`)

Bodies are left out, except for which values of the frame are assigned from which field (`CFrame.cpp:508-535`).
-/
namespace Commsdsl.Gen
open Commsdsl

/-- What the templates of a message take: its name, the one of its interface, of the type of the message ids, of the status, and the fields. CMessage.cpp:301-386 -/
structure CMsg where
  name : Str
  iface : Str
  msgId : Str
  status : Str
  fields : List CFld

/-- `const uint8_t**`, CMessage.cpp:301-386 -/
def cIter : CTy := { const := true, base := "uint8_t".toList, ptrs := 2 }
/-- `uint8_t**`, CMessage.cpp:301-386 -/
def cOutIter : CTy := { base := "uint8_t".toList, ptrs := 2 }
/-- `void*`, CInterface.cpp:357-428 -/
def cVoidPtr : CTy := { base := "void".toList, ptrs := 1 }

/-- The functions `cHeaderCodeInternal` declares, CMessage.cpp:301-386 -/
def CMsg.declares (m : CMsg) : List CFunc := [
  { ret := cPtr m.iface, name := cJoin m.name "toInterface", params := [cPtr m.name] },
  { ret := cPtr m.name, name := cJoin m.name "fromInterface", params := [cPtr m.iface] }] ++
  (m.fields.map fun f => { ret := cPtr f.head.name, name := cJoin m.name "field_" ++ f.head.acc, params := [cPtr m.name] }) ++ [
  { ret := { base := m.msgId }, name := cJoin m.name "doGetId", params := [cConstPtr m.name] },
  { ret := { base := m.status }, name := cJoin m.name "doRead", params := [cPtr m.name, cIter, cPlain "size_t"] },
  { ret := { base := m.status }, name := cJoin m.name "doWrite", params := [cConstPtr m.name, cOutIter, cPlain "size_t"] },
  { ret := cPlain "size_t", name := cJoin m.name "doLength", params := [cConstPtr m.name] },
  { ret := { const := true, base := "char".toList, ptrs := 1 }, name := cJoin m.name "doName", params := [cConstPtr m.name] },
  { ret := cPlain "bool", name := cJoin m.name "doValid", params := [cConstPtr m.name] },
  { ret := cPtr m.name, name := cJoin m.name "alloc", params := [] },
  { ret := cPlain "void", name := cJoin m.name "free", params := [cPtr m.name] }]

/-- The functions `cSourceCodeInternal` defines, CMessage.cpp:424-516 -/
def CMsg.defines (m : CMsg) : List CFunc := [
  { ret := cPtr m.iface, name := cJoin m.name "toInterface", params := [cPtr m.name] },
  { ret := cPtr m.name, name := cJoin m.name "fromInterface", params := [cPtr m.iface] }] ++
  (m.fields.map fun f => { ret := cPtr f.head.name, name := cJoin m.name "field_" ++ f.head.acc, params := [cPtr m.name] }) ++ [
  { ret := { base := m.msgId }, name := cJoin m.name "doGetId", params := [cConstPtr m.name] },
  { ret := { base := m.status }, name := cJoin m.name "doRead", params := [cPtr m.name, cIter, cPlain "size_t"] },
  { ret := { base := m.status }, name := cJoin m.name "doWrite", params := [cConstPtr m.name, cOutIter, cPlain "size_t"] },
  { ret := cPlain "size_t", name := cJoin m.name "doLength", params := [cConstPtr m.name] },
  { ret := { const := true, base := "char".toList, ptrs := 1 }, name := cJoin m.name "doName", params := [cConstPtr m.name] },
  { ret := cPlain "bool", name := cJoin m.name "doValid", params := [cConstPtr m.name] },
  { ret := cPtr m.name, name := cJoin m.name "alloc", params := [] },
  { ret := cPlain "void", name := cJoin m.name "free", params := [cPtr m.name] }]

/-- The header of a message: `cWriteHeaderInternal`, CMessage.cpp:127-170, `cHeaderFieldsInternal`, 291-299, `cHeaderCodeInternal`, 301-386. -/
def CMsg.header (m : CMsg) : List CDecl := headersOf m.status m.fields ++ .type m.name :: m.declares.map .func
/-- The source file of a message: `cWriteSourceInternal`, CMessage.cpp:172-212, `cSourceFieldsInternal`, 414-422. -/
def CMsg.source (m : CMsg) : List CFunc := sourcesOf m.status m.fields ++ m.defines

/-- What the templates of an interface take, CInterface.cpp:357-428. -/
structure CIface where
  name : Str
  msgId : Str
  handler : Str
  status : Str
  fields : List CFld

/-- The functions `cHeaderCodeInternal` declares after those for its fields, CInterface.cpp:357-428 -/
def CIface.declares (i : CIface) : List CFunc :=
  (i.fields.map fun f => { ret := cPtr f.head.name, name := cJoin i.name "transportField_" ++ f.head.acc, params := [cPtr i.name] }) ++ [
  { ret := { base := i.msgId }, name := cJoin i.name "getId", params := [cConstPtr i.name] },
  { ret := { base := i.status }, name := cJoin i.name "read", params := [cPtr i.name, cIter, cPlain "size_t"] },
  { ret := { base := i.status }, name := cJoin i.name "write", params := [cConstPtr i.name, cOutIter, cPlain "size_t"] },
  { ret := cPlain "size_t", name := cJoin i.name "length", params := [cConstPtr i.name] },
  { ret := { const := true, base := "char".toList, ptrs := 1 }, name := cJoin i.name "name", params := [cConstPtr i.name] },
  { ret := cPlain "bool", name := cJoin i.name "valid", params := [cConstPtr i.name] },
  { ret := cPlain "void", name := cJoin i.name "dispatch", params := [cPtr i.name, cPtr i.handler, cVoidPtr] }]

/-- The functions `cSourceCodeInternal` defines, CInterface.cpp:470-549: the access to a field has another name. -/
def CIface.defines (i : CIface) : List CFunc :=
  (i.fields.map fun f => { ret := cPtr f.head.name, name := cJoin i.name "field_" ++ f.head.acc, params := [cPtr i.name] }) ++ [
  { ret := { base := i.msgId }, name := cJoin i.name "getId", params := [cConstPtr i.name] },
  { ret := { base := i.status }, name := cJoin i.name "read", params := [cPtr i.name, cIter, cPlain "size_t"] },
  { ret := { base := i.status }, name := cJoin i.name "write", params := [cConstPtr i.name, cOutIter, cPlain "size_t"] },
  { ret := cPlain "size_t", name := cJoin i.name "length", params := [cConstPtr i.name] },
  { ret := { const := true, base := "char".toList, ptrs := 1 }, name := cJoin i.name "name", params := [cConstPtr i.name] },
  { ret := cPlain "bool", name := cJoin i.name "valid", params := [cConstPtr i.name] },
  { ret := cPlain "void", name := cJoin i.name "dispatch", params := [cPtr i.name, cPtr i.handler, cVoidPtr] }]

/-- The header of an interface, CInterface.cpp:133-176, 347-355, 357-428 -/
def CIface.header (i : CIface) : List CDecl := headersOf i.status i.fields ++ .type i.name :: i.declares.map .func
/-- The source file of an interface, CInterface.cpp:178-218, 460-549 -/
def CIface.source (i : CIface) : List CFunc := sourcesOf i.status i.fields ++ i.defines

/-- The field of a layer: none, a global one, or its own; CLayer.cpp:55-93. -/
inductive CLayField where
  | none
  | ext (name : Str)
  | own (f : CFld)

/-- What is kept of the values a layer reads: nothing, a value of the type `ty` (numbers and enumerations, CIntField.cpp:85-93, CEnumField.cpp:247-255), or the bytes
    of the payload (CPayloadLayer.cpp:41-76). -/
inductive CLayValue where
  | none
  | value (ty : CTy)
  | payload

/-- A layer of the C generator: CLayer.cpp:95-162. `pseudo` is the one of CValueLayer.cpp:40-48; for it there always is a field. -/
structure CLay where
  name : Str
  acc : Str
  field : CLayField
  pseudo : Option Str
  value : CLayValue

/-- The fields inside a layer's files, CLayer.cpp:119-162 -/
def CLay.owns (l : CLay) : List CFld :=
  match l.field with
  | .own f => [f]
  | _ => []

/-- `cHeaderCodeImpl` and `cSourceCodeImpl` of a value layer have the same function, CValueLayer.cpp:50-69, 71-95. `pseudo` is the name of its field. -/
def CLay.code (l : CLay) : List CFunc :=
  match l.pseudo with
  | some f => [{ ret := cPtr f, name := cJoin l.name "pseudoField", params := [cPtr l.name] }]
  | none => []

/-- `cHeaderCode`, CLayer.cpp:119-144 -/
def CLay.header (st : Str) (l : CLay) : List CDecl := headersOf st l.owns ++ .type l.name :: l.code.map .func
/-- `cSourceCode`, CLayer.cpp:146-162 -/
def CLay.source (st : Str) (l : CLay) : List CFunc := sourcesOf st l.owns ++ l.code

/-- What the templates of a frame take. The layers are in the order of COMMS, CFrame.cpp:109-143. -/
structure CFrm where
  name : Str
  iface : Str
  msgId : Str
  handler : Str
  status : Str
  layers : List CLay

/-- `FrameValuesSuffix`, CFrame.cpp:44 -/
def CFrm.values (f : CFrm) : Str := f.name ++ "_FrameValues".toList

/-- The functions declared before the structure with the values, CFrame.cpp:328-433 -/
def CFrm.declares (f : CFrm) : List CFunc := [
  { ret := cPtr f.name, name := cJoin f.name "alloc", params := [] },
  { ret := cPlain "void", name := cJoin f.name "free", params := [cPtr f.name] }] ++
  (f.layers.map fun l => { ret := cPtr l.name, name := cJoin f.name "layer_" ++ l.acc, params := [cPtr f.name] }) ++ [
  { ret := cPtr f.iface, name := cJoin f.name "createMsg", params := [cPtr f.name, { base := f.msgId }, cPlain "unsigned"] },
  { ret := cPlain "void", name := cJoin f.name "deleteMsg", params := [cPtr f.iface] },
  { ret := cPlain "size_t", name := cJoin f.name "processInputData",
    params := [cPtr f.name, { const := true, base := "uint8_t".toList, ptrs := 1 }, cPlain "size_t", cPtr f.handler, cVoidPtr] }]

/-- The functions declared after it, CFrame.cpp:328-433 -/
def CFrm.declaresRest (f : CFrm) : List CFunc := [
  { ret := cPlain "size_t", name := cJoin f.name "processInputDataSingleMsg",
    params := [cPtr f.name, { const := true, base := "uint8_t".toList, ptrs := 1 }, cPlain "size_t", cPtr f.handler, cVoidPtr, cPtr f.values] },
  { ret := { base := f.status }, name := cJoin f.name "writeMessage",
    params := [cPtr f.name, cConstPtr f.iface, { base := "uint8_t".toList, ptrs := 1 }, { base := "size_t".toList, ptrs := 1 }] },
  { ret := cPlain "size_t", name := cJoin f.name "messageLength", params := [cConstPtr f.name, cConstPtr f.iface] }]

/-- The functions `cSourceFrameCodeInternal` defines, CFrame.cpp:508-650 -/
def CFrm.defines (f : CFrm) : List CFunc := [
  { ret := cPtr f.name, name := cJoin f.name "alloc", params := [] },
  { ret := cPlain "void", name := cJoin f.name "free", params := [cPtr f.name] }] ++
  (f.layers.map fun l => { ret := cPtr l.name, name := cJoin f.name "layer_" ++ l.acc, params := [cPtr f.name] }) ++ [
  { ret := cPtr f.iface, name := cJoin f.name "createMsg", params := [cPtr f.name, { base := f.msgId }, cPlain "unsigned"] },
  { ret := cPlain "void", name := cJoin f.name "deleteMsg", params := [cPtr f.iface] },
  { ret := cPlain "size_t", name := cJoin f.name "processInputData",
    params := [cPtr f.name, { const := true, base := "uint8_t".toList, ptrs := 1 }, cPlain "size_t", cPtr f.handler, cVoidPtr] },
  { ret := cPlain "size_t", name := cJoin f.name "processInputDataSingleMsg",
    params := [cPtr f.name, { const := true, base := "uint8_t".toList, ptrs := 1 }, cPlain "size_t", cPtr f.handler, cVoidPtr, cPtr f.values] },
  { ret := { base := f.status }, name := cJoin f.name "writeMessage",
    params := [cPtr f.name, cConstPtr f.iface, { base := "uint8_t".toList, ptrs := 1 }, { base := "size_t".toList, ptrs := 1 }] },
  { ret := cPlain "size_t", name := cJoin f.name "messageLength", params := [cConstPtr f.name, cConstPtr f.iface] }]

/-- The header of a frame: CFrame.cpp:158-201, `cHeaderLayersCodeInternal`, 318-326, `cHeaderFrameCodeInternal`, 328-433. -/
def CFrm.header (f : CFrm) : List CDecl :=
  f.layers.flatMap (CLay.header f.status) ++ .type f.name :: (f.declares.map .func ++ .type f.values :: f.declaresRest.map .func)
/-- The source file of a frame: CFrame.cpp:203-243, `cSourceLayersCodeInternal`, 498-506. -/
def CFrm.source (f : CFrm) : List CFunc := f.layers.flatMap (CLay.source f.status) ++ f.defines

/-- `cFrameValueDef`: the members of the structure for a layer, CLayer.cpp:245-258, CPayloadLayer.cpp:41-54, CField.cpp:538-550 -/
def CLay.members (l : CLay) : List (CTy × Str) :=
  match l.value with
  | .none => []
  | .value ty => [(ty, "m_".toList ++ l.acc)]
  | .payload => [({ base := "uint8_t".toList, ptrs := 1 }, "m_".toList ++ l.acc), (cPlain "size_t", "m_".toList ++ l.acc ++ "Len".toList)]

/-- `cHeaderFrameFieldsCodeInternal`: the members of the structure, CFrame.cpp:435-462 -/
def CFrm.members (f : CFrm) : List (CTy × Str) := f.layers.flatMap CLay.members

/-- `cFrameValueAssign`: the members that are assigned, and the index in the tuple of all fields, CLayer.cpp:260-281, CPayloadLayer.cpp:56-76, CField.cpp:552-564 -/
def CLay.assigns (l : CLay) (idx : Nat) : List (Str × Nat) :=
  match l.value with
  | .none => []
  | .value _ => [("m_".toList ++ l.acc, idx)]
  | .payload => [("m_".toList ++ l.acc, idx), ("m_".toList ++ l.acc ++ "Len".toList, idx)]

/-- The loop over the layers, CFrame.cpp:508-535 -/
def assignsFrom : Nat → List CLay → List (Str × Nat)
  | _, [] => []
  | idx, l :: ls => l.assigns idx ++ assignsFrom (idx + 1) ls

/-- What `processInputDataSingleMsg` assigns, CFrame.cpp:508-650 -/
def CFrm.assigns (f : CFrm) : List (Str × Nat) := assignsFrom 0 f.layers

end Commsdsl.Gen
