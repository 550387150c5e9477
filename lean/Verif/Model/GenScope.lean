import Verif.Model.Protocol
/-!
# Scopes, namespaces and files of the generated code (`lib/src/gen/comms.cpp`)

An element of the generator is given by its type and name and those of its parents up to the one directly in the schema.
-/
namespace Commsdsl.Gen
open Commsdsl

/-- `GenElem::GenType`, GenElem.h:27-40, below the schema. -/
inductive EType where
  | ns | message | iface | field | frame | layer
  deriving DecidableEq

/-- `genElemType()` and `genName()` of a `GenElem`. Helper of `elemClass`, comms.cpp:204-207. -/
structure GElem where
  ty : EType
  name : Str

/-- An element, its parent, ..., the element directly in the schema; `[]` is the schema. Helper of `scopeInternal`, comms.cpp:155-226. -/
abbrev Chain := List GElem

/-- `GenScopeSep`, comms.cpp:44 -/
def scopeSep : Str := "::".toList
/-- `GenPathSep`, comms.cpp:45 -/
def pathSep : Str := "/".toList

/-- `genClassName`, comms.cpp:292-300. `std::toupper` of the "C" locale. -/
def className : Str → Str
  | [] => []
  | c :: cs => c.toUpper :: cs

/-- `genAccessName`, comms.cpp:302-310. `std::tolower` of the "C" locale. -/
def accessName : Str → Str
  | [] => []
  | c :: cs => c.toLower :: cs

/-- The type of the first element, `none` for the schema. Helper of `scopeInternal`, comms.cpp:155-226. -/
def parentTy : Chain → Option EType
  | [] => none
  | e :: _ => some e.ty

/-- `genAddElemNamespaceScopeInternal`, comms.cpp:79-99, the names that it appends (with the separator after each). -/
def subNames (ty : EType) (parent : Option EType) : List Str :=
  (if ty = .field ∧ parent = some .ns then ["field".toList] else []) ++
  (if ty = .message then ["message".toList] else []) ++
  (if ty = .frame then ["frame".toList] else [])

/-- `genAddElemNamespaceScopeInternal`, comms.cpp:79-99 -/
def addSubNames (ty : EType) (parent : Option EType) (sep str : Str) : Str :=
  (subNames ty parent).foldl (fun s n => s ++ (n ++ sep)) str

/-- `if (!result.empty()) result.append(sep)`, comms.cpp:200-202 -/
def addSep (sep result : Str) : Str := if result.isEmpty then result else result ++ sep

/-- `genAddNamespaceScopeInernal`, comms.cpp:139-153 -/
def addNsScope (name sep str : Str) : Str := if name.isEmpty then str else addSep sep str ++ name

/-- `genAddFieldScopeSuffixInternal`, comms.cpp:101-126 -/
def fieldScopeSuffix (ty : EType) (isLeaf : Bool) : Str :=
  match ty with
  | .message => "Fields".toList
  | .iface => "Fields".toList
  | .layer => "Members".toList
  | .frame => "Layers".toList
  | .field => if isLeaf then [] else "Members".toList
  | .ns => []

/-- `genAddNonFieldElemScopeSuffixInternal`, comms.cpp:128-137 -/
def nonFieldScopeSuffix (ty leaf : EType) : Str := if ty = .frame ∧ leaf ≠ ty then "Layers".toList else []

/-- The class name, comms.cpp:204-207 -/
def elemClass (e : GElem) : Str :=
  if (className e.name).isEmpty ∧ e.ty = .iface then "Message".toList else className e.name

/-- The text without the element, comms.cpp:177-190 -/
def withoutElement (e : GElem) (parent : Option EType) (sep result : Str) : Str :=
  let s := addSubNames e.ty parent [] []
  if s.isEmpty then result else addSep sep result ++ s

/-- `genScopeForInternal`, comms.cpp:155-226. `leaf` is the type of the leaf, `isLeaf` tells whether the element is the leaf, `base` is the
    name of the main namespace or empty without it. -/
def scopeInternal (base sep : Str) (leaf : EType) : Bool → Bool → Chain → Str
  | _, _, [] => base
  | isLeaf, addElement, e :: up =>
    let result := scopeInternal base sep leaf false true up
    if !addElement then withoutElement e (parentTy up) sep result
    else if e.ty = .ns then addNsScope e.name sep result
    else
      addSubNames e.ty (parentTy up) sep (addSep sep result) ++ elemClass e ++
        (if leaf = .field ∧ sep = scopeSep then fieldScopeSuffix e.ty isLeaf else nonFieldScopeSuffix e.ty leaf)

/-- The type of the leaf of a call from outside. Helper of `scopeFor`, comms.cpp:337-344. -/
def leafTy : Chain → EType
  | [] => .ns
  | e :: _ => e.ty

/-- `genScopeFor`, comms.cpp:337-344 -/
def scopeFor (main : Str) (addMain addElement : Bool) (c : Chain) : Str :=
  scopeInternal (if addMain then main else []) scopeSep (leafTy c) true addElement c

/-- `genRelHeaderPathFor`, comms.cpp:479-482 -/
def relHeaderPath (main : Str) (c : Chain) : Str := scopeInternal main pathSep (leafTy c) true true c ++ ".h".toList

/-- `genCommonScopeForInternal`, comms.cpp:228-288, with `addElement`; for an element inside of another one also the parents get the suffix. -/
def commonInternal (base sep : Str) (leaf : EType) : Bool → Chain → Str
  | _, [] => base
  | isLeaf, e :: up =>
    let result := commonInternal base sep leaf false up
    if e.ty = .ns then addNsScope e.name sep result
    else
      addSubNames e.ty (parentTy up) sep (addSep sep result) ++ className e.name ++
        (if leaf = .field ∧ sep = scopeSep then fieldScopeSuffix e.ty isLeaf else []) ++ "Common".toList

/-- `genCommonScopeFor`, comms.cpp:346-354, with the main namespace and the element -/
def commonScopeFor (main : Str) (c : Chain) : Str := commonInternal main scopeSep (leafTy c) true c

/-- `genRelCommonHeaderPathFor`, comms.cpp:489-492 -/
def relCommonHeaderPath (main : Str) (c : Chain) : Str := commonInternal main pathSep (leafTy c) true c ++ ".h".toList

/-- `genScopeForElement`, comms.cpp:48-77, with the main namespace and the element -/
def scopeForElement (main name : Str) (subs : List Str) (sep : Str) : Str :=
  addSep sep (subs.foldl (fun s n => addSep sep s ++ n) main) ++ name

/-- `genRelHeaderForRoot`, comms.cpp:592-596 -/
def relHeaderRoot (main name : Str) : Str := scopeForElement main name [] pathSep ++ ".h".toList

/-- `genRelHeaderPathForField`, comms.cpp:494-501 -/
def relHeaderField (main name : Str) : Str := scopeForElement main name ["field".toList] pathSep ++ ".h".toList

/-- `genRelHeaderForNamespaceMember`, comms.cpp:540-548; also `genRelHeaderForMsgId`. `ns` is the name of the namespace, without its parents. -/
def relHeaderNsMember (main name ns : Str) : Str :=
  scopeForElement main name (if ns.isEmpty then [] else [ns]) pathSep ++ ".h".toList

/-- `genName()` of the namespace with this path. `genName`, GenNamespace.cpp:553-561. -/
def ownName (path : Proto.Path) : Str := path.getLast?.getD []

/-- Element of the schema given by its type, the path of its namespace and its name. The global namespace has an empty name. Helper of `inputFile`, CommsInputMessages.cpp:46-153. -/
def chainOf (ty : EType) (path : Proto.Path) (name : Str) : Chain :=
  { ty := ty, name := name } :: (if path.isEmpty then [{ ty := .ns, name := [] }] else (path.map fun n => { ty := .ns, name := n }).reverse)

/-! ## Namespaces -/

/-- `appendToResultFunc`, comms.cpp:750-754 -/
def openText (n : Str) : Str := "namespace ".toList ++ n ++ "\n{\n\n".toList
/-- `appendToResultFunc`, comms.cpp:811-815 -/
def closeText (n : Str) : Str := "} // namespace ".toList ++ n ++ "\n\n".toList

/-- The tests on the type of the element, comms.cpp:771-791 and 823-841 -/
def innerNames (ty : EType) (parent : Option EType) : List Str :=
  (if ty = .field ∧ parent = some .ns then ["field".toList] else []) ++
  (if ty = .message then ["message".toList] else []) ++
  (if ty = .frame then ["frame".toList] else []) ++
  (if ty = .layer then ["layer".toList] else [])

/-- The texts for a list of names, one after the other. Helper of `nsBegin`, comms.cpp:744-803. -/
def texts (f : Str → Str) (names : List Str) : Str := (names.map f).flatten

/-- `genNamespaceBeginFor`, comms.cpp:744-803. `top` is the top namespace, `main` the one of the schema. -/
def nsBegin (top main : Str) : Chain → Str
  | [] => (if top.isEmpty then [] else openText top) ++ openText main
  | e :: up =>
    let result := nsBegin top main up ++ texts openText (innerNames e.ty (parentTy up))
    if e.ty ≠ .ns then result
    else if e.name.isEmpty then result
    else result ++ openText e.name

/-- `genNamespaceEndFor`, comms.cpp:805-868. The element directly in the schema is a namespace; for any other the code would ask for the parent
    of the schema, which the model answers like for a namespace. -/
def nsEnd (top main : Str) : Chain → Str
  | [] => closeText main ++ (if top.isEmpty then [] else closeText top)
  | e :: up =>
    if e.ty ≠ .ns then texts closeText (innerNames e.ty (parentTy up)) ++ nsEnd top main up
    else (if e.name.isEmpty then [] else closeText e.name) ++ nsEnd top main up

/-! ## Include statements -/

/-- The loop, comms.cpp:878-894 -/
def includeText (i : Str) : Str :=
  match i with
  | [] => []
  | '#' :: _ => i
  | '<' :: _ => "#include ".toList ++ i
  | _ => "#include ".toList ++ ('"' :: i ++ ['"'])

/-- `genPrepareIncludeStatement`, comms.cpp:870-895: `std::sort`, `std::unique`, the loop. -/
def prepareIncludes (l : List Str) : List Str := (Msg.uniqueAdj (sortBy Msg.strLt l)).map includeText

/-! ## Integral types -/

/-- The C++ type: signed, bits. Helper of `cppIntType`, comms.cpp:897-943. -/
abbrev CppInt := Bool × Nat

/-- `TypeMap` and the offset by sign, comms.cpp:897-943 -/
def cppIntType (t : IntF.IntType) (len : Nat) : CppInt :=
  match t with
  | .int8 => (true, 8)
  | .uint8 => (false, 8)
  | .int16 => (true, 16)
  | .uint16 => (false, 16)
  | .int32 => (true, 32)
  | .uint32 => (false, 32)
  | .int64 => (true, 64)
  | .uint64 => (false, 64)
  | .intvar => (true, if len ≤ 2 then 16 else if len ≤ 4 then 32 else 64)
  | .uintvar => (false, if len ≤ 2 then 16 else if len ≤ 4 then 32 else 64)

end Commsdsl.Gen
