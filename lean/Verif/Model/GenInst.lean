import Verif.Model.GenScope
/-!
# How the C, SWIG and emscripten generators name the classes of the main one, with the options

`opts` is the name of the class with the options. `std::string::substr` is modelled by `List.drop`; it would throw for a position behind the end, but the
theorems show that what is dropped is the beginning of the text.
-/
namespace Commsdsl.Gen
open Commsdsl

/-- `"<" + protOptionsStr + ">"`, GenField.cpp:200, GenLayer.cpp:224, CField.cpp:365 -/
def optParams (opts : Str) : Str := '<' :: (opts ++ ['>'])

/-- `genIsGlobalField`, comms.cpp:986-995 -/
def isGlobalField : Chain → Bool
  | e :: up => e.ty == .field && parentTy up == some .ns
  | [] => false

/-- `formScopeFunc`, GenField.cpp:206-214 -/
def formScope (main opts commsScope : Str) (parent : Chain) (suffix : Str) : Str :=
  let optLevel := scopeFor main true true parent ++ suffix
  optLevel ++ optParams opts ++ commsScope.drop optLevel.length

/-- The loop over the parents, GenField.cpp:216-240 -/
def instLoop (main opts commsScope : Str) : Chain → Str
  | [] => commsScope
  | e :: up =>
    if e.ty = .iface then commsScope
    else if e.ty = .field ∧ isGlobalField (e :: up) = true then formScope main opts commsScope (e :: up) "Members".toList
    else if e.ty = .message then formScope main opts commsScope (e :: up) "Fields".toList
    else if e.ty = .frame then formScope main opts commsScope (e :: up) "Layers".toList
    else instLoop main opts commsScope up

/-- `GenField::genTemplateScopeOfComms`, GenField.cpp:197-241 -/
def fieldInst (main opts : Str) (c : Chain) : Str :=
  let commsScope := scopeFor main true true c
  if isGlobalField c then commsScope ++ optParams opts
  else instLoop main opts commsScope c.tail

/-- `GenLayer::genTemplateScopeOfComms`, GenLayer.cpp:221-287, without the parameters at the end (`scopeGivesParams`). -/
def layerInst (main opts : Str) (c : Chain) : Str :=
  let commsScope := scopeFor main true true c
  let optLevel := scopeFor main true true c.tail ++ "Layers".toList
  optLevel ++ optParams opts ++ commsScope.drop optLevel.length

/-- The loop in `cCommsType`, CField.cpp:319-357: the parent, `needOptions`, `memberSuffix`. (There is always a namespace.) -/
def cTypeLoop : Chain → Str → Chain × Bool × Str
  | [], suffix => ([], true, suffix)
  | e :: up, suffix =>
    match parentTy up with
    | none => (up, true, suffix)
    | some .ns => (e :: up, true, suffix)
    | some .field => cTypeLoop up "Members".toList
    | some .layer => cTypeLoop up "Members".toList
    | some .iface => (up, false, "Fields".toList)
    | some .message => (up, true, "Fields".toList)
    | some .frame => (up, true, "Layers".toList)

/-- `CField::cCommsType`, CField.cpp:314-374 -/
def cType (main opts : Str) (c : Chain) (forceOptional : Bool) : Str :=
  let (parent, needOptions, suffix) := cTypeLoop c []
  let optScope := scopeFor main true true parent ++ suffix
  optScope ++ (if needOptions then optParams opts else []) ++ (scopeFor main true true c).drop optScope.length ++
    (if forceOptional then "Field".toList else [])

/-- The base classes of the classes for SWIG (SwigField.cpp:476, 509-520) and emscripten (EmscriptenField.cpp:582, 620-638): inside of a version wrapper or not. -/
def baseInst (main opts : Str) (c : Chain) (inner : Bool) : Str := fieldInst main opts c ++ (if inner then "Field".toList else [])

end Commsdsl.Gen
