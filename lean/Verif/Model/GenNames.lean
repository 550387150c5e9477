import Verif.Model.GenText
import Verif.Model.GenScope
/-!
# Names of namespaces, macros, and the flat names of the C, SWIG and Emscripten generators
-/
namespace Commsdsl.Gen
open Commsdsl Text

/-! ## Namespace of a schema -/

/-- One item of the option with the namespaces, GenGenerator.cpp:224-235: `find_first_of(":")`, taken into account unless it is the last character. -/
def overrideItem (e : Str) : Str × Str :=
  match findAny [':'] e with
  | none => ([], e)
  | some (a, b) => if e.length - 1 ≤ a.length then ([], e) else (a, b.drop 1)

/-- `m_namespaceOverrides[first] = second`. Helper of `namespaceOverrides`, GenGenerator.cpp:211-238. -/
def overrideSet (m : List (Str × Str)) (kv : Str × Str) : List (Str × Str) := m.filter (fun e => e.1 != kv.1) ++ [kv]

/-- `genSetNamespaceOverride`, GenGenerator.cpp:211-238 -/
def namespaceOverrides (value : Str) : List (Str × Str) :=
  ((((splitByAnyChar value [','] true).getD []).filter fun e => !e.isEmpty).map overrideItem).foldl overrideSet []

/-- `m_namespaceOverrides.find(name)`. Helper of `mainNamespace`, GenGenerator.cpp:410-432. -/
def overrideFind (m : List (Str × Str)) (name : Str) : Option Str := (m.find? fun e => e.1 == name).map Prod.snd

/-- `m_mainNamespace` of a schema after `genPrepare`: GenGenerator.cpp:410-432, GenSchema.cpp:302-306, 419-422. `last`: it is the schema of the protocol. -/
def mainNamespace (m : List (Str × Str)) (name : Str) (last : Bool) : Str :=
  let o := (overrideFind m (strToName name)).getD []
  let o := if last then (overrideFind m []).getD o else o
  if o.isEmpty then strToName name else o

/-- The namespaces of all schemas, the one of the protocol is the last: GenGenerator.cpp:410-432 -/
def mainNamespaces (value : Str) (names : List Str) : List Str :=
  names.mapIdx fun i n => mainNamespace (namespaceOverrides value) n (i + 1 == names.length)

/-! ## Copied source files -/

/-- Where a file of the directory with the user's code is copied to, GenGenerator.cpp:1655-1672; `rel` is the path relative to that directory, `schema` the name of the
    schema, `main` the namespace. -/
def copiedPath (schema main rel : Str) : Str :=
  let ns := strToName schema
  if main = ns then rel
  else
    let src := "include/".toList ++ ns
    if src.isPrefixOf rel then "include/".toList ++ main ++ rel.drop src.length else rel

/-- What is written, GenGenerator.cpp:1686-1706 -/
def copiedContent (schema main content : Str) : Str :=
  let ns := strToName schema
  if main = ns then content else strReplace content ("namespace ".toList ++ ns) ("namespace ".toList ++ main)

/-! ## Flat names -/

/-- `CGenerator::cScopeToName`, CGenerator.cpp:290-293; `SwigGenerator::swigScopeToName`, SwigGenerator.cpp:154-157; `EmscriptenGenerator::emscriptenScopeToName`,
    EmscriptenGenerator.cpp:227-230 -/
def scopeToName (scope : Str) : Str := strReplace scope "::".toList ['_']

/-- `CGenerator::cNameFor`, CGenerator.cpp:275-283. `own`: the element is in the schema of the protocol; `main`: the namespace of its schema; `namesPrefix`: the option. -/
def cNameFor (namesPrefix main : Str) (own : Bool) (chain : Chain) : Str :=
  if own then scopeToName (strToName namesPrefix ++ "::".toList ++ scopeFor main false true chain)
  else scopeToName (scopeFor main true true chain)

/-- `swigClassName`, SwigGenerator.cpp:96-101, `emscriptenClassName`, EmscriptenGenerator.cpp:80-85. `addMain`: `m_mainNamespaceInNamesForced || (genSchemas().size() > 1U)` -/
def flatClassName (main : Str) (addMain : Bool) (chain : Chain) : Str := scopeToName (scopeFor main addMain true chain)

end Commsdsl.Gen
