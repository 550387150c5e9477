import Verif.Model.GenScope
import Verif.Spec.Path
/-!
# Files and namespaces of generated code
-/
namespace Commsdsl.Spec
open Commsdsl Gen

/-- Texts with a separator between them. -/
def joinWith (sep : Str) : List Str → Str
  | [] => []
  | [a] => a
  | a :: b :: r => a ++ sep ++ joinWith sep (b :: r)

/-- The directory (and C++ namespace) inside of that of the namespace of the schema, where elements of a kind are generated. -/
def kindDir : EType → List Str
  | .message => ["message".toList]
  | .field => ["field".toList]
  | .frame => ["frame".toList]
  | _ => []

/-- The kinds of elements of a namespace that get files. -/
def HasFile (k : EType) : Prop := k = .message ∨ k = .field ∨ k = .frame ∨ k = .iface

/-- Two names that differ at most in the case of the first letter. -/
def SameClass (a b : Str) : Prop := ∃ x y t, a = x :: t ∧ b = y :: t ∧ x.toUpper = y.toUpper

/-- A kind, the namespace and the name of an element recorded in the schema. -/
inductive Declared (s : Proto.Schema) : EType → Proto.Path → Str → Prop where
  | field {q : Proto.Path} {f : Fld.Field} : (q, f) ∈ s.fields → Declared s .field q f.name
  | message {q : Proto.Path} {m : Msg.Message} : (q, m) ∈ s.messages → Declared s .message q m.name
  | iface {q : Proto.Path} {i : Msg.Interface} : (q, i) ∈ s.ifaces → Declared s .iface q i.name
  | frame {q : Proto.Path} {f : Frm.Frame} : (q, f) ∈ s.frames → Declared s .frame q f.name

/-- The code that opens a C++ namespace. -/
def openLine (n : Str) : Str := "namespace ".toList ++ n ++ "\n{\n\n".toList

/-- The code that closes a C++ namespace. -/
def closeLine (n : Str) : Str := "} // namespace ".toList ++ n ++ "\n\n".toList

/-- The code that opens C++ namespaces, the outermost first. -/
def opening (names : List Str) : Str := names.flatMap openLine

/-- The code that closes C++ namespaces, named in the order in which they are closed. -/
def closing (names : List Str) : Str := names.flatMap closeLine

/-- Values that a C++ integer type holds. -/
def CppHolds (t : CppInt) (v : Int) : Prop :=
  if t.1 then -(2 ^ (t.2 - 1)) ≤ v ∧ v ≤ 2 ^ (t.2 - 1) - 1 else 0 ≤ v ∧ v ≤ 2 ^ t.2 - 1

end Commsdsl.Spec
