import Verif.Model.GenSeq
import Verif.Spec.GenCond
/-!
# What the literals of strings and data stand for
-/
namespace Commsdsl.Spec
open Commsdsl Gen

/-- The simple escape sequences of C++. -/
def simpleEscape : Char → Option Char
  | 'n' => some '\n'
  | 't' => some '\t'
  | 'r' => some '\r'
  | 'a' => some '\x07'
  | 'b' => some '\x08'
  | 'f' => some '\x0c'
  | 'v' => some '\x0b'
  | '\\' => some '\\'
  | '"' => some '"'
  | '\'' => some '\''
  | '?' => some '?'
  | _ => none

/-- The characters between the quotes of a C++ string literal, and what they stand for. (Numeric escape sequences are left out. They are longer than what they
    stand for, too.) -/
inductive CppChars : Str → Str → Prop where
  | nil : CppChars [] []
  | plain {c : Char} {s v : Str} : c ≠ '"' → c ≠ '\\' → c ≠ '\n' → CppChars s v → CppChars (c :: s) (c :: v)
  | escape {e c : Char} {s v : Str} : simpleEscape e = some c → CppChars s v → CppChars ('\\' :: e :: s) (c :: v)

/-- The source text is one C++ string literal, and this is the string. -/
def CppString (src v : Str) : Prop := ∃ body, src = '"' :: (body ++ ['"']) ∧ CppChars body v

/-- The values listed in the braces of an array of bytes: literals between commas and white space. An array without elements is not C++. -/
inductive CppBytes : Str → List Nat → Prop where
  | last {s : Str} {b : Nat} {sg : Bool} : CppLit s b sg → b < 256 → CppBytes s [b]
  | cons {s w r : Str} {b : Nat} {sg : Bool} {bs : List Nat} : CppLit s b sg → b < 256 → (∀ c ∈ w, Blank3 c) → CppBytes r bs →
      CppBytes (s ++ ',' :: (w ++ r)) (b :: bs)

/-- The value of a newly constructed string field. Without code it is empty. -/
def NewString (code : Option Str) (v : Str) : Prop :=
  match code with
  | none => v = []
  | some src => CppString src v

/-- The value of a newly constructed data field. -/
def NewData (code : Option Str) (v : List Nat) : Prop :=
  match code with
  | none => v = []
  | some src => CppBytes src v

/-- The generated `valid()` of a string field compiles and returns `r` for the value; `base` is what `Base::valid()` returns, `code` the elements of `Map`. -/
def StringValid (code : Option (List Str)) (base : Bool) (v : Str) (r : Bool) : Prop :=
  match code with
  | none => r = base
  | some srcs => srcs ≠ [] ∧ ∃ m : List (Str × Str), m.map (·.1) = srcs ∧ (∀ p ∈ m, CppString p.1 p.2) ∧
      (r = true ↔ base = true ∧
        (m.map (·.2))[lowerBound (fun x => decide (x < v)) (m.map (·.2)) m.length 0 m.length]? = some v)

/-- The generated `valid()` of a data field compiles and returns `r` for the value: the arrays have different names and some elements, and so does `Map`. The
    search is the same; the element found must have the size and the bytes of the value. -/
def DataValid (code : Option (List (Nat × Str))) (base : Bool) (v : List Nat) (r : Bool) : Prop :=
  match code with
  | none => r = base
  | some srcs => srcs ≠ [] ∧ (srcs.map (·.1)).Nodup ∧ ∃ m : List (Str × List Nat), m.map (·.1) = srcs.map (·.2) ∧ (∀ p ∈ m, CppBytes p.1 p.2) ∧
      (r = true ↔ base = true ∧
        (m.map (·.2))[lowerBound (fun x => decide (x < v)) (m.map (·.2)) m.length 0 m.length]? = some v)

/-- Some version that the generated code supports has the value. -/
def SomeVersion {α : Type} (g : GVer) (x : List α × Nat × Nat) : Prop := x.2.1 ≤ g.version ∧ g.minRemote < x.2.2

end Commsdsl.Spec
