import Verif.Model.Basic
/-!
# Independent specifications for text properties
-/
namespace Commsdsl.Spec
open Commsdsl

/-- Decimal digits. -/
def DecDigit (c : Char) : Prop := c ∈ "0123456789".toList
/-- Octal digits. -/
def OctDigit (c : Char) : Prop := c ∈ "01234567".toList
/-- Hexadecimal digits. -/
def HexDigit (c : Char) : Prop := c ∈ "0123456789abcdefABCDEF".toList

instance : DecidablePred DecDigit := fun c => inferInstanceAs (Decidable (c ∈ _))
instance : DecidablePred OctDigit := fun c => inferInstanceAs (Decidable (c ∈ _))
instance : DecidablePred HexDigit := fun c => inferInstanceAs (Decidable (c ∈ _))

/-- Value of one digit. -/
def dig (c : Char) : Nat :=
  if c ∈ "0123456789".toList then c.toNat - '0'.toNat
  else if c ∈ "abcdef".toList then c.toNat - 'a'.toNat + 10
  else c.toNat - 'A'.toNat + 10

/-- Positional value of a digit string, most significant digit first. -/
def posVal (base : Nat) : Str → Nat
  | [] => 0
  | c :: cs => dig c * base ^ cs.length + posVal base cs

/-- `s` is an unsigned number as a C programmer writes it, and it denotes `n`. -/
inductive DenotesU : Str → Nat → Prop where
  | dec (c : Char) (cs : Str) : c ≠ '0' → (∀ d ∈ c :: cs, DecDigit d) → DenotesU (c :: cs) (posVal 10 (c :: cs))
  | oct (cs : Str) : (∀ d ∈ cs, OctDigit d) → DenotesU ('0' :: cs) (posVal 8 cs)
  | hex (x : Char) (cs : Str) : x = 'x' ∨ x = 'X' → cs ≠ [] → (∀ d ∈ cs, HexDigit d) →
      DenotesU ('0' :: x :: cs) (posVal 16 cs)

/-- `s` is an optionally signed number denoting `n`. -/
inductive Denotes : Str → Int → Prop where
  | plain {s n} : DenotesU s n → Denotes s n
  | plus {s n} : DenotesU s n → Denotes ('+' :: s) n
  | minus {s n} : DenotesU s n → Denotes ('-' :: s) (-(n : Int))

/-- ASCII letters and underscore. -/
def NameStart (c : Char) : Prop := c ∈ "abcdefghijklmnopqrstuvwxyzABCDEFGHIJKLMNOPQRSTUVWXYZ_".toList
/-- ASCII letters, digits and underscore. -/
def NameRest (c : Char) : Prop := c ∈ "abcdefghijklmnopqrstuvwxyzABCDEFGHIJKLMNOPQRSTUVWXYZ_0123456789".toList

/-- A C identifier. -/
def Identifier (s : Str) : Prop := ∃ c cs, s = c :: cs ∧ NameStart c ∧ ∀ d ∈ cs, NameRest d

/-- Concatenation of path components with dots in between. -/
def joinDots : List Str → Str
  | [] => []
  | [a] => a
  | a :: b :: rest => a ++ '.' :: joinDots (b :: rest)

/-- White space as trimmed by the parser. -/
def White (c : Char) : Prop := c = ' ' ∨ c = '\t' ∨ c = '\r' ∨ c = '\n'

instance : DecidablePred White := fun _ => inferInstanceAs (Decidable (_ ∨ _ ∨ _ ∨ _))

end Commsdsl.Spec
