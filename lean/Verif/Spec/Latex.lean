import Verif.Spec.GenText
/-!
# Independent specifications for the LaTeX documents
-/
namespace Commsdsl.Spec
open Commsdsl

/-- The characters LaTeX gives a meaning to in running text. -/
def texActive : Str := "\\{}#%$_&^~".toList

/-- LaTeX sets the source as the text: characters without a meaning stand for themselves, `\{` and the like for the character after the
    backslash, `\^{}` and `\~{}` for the accents on their own and `\textbackslash{}` for the backslash. (Other source, with a character that
    has a meaning or another command, is not a plain text.) -/
inductive TexText : Str → Str → Prop where
  | nil : TexText [] []
  | plain {c : Char} {t s : Str} : c ∉ texActive → TexText t s → TexText (c :: t) (c :: s)
  | escaped {c : Char} {t s : Str} : c ∈ "{}#%$_&".toList → TexText t s → TexText ('\\' :: c :: t) (c :: s)
  | accent {c : Char} {t s : Str} : c = '^' ∨ c = '~' → TexText t s → TexText ('\\' :: c :: '{' :: '}' :: t) (c :: s)
  | backslash {t s : Str} : TexText t s → TexText ("\\textbackslash{}".toList ++ t) ('\\' :: s)

/-- The text of a number: decimal, and hexadecimal in brackets unless it is negative. -/
inductive TexNumber : Str → Int → Prop where
  | both {d h : Str} {n : Nat} : DenotesU d n → (∀ c ∈ d, DecDigit c) → DenotesU ("0x".toList ++ h) n → TexNumber (d ++ " (0x".toList ++ h ++ ")".toList) n
  | negative {d : Str} {n : Nat} : DenotesU d n → (∀ c ∈ d, DecDigit c) → 0 < n → TexNumber ('-' :: d) (-(n : Int))

/-- The text of a range of numbers: a single one, or two in brackets. -/
inductive TexRange : Str → Int → Int → Prop where
  | one {d : Str} {n : Int} : TexNumber d n → TexRange d n n
  | both {d e : Str} {n m : Int} : TexNumber d n → TexNumber e m → TexRange ("[".toList ++ d ++ " - ".toList ++ e ++ "]".toList) n m

/-- The text of a length: one number, two numbers, or a number followed by a plus. It allows the lengths in the set. -/
inductive TexLength : Str → (Nat → Prop) → Prop where
  | fixed {d : Str} {n : Nat} : DenotesU d n → TexLength d (fun x => x = n)
  | range {d e : Str} {n m : Nat} : DenotesU d n → DenotesU e m → TexLength (d ++ (" - ".toList ++ e)) (fun x => n ≤ x ∧ x ≤ m)
  | atLeast {d : Str} {n : Nat} : DenotesU d n → TexLength (d ++ "+".toList) (fun x => n ≤ x)

end Commsdsl.Spec
