import Verif.Spec.Text
/-!
# Independent specifications for the text utilities of the generators
-/
namespace Commsdsl.Spec
open Commsdsl

/-- `s` is `a`, then an occurrence of `w`, then `b`, and there is no earlier occurrence of `w` in `s`. -/
def FirstAt (w s a b : Str) : Prop := s = a ++ (w ++ b) ∧ ∀ a' b', s = a' ++ (w ++ b') → a.length ≤ a'.length

/-- `r` is `s` with every non-overlapping occurrence of `w`, from left to right, replaced by `n`. -/
inductive Replaced (w n : Str) : Str → Str → Prop where
  | none {s : Str} : (∀ a b, s ≠ a ++ (w ++ b)) → Replaced w n s s
  | step {s a b r : Str} : FirstAt w s a b → Replaced w n b r → Replaced w n s (a ++ (n ++ r))

/-- The pieces of a text between separators (single characters of a set). -/
inductive PiecesAny (sep : Char → Prop) : Str → List Str → Prop where
  | last {p : Str} : (∀ c ∈ p, ¬ sep c) → PiecesAny sep p [p]
  | cons {p s : Str} {c : Char} {ps : List Str} : (∀ c ∈ p, ¬ sep c) → sep c → PiecesAny sep s ps → PiecesAny sep (p ++ c :: s) (p :: ps)

/-- The pieces of a text between occurrences of a separator string, found from left to right. -/
inductive PiecesStr (w : Str) : Str → List Str → Prop where
  | last {p : Str} : (∀ a b, p ≠ a ++ (w ++ b)) → PiecesStr w p [p]
  | cons {s p b : Str} {ps : List Str} : FirstAt w s p b → PiecesStr w b ps → PiecesStr w s (p :: ps)

/-- Without the last piece, if it is empty. -/
def dropEmptyLast (ps : List Str) : List Str := if ps.getLast? = some [] then ps.dropLast else ps

/-- Blank, tabulator or newline. -/
def Blank3 (c : Char) : Prop := c = ' ' ∨ c = '\t' ∨ c = '\n'

/-- Texts with separators in between (one less than texts). -/
def interleave : List Str → List Str → Str
  | [], _ => []
  | [t], _ => t
  | t :: ts, [] => t ++ interleave ts []
  | t :: ts, s :: ss => t ++ (s ++ interleave ts ss)

end Commsdsl.Spec

namespace Commsdsl.Spec
open Commsdsl

/-- The types a C++ integer literal may have, in order: signed or not, largest value (LP64, `long long` has 64 bits). -/
def litTypes (decimal : Bool) (suffix : Str) : List (Bool × Nat) :=
  if suffix = [] then
    if decimal then [(true, 2 ^ 31 - 1), (true, 2 ^ 63 - 1)]
    else [(true, 2 ^ 31 - 1), (false, 2 ^ 32 - 1), (true, 2 ^ 63 - 1), (false, 2 ^ 64 - 1)]
  else if suffix = "U".toList then [(false, 2 ^ 32 - 1), (false, 2 ^ 64 - 1)]
  else if suffix = "LL".toList then if decimal then [(true, 2 ^ 63 - 1)] else [(true, 2 ^ 63 - 1), (false, 2 ^ 64 - 1)]
  else if suffix = "ULL".toList then [(false, 2 ^ 64 - 1)]
  else []

/-- The text is a C++ integer literal of value `n`; its type, the first one in which the value fits, is signed or not. -/
def CppLit (s : Str) (n : Nat) (signed : Bool) : Prop :=
  ∃ digits suffix max, s = digits ++ suffix ∧ DenotesU digits n ∧
    (litTypes (digits.head? != some '0') suffix).find? (fun t => decide (n ≤ t.2)) = some (signed, max)

/-- The text is a C++ literal, or a negated literal of a signed type, with the value `v`. (Negating an unsigned one gives a huge positive number.) -/
def CppExpr (s : Str) (v : Int) : Prop :=
  (∃ n signed, CppLit s n signed ∧ v = n) ∨ ∃ t n, s = '-' :: t ∧ CppLit t n true ∧ v = -n

end Commsdsl.Spec

namespace Commsdsl.Spec
open Commsdsl

/-- The lines of a text. -/
def linesOf : Str → List Str
  | [] => [[]]
  | c :: cs => if c = '\n' then [] :: linesOf cs else
    match linesOf cs with
    | [] => [[c]]
    | l :: ls => (c :: l) :: ls

/-- Without the blanks and tabulators at its end. -/
def rstrip (l : Str) : Str := (l.reverse.dropWhile fun c => c == ' ' || c == '\t').reverse

/-- The lines that are not empty, without the blanks at their ends. -/
def codeLines (s : Str) : List Str := ((linesOf s).map rstrip).filter fun l => l ≠ []

end Commsdsl.Spec

namespace Commsdsl.Spec
open Commsdsl

/-- `l` is the part of `s` behind the last newline. -/
def LastLine (s l : Str) : Prop := ∃ d, s = d ++ l ∧ '\n' ∉ l ∧ (d = [] ∨ ∃ d', d = d' ++ ['\n'])

/-- Blanks, tabulators and carriage returns only. -/
def AllBlank (s : Str) : Prop := ∀ c ∈ s, c = ' ' ∨ c = '\t' ∨ c = '\r'

/-- A placeholder without value stands alone in its row: `l` is the row up to it, `b` the text behind it. -/
def AloneInRow (value l b : Str) : Prop := value = [] ∧ AllBlank l ∧ ∃ w b', b = w ++ '\n' :: b' ∧ AllBlank w

/-- The expansion of the text `rest` of a template, of which the text `done` came before. A placeholder is a key between `#^#` and `#$#`. -/
inductive Expanded (value : Str → Str) : Str → Str → Str → Prop where
  /-- No more placeholders: the text is copied. -/
  | text {done rest : Str} : (∀ a b, rest ≠ a ++ ("#^#".toList ++ b)) → Expanded value done rest rest
  /-- A placeholder that does not end: everything from the last one on is lost. -/
  | broken {done rest a r : Str} : FirstAt "#^#".toList rest a r → (∀ x y, r ≠ x ++ ("#$#".toList ++ y)) → Expanded value done rest []
  /-- A placeholder without value, alone in its row: the row is removed. -/
  | row {done rest a w r key w' b out : Str} : FirstAt "#^#".toList rest (a ++ w) r → FirstAt "#$#".toList r key (w' ++ '\n' :: b) →
      value key = [] → LastLine (done ++ a) [] → AllBlank w → AllBlank w' →
      Expanded value (done ++ (a ++ w) ++ ("#^#".toList ++ (key ++ "#$#".toList)) ++ (w' ++ ['\n'])) b out → Expanded value done rest (a ++ out)
  /-- Any other placeholder: replaced by its value, of which all lines but the first are indented by its column in the template. -/
  | value {done rest a r key b l v out : Str} : FirstAt "#^#".toList rest a r → FirstAt "#$#".toList r key b → LastLine (done ++ a) l →
      ¬ AloneInRow (value key) l b → Replaced ['\n'] ('\n' :: List.replicate l.length ' ') (value key) v →
      Expanded value (done ++ a ++ ("#^#".toList ++ (key ++ "#$#".toList))) b out → Expanded value done rest (a ++ (v ++ out))

end Commsdsl.Spec
