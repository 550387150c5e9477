import Verif.Spec.Text
/-!
# Comma separated lists
-/
namespace Commsdsl.Spec
open Commsdsl

/-- The text, cut at its commas, has the piece. -/
def Piece (text piece : Str) : Prop := ∃ pre post, text = pre ++ piece ++ post ∧ ',' ∉ piece ∧
  (pre = [] ∨ ∃ q, pre = q ++ [',']) ∧ (post = [] ∨ ∃ q, post = ',' :: q)

/-- The name stands in the comma separated list, with any white space around it. -/
def Listed (text name : Str) : Prop := ∃ a b, Piece text (a ++ name ++ b) ∧ (∀ c ∈ a, White c) ∧ (∀ c ∈ b, White c) ∧
  name ≠ [] ∧ (∀ c, name.head? = some c → ¬ White c) ∧ ∀ c, name.getLast? = some c → ¬ White c

end Commsdsl.Spec
