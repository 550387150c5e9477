import Verif.Model.Basic
/-!
# What a condition text says (C36)

A comparison is written `left OP right`. A backslash right before an operator escapes it. Where several operators could be read into a text the
order of `ops` decides, and then the leftmost place.
-/
namespace Commsdsl.Spec
open Commsdsl

/-- The comparison operators, in the order of precedence. -/
def condOps : List Str := ["!=".toList, ">=".toList, "<=".toList, "=".toList, ">".toList, "<".toList]

/-- `s` is `pre ++ op ++ post` and that occurrence of `op` is not escaped by a backslash. -/
def Unescaped (op s pre post : Str) : Prop := s = pre ++ op ++ post ∧ pre.getLast? ≠ some '\\'

/-- The occurrence of `op` at `pre`/`post` is the one that decides how `s` is read. -/
structure Decides (op s pre post : Str) : Prop where
  unescaped : Unescaped op s pre post
  leftmost : ∀ pre' post', Unescaped op s pre' post' → pre.length ≤ pre'.length
  precedence : ∀ higher, higher <+: condOps → op ∉ higher → ∀ op' ∈ higher, ∀ pre' post', ¬ Unescaped op' s pre' post'

/-- `n` blanks -/
def blanks (n : Nat) : Str := List.replicate n ' '

/-- `s` reads as the comparison `l op r`. -/
structure Comparison (s l op r : Str) : Prop where
  isOp : op ∈ condOps
  split : ∃ a b, Decides op s (l ++ blanks a) (blanks b ++ r)
  leftNonempty : l ≠ []
  leftTrimmed : l.getLast? ≠ some ' '
  rightNonempty : r ≠ []
  rightTrimmed : r.head? ≠ some ' '

/-- A reference to a sibling field (`$…`), or, where allowed, to an interface field (`%…`). -/
def Dereference (ifaceAllowed : Bool) (s : Str) : Prop :=
  s.head? = some '$' ∨ (s.head? = some '%' ∧ ifaceAllowed = true)

end Commsdsl.Spec
