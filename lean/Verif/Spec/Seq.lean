import Verif.Spec.Field
/-!
# Strings, data and lists: hexadecimal text, the ways to tell the length
-/
namespace Commsdsl.Spec
open Commsdsl Fld

/-- A hexadecimal digit and its value. -/
def HexDig (c : Char) (v : Nat) : Prop := "0123456789abcdef".toList[v]? = some c ∨ "0123456789ABCDEF".toList[v]? = some c

/-- Bytes written as pairs of hexadecimal digits, most significant first. -/
inductive HexText : List Nat → Str → Prop where
  | nil : HexText [] []
  | cons {a b : Char} {x y : Nat} {bs : List Nat} {r : Str} : HexDig a x → HexDig b y → HexText bs r → HexText ((16 * x + y) :: bs) (a :: b :: r)

/-- At most one of the statements holds. -/
def AtMostOne (l : List Prop) : Prop := l.Pairwise fun a b => ¬ (a ∧ b)

/-- How the end of a string or of data is found: fixed length, a prefix, a zero. -/
def seqEnds {α : Type} (st : SeqState α) (p : Slot Field) : List Prop := [st.length ≠ 0, p.has = true, st.zeroSuffix = true]

/-- How the end of a list is found: a fixed count, a count prefix, a length prefix, a termination suffix; the latter three as a field or
    detached. -/
def listEnds (st : ListState) (cnt len term : Slot Field) : List Prop := [
  st.count ≠ 0, cnt.has = true ∨ st.detachedCount ≠ [], len.has = true ∨ st.detachedLen ≠ [], term.has = true ∨ st.detachedTerm ≠ []]

/-- A valid value is declared by an element: by `defaultValidValue` or the attribute `validValue` (with the versions of the field), or by a child
    `<validValue>` (with its own versions). -/
def DeclaredValid {α : Type} (env : FEnv) (val : Str → Option (List α)) (node : Xml) (props : Props) (since depr : Nat) (v : List α × Nat × Nat) : Prop :=
  Dsl.isSupported env.dsl .validValueInStringAndData = true ∧ (
  (∃ t, (props.find "defaultValidValue".toList = some t ∨ (nodeProps node).find "validValue".toList = some t) ∧ val t = some v.1 ∧
    v.2 = (since, depr)) ∨
  ∃ ch t, ch ∈ getChildren node ["validValue".toList] ∧ nodeValue ch = some t ∧ val t = some v.1 ∧
    Versions.getAndCheckNode env.int.schemaVersion ch since depr = some v.2)

end Commsdsl.Spec
