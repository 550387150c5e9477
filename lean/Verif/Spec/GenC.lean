import Verif.Model.GenC
/-!
# What is said about the functions of the C interface for fields
-/
namespace Commsdsl.Spec
open Commsdsl Gen

/-- The functions a header declares, in order. -/
def declared : List CDecl → List CFunc
  | [] => []
  | .func f :: l => f :: declared l
  | .type _ :: l => declared l

mutual
/-- A field and all fields inside it. -/
def within : CFld → List CFld
  | .listOwn h el => .listOwn h el :: within el
  | .optionalOwn h f => .optionalOwn h f :: within f
  | .bundle h ms => .bundle h ms :: withinAll ms
  | .variant h ms => .variant h ms :: withinAll ms
  | f => [f]
/-- All fields of a list and inside them. -/
def withinAll : List CFld → List CFld
  | [] => []
  | f :: fs => within f ++ withinAll fs
end

/-- An `<optional>` field. -/
def isOptional : CFld → Prop
  | .optional .. | .optionalOwn .. => True
  | _ => False

/-- The names of types that C or the headers of its library have. -/
def builtin : List Str := ["void", "bool", "char", "size_t", "uint8_t"].map String.toList

/-- Fields elsewhere that a field uses: their headers are included. -/
def usesField : CFld → Str → Prop
  | .leaf _ (.ref t), s => s = t
  | .list _ e, s => s = e
  | .optional _ e, s => s = e
  | _, _ => False

/-- A number with special values that may be missing because of its versions. -/
def optionalSpecials : CFld → Prop
  | .leaf h (.num _ sp) => h.verOpt = true ∧ sp ≠ []
  | _ => False

/-- In the header every type is known where a function uses it. -/
def TypesKnown (known : Str → Prop) (l : List CDecl) : Prop :=
  ∀ pre fn post, l = pre ++ .func fn :: post → ∀ t ∈ fn.ret :: fn.params, known t.base ∨ .type t.base ∈ pre

/-- The functions of the header that have no definition of their own in the source: the two about a tentative field, of an `<optional>` field and of a field that
    may be missing because of its versions, and the one for the name of the field inside of the latter. -/
def misspelt (g : CFld) (name : Str) : Prop :=
  (g.head.verOpt = true ∧
    (name = g.head.name ++ "_isTentative".toList ∨ name = g.head.name ++ "_setTentative".toList ∨ name = g.head.name ++ "Field_name".toList)) ∨
  (isOptional g ∧ ∃ suffix, suffix = (if g.head.verOpt then "Field".toList else []) ∧
    (name = g.head.name ++ suffix ++ "_isTentative".toList ∨ name = g.head.name ++ suffix ++ "_setTentative".toList))

/-- The elements of a list after a new one is put in front of the element with index `i`. -/
def placed {α : Type} (l : List α) (i : Nat) (x : α) : List α := l.take i ++ x :: l.drop i

end Commsdsl.Spec
