import Verif.Model.GenCustom
import Verif.Spec.GenScope
/-!
# What the structs with options declare
-/
namespace Commsdsl.Spec
open Commsdsl Gen Fld

/-- The name of a declaration. -/
def declName : Decl → Str
  | .struct n _ _ => n
  | .alias n _ _ => n

/-- What it extends. -/
def declBase : Decl → Option Str
  | .struct _ b _ => b
  | .alias _ _ b => b

/-- Both are structs or both are types. -/
def SameDecl : Decl → Decl → Prop
  | .struct .., .struct .. => True
  | .alias .., .alias .. => True
  | _, _ => False

/-- The declaration `d` is found by the names, the outermost first. -/
inductive FoundAt : List Decl → List Str → Decl → Prop where
  | here {ds : List Decl} {d : Decl} : d ∈ ds → FoundAt ds [declName d] d
  | inside {ds : List Decl} {n : Str} {b : Option Str} {body : List Decl} {p : List Str} {d : Decl} :
      Decl.struct n b body ∈ ds → FoundAt body p d → FoundAt ds (n :: p) d

/-- A type is declared there. -/
def HasType (ds : List Decl) (p : List Str) : Prop := ∃ n o b, FoundAt ds p (.alias n o b)

/-- The struct `DefaultOptions` declares a type for each of the texts used behind `TOpt::`. -/
def AllDeclared (refs : List Str) (ds : List Decl) : Prop := ∀ t ∈ refs, ∃ p, t = joinWith "::".toList p ∧ HasType ds p

/-- The struct extends another one: whatever it declares is declared there by the same names, as a struct or a type as well, and names that declaration as its base. -/
def ExtendsAll (ds ds0 : List Decl) : Prop :=
  ∀ p d, FoundAt ds p d → ∃ d0, FoundAt ds0 p d0 ∧ SameDecl d d0 ∧ declBase d = some (joinWith "::".toList p)

/-- The field is defined directly inside another one. -/
inductive DefinedIn : Field → Field → Prop where
  | member {f g : Field} : g ∈ f.members → DefinedIn f g
  | element {c : Common} {st : ListState} {e n l el t : Slot Field} {g : Field} : .own g ∈ [e, n, l, el, t] → DefinedIn (.list c st e n l el t) g
  | optional {c : Common} {st : OptState} {cd : Option CondM.Cond} {g : Field} : DefinedIn (.optional c st (.own g) cd) g
  | ofString {c : Common} {st : SeqState Char} {g : Field} : DefinedIn (.string c st (.own g)) g
  | ofData {c : Common} {st : SeqState Nat} {g : Field} : DefinedIn (.data c st (.own g)) g

/-- The names of the fields from `f` down to the field `g`, without `g`. -/
inductive FieldWay : Field → List Str → Field → Prop where
  | self {f : Field} : FieldWay f [] f
  | inner {f g h : Field} {o : List Str} : DefinedIn f g → FieldWay g o h → FieldWay f (f.name :: o) h

end Commsdsl.Spec
