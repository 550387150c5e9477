import Verif.Model.FieldRef
import Verif.Spec.Text
/-!
# What a condition refers to (C70), what a detached prefix refers to (C66)
-/
namespace Commsdsl.Spec
open Commsdsl Text Fld

/-- `g` is `f` itself or, if `f` is a `<ref>`, the field that is finally referred to. -/
inductive Follows : Field → Field → Prop where
  | self {f : Field} : f.kind ≠ .ref → Follows f f
  | ref {c : Common} {b : Nat} {s : Slot Field} {t g : Field} : t ∈ s.toList → Follows t g → Follows (.ref c b s) g

/-- A path of names leads from a field to a field inside: into the members of a bitfield, bundle or variant, through references, into an
    `<optional>`. -/
inductive Inside : Field → List Str → Field → Prop where
  | self {f : Field} : Inside f [] f
  | member {f m g : Field} {n : Str} {p : List Str} : f.members.find? (fun x => x.name == n) = some m → Inside m p g → Inside f (n :: p) g
  | target {c : Common} {b : Nat} {s : Slot Field} {t g : Field} {p : List Str} :
      p ≠ [] → t ∈ s.toList → Inside t p g → Inside (.ref c b s) p g
  | optional {c : Common} {st : OptState} {m g : Field} {cd : Option CondM.Cond} {p : List Str} :
      Inside m p g → Inside (.optional c st (.own m) cd) (m.name :: p) g

/-- A path of names leads from a list of fields to a field inside; of several fields of the same name the first counts. -/
def Leads (fs : List Field) (p : List Str) (g : Field) : Prop :=
  ∃ n q m, p = n :: q ∧ fs.find? (fun x => x.name == n) = some m ∧ Inside m q g

/-- Names separated by dots, each possibly with marks (`#`, `?`) in front; `Dotted text marks names`. -/
inductive Dotted : Str → Str → List Str → Prop where
  | last {mk n : Str} : (∀ c ∈ mk, c = '#' ∨ c = '?') → '.' ∉ n → Dotted (mk ++ n) mk [n]
  | more {mk n t mk' : Str} {p : List Str} : (∀ c ∈ mk, c = '#' ∨ c = '?') → '.' ∉ n → Dotted t mk' p →
      Dotted (mk ++ n ++ '.' :: t) (mk ++ mk') (n :: p)

/-- A dot at the end does not matter. -/
def OptDot (s t : Str) : Prop := s = t ∨ s = t ++ ['.']

/-- The names of bits, enum values or special values. -/
def valueNames : Field → List Str
  | .int _ st => st.specials.map Prod.fst
  | .enum _ st => st.values.map Prod.fst
  | .set _ st => st.bits.map Prod.fst
  | .float _ st => st.specials.map Prod.fst
  | _ => []

/-- The field may be missing: it has been added or deprecated in some version, or it is optional, or refers to such a field. -/
inductive CanBeMissing : Field → Prop where
  | added {f : Field} : 0 < f.since → CanBeMissing f
  | deprecated {f : Field} : f.depr < Versions.notYet → CanBeMissing f
  | optional {c : Common} {st : OptState} {s : Slot Field} {cd : Option CondM.Cond} : CanBeMissing (.optional c st s cd)
  | ref {c : Common} {b : Nat} {s : Slot Field} {t : Field} : t ∈ s.toList → CanBeMissing t → CanBeMissing (.ref c b s)

/-- The text `s` (behind `$`) names, where `leads` tells which path leads to which field: a field, a bit or value of a field, the size of a
    field, or whether a field exists. -/
inductive Means (leads : List Str → Field → Prop) : Str → RefInfo → Prop where
  | field {s t : Str} {p : List Str} {f : Field} : Dotted t [] p → OptDot s t → leads p f → Means leads s ⟨f, .field, []⟩
  | value {t v : Str} {p : List Str} {f g : Field} : Dotted t [] p → leads p f → Follows f g → v ∈ valueNames g →
      Means leads (t ++ '.' :: v) ⟨g, .innerValue, v⟩
  | size {s t : Str} {p : List Str} {f g : Field} : Dotted t ['#'] p → OptDot s t → leads p f → Follows f g →
      (g.kind = .string ∨ g.kind = .data ∨ g.kind = .list) → Means leads s ⟨f, .size, []⟩
  | exists {s t : Str} {p : List Str} {f : Field} : Dotted t ['?'] p → OptDot s t → leads p f → CanBeMissing f →
      Means leads s ⟨f, .exists, []⟩

/-- The text is a value fields can be compared with: an integer for versions and lengths, a value or value name of the type for `<int>` and
    `<enum>`, a non-negative number for `<set>`, any text for `<string>` (`^name` must name a `<string>` field). -/
inductive ValueOf (env : FEnv) : Field → Str → Prop where
  | numeric {f : Field} {v : Str} {x : Int} : (f.sem = .version ∨ f.sem = .length) → strToIntMax v = some x → ValueOf env f v
  | int {c : Common} {st : IntF.State} {t : IntF.IntType} {v : Str} {x : Int} : st.type = some t →
      IntF.strToValue env.int t st.specials v = some x → ValueOf env (.int c st) v
  | enum {c : Common} {st : EnumF.State} {t : IntF.IntType} {v : Str} {x : Int} : st.num.type = some t →
      IntF.strToValue env.int t st.values v = some x → ValueOf env (.enum c st) v
  | set {c : Common} {st : SetF.State} {v : Str} {x : Int} : strToIntMax v = some x → 0 ≤ x → ValueOf env (.set c st) v
  | setRef {c : Common} {st : SetF.State} {v : Str} {x : Int} {big : Bool} : isValidRefName v = true → env.int.strToNumeric v = some (x, big) →
      (big = true ∨ 0 ≤ x) → ValueOf env (.set c st) v
  | float {c : Common} {st : FloatState} {v : Str} {x : FloatF.Dbl} : FloatF.strToValue env.fp st.specials v = some x → ValueOf env (.float c st) v
  | string {c : Common} {st : SeqState Char} {p : Slot Field} {v : Str} : v.head? ≠ some '^' → ValueOf env (.string c st p) v
  | stringRef {c : Common} {st : SeqState Char} {p : Slot Field} {r : Str} {g : Field} : env.findField r = some g → g.kind = .string →
      ValueOf env (.string c st p) ('^' :: r)
  | ref {c : Common} {b : Nat} {s : Slot Field} {t : Field} {v : Str} : t ∈ s.toList → ValueOf env t v → ValueOf env (.ref c b s) v

/-- Fields of the same kind can be compared, and `<int>` with `<enum>`; references count as what they refer to. -/
def Comparable (f g : Field) : Prop :=
  ∃ a b, Follows f a ∧ Follows g b ∧ (a.kind = b.kind ∨ (a.kind = .int ∧ b.kind = .enum) ∨ (a.kind = .enum ∧ b.kind = .int))

/-- The text begins with a decimal number (white space and a sign may come first). -/
def StartsWithNumber (s : Str) : Prop :=
  ∃ w sign d rest, s = w ++ sign ++ d :: rest ∧ (∀ c ∈ w, isSpace c = true) ∧ (sign = [] ∨ sign = ['-'] ∨ sign = ['+']) ∧ isDigit d = true

/-- One check or comparison makes sense among the fields `fs`. -/
inductive LeafOk (env : FEnv) (fs : List Field) : CondM.Expr → Prop where
  /-- a bit, value or existence of a sibling -/
  | check {op r : Str} {i : RefInfo} : Means (Leads fs) r i → (i.type = .innerValue ∨ i.type = .exists) → LeafOk env fs ⟨[], op, '$' :: r⟩
  /-- a bit of an interface field -/
  | ifaceCheck {op r : Str} {ch : Char} {is : List RefInfo} {i : RefInfo} : env.ifaceRefs r = .ok is → i ∈ is → i.type = .innerValue →
      i.field.kind = .set → ch ≠ '$' → LeafOk env fs ⟨[], op, ch :: r⟩
  /-- the size of a sibling with a number -/
  | size {op l r : Str} {i : RefInfo} : Means (Leads fs) l i → i.type = .size → StartsWithNumber r → LeafOk env fs ⟨'$' :: l, op, r⟩
  /-- a sibling with a value -/
  | value {op l r : Str} {i : RefInfo} : Means (Leads fs) l i → i.type = .field → r.head? ≠ some '$' → r.head? ≠ some '%' → ValueOf env i.field r →
      LeafOk env fs ⟨'$' :: l, op, r⟩
  /-- a sibling with a sibling -/
  | sibling {op l r : Str} {i j : RefInfo} : Means (Leads fs) l i → i.type = .field → Means (Leads fs) r j → j.type = .field → Comparable i.field j.field →
      LeafOk env fs ⟨'$' :: l, op, '$' :: r⟩
  /-- a sibling with an interface field -/
  | siblingIface {op l r : Str} {i j : RefInfo} {js : List RefInfo} : Means (Leads fs) l i → i.type = .field → env.ifaceRefs r = .ok js → j ∈ js →
      j.type = .field → Comparable i.field j.field → LeafOk env fs ⟨'$' :: l, op, '%' :: r⟩
  /-- the size of an interface field with a number -/
  | ifaceSize {op l r : Str} {ch : Char} {is : List RefInfo} {i : RefInfo} : ch ≠ '$' → env.ifaceRefs l = .ok is → i ∈ is → i.type = .size →
      StartsWithNumber r → LeafOk env fs ⟨ch :: l, op, r⟩
  /-- an interface field with a value -/
  | ifaceValue {op l r : Str} {ch : Char} {is : List RefInfo} {i : RefInfo} : ch ≠ '$' → env.ifaceRefs l = .ok is → i ∈ is → i.type = .field →
      r.head? ≠ some '$' → r.head? ≠ some '%' → ValueOf env i.field r → LeafOk env fs ⟨ch :: l, op, r⟩
  /-- an interface field with a sibling -/
  | ifaceSibling {op l r : Str} {ch : Char} {is : List RefInfo} {i j : RefInfo} : ch ≠ '$' → env.ifaceRefs l = .ok is → i ∈ is →
      i.type = .field → Means (Leads fs) r j → j.type = .field → Comparable i.field j.field → LeafOk env fs ⟨ch :: l, op, '$' :: r⟩
  /-- two interface fields -/
  | ifaces {op l r : Str} {ch : Char} {is js : List RefInfo} {i j : RefInfo} : ch ≠ '$' → env.ifaceRefs l = .ok is → i ∈ is →
      i.type = .field → env.ifaceRefs r = .ok js → j ∈ js → j.type = .field → Comparable i.field j.field →
      LeafOk env fs ⟨ch :: l, op, '%' :: r⟩

/-- The expression is a part of the condition. -/
inductive LeafOf : CondM.Cond → CondM.Expr → Prop where
  | here {e : CondM.Expr} : LeafOf (.expr e) e
  | inside {t : CondM.ListType} {cs : List CondM.Cond} {c : CondM.Cond} {e : CondM.Expr} : c ∈ cs → LeafOf c e → LeafOf (.list t cs) e

/-- Every part of the condition makes sense among the fields `fs`. -/
def CondOk (env : FEnv) (fs : List Field) (c : CondM.Cond) : Prop := ∀ e, LeafOf c e → LeafOk env fs e

/-- The paths of the detached length, count and element length prefixes of a field. -/
def detachedPaths : Field → List Str
  | .string _ st _ => [st.detached]
  | .data _ st _ => [st.detached]
  | .list _ st _ _ _ _ _ => [st.detachedCount, st.detachedLen, st.detachedElemLen]
  | _ => []

/-- The path names a number among the fields `fs`: an `<int>` field (perhaps by reference) or one with the meaning of a length. Here paths
    go through members of bitfields, bundles and variants only. -/
inductive NumberAt : List Field → List Str → Prop where
  | here {fs : List Field} {n : Str} {f g : Field} : fs.find? (fun x => x.name == n) = some f → Follows f g →
      (g.kind = .int ∨ f.sem = .length) → NumberAt fs [n]
  | down {fs : List Field} {n : Str} {f : Field} {p : List Str} : fs.find? (fun x => x.name == n) = some f → NumberAt f.members p →
      NumberAt fs (n :: p)

end Commsdsl.Spec
