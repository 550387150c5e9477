import Verif.Model.Protocol
import Verif.Spec.Text
/-!
# What references to values mean
-/
namespace Commsdsl.Spec
open Commsdsl Fld Proto

/-- Names of a reference. -/
def Words (p : List Str) : Prop := ∀ w ∈ p, w ≠ [] ∧ '.' ∉ w

/-- The names `p`, followed from the field `f`, lead to the field `g` with the names `q` left: a name leads to the member of that name, or into
    an `<optional>` whose field is defined inside; a `<ref>` stands for its target. -/
inductive LeadsTo : Field → List Str → Field → List Str → Prop where
  | here {f : Field} {q : List Str} : LeadsTo f q f q
  | member {f m g : Field} {p q : List Str} : m ∈ f.members → LeadsTo m p g q → LeadsTo f (m.name :: p) g q
  | inOptional {c : Common} {st : OptState} {k : Option CondM.Cond} {m g : Field} {p q : List Str} :
      LeadsTo m p g q → LeadsTo (.optional c st (.own m) k) (m.name :: p) g q
  | target {c : Common} {b : Nat} {t : Slot Field} {m g : Field} {p q : List Str} :
      m ∈ t.toList → LeadsTo m p g q → LeadsTo (.ref c b t) p g q

/-- The stored number of this type stands for a number of 2^63 or more. -/
def Large (t : Option IntF.IntType) (v : Int) : Prop := (t = some .uint64 ∨ t = some .uintvar) ∧ 2 ^ 63 ≤ v % 2 ^ 64

/-- A bit as a number. -/
def bitNumber (b : Bool) : Int := if b then 1 else 0

/-- The numbers an `<int>`, an `<enum>`, a `<set>` declares: the default value without a name, otherwise a special value, a value of the enum, the
    default value of a bit. The flag marks numbers of 2^63 or more. -/
def NumberOf : Field → List Str → Int → Bool → Prop
  | .int _ st, q, v, big => ((q = [] ∧ v = st.default) ∨ ∃ n i, q = [n] ∧ (n, i) ∈ st.specials ∧ v = i.value) ∧ (big = true ↔ Large st.type v)
  | .enum _ st, q, v, big =>
    ((q = [] ∧ v = st.num.default) ∨ ∃ n i, q = [n] ∧ (n, i) ∈ st.values ∧ v = i.value) ∧ (big = true ↔ Large st.num.type v)
  | .set _ st, q, v, big =>
    ((q = [] ∧ v = bitNumber st.defaultBit) ∨ ∃ n i, q = [n] ∧ (n, i) ∈ st.bits ∧ v = bitNumber i.default) ∧ big = false
  | _, _, _, _ => False

/-- The truth values a `<set>` declares. -/
def TruthOf : Field → List Str → Bool → Prop
  | .set _ st, q, v => (q = [] ∧ v = st.defaultBit) ∨ ∃ n i, q = [n] ∧ (n, i) ∈ st.bits ∧ v = i.default
  | _, _, _ => False

/-- The text a `<string>` declares. -/
def TextOf : Field → List Str → Str → Prop
  | .string _ st _, q, v => q = [] ∧ v = st.default
  | _, _, _ => False

/-- The bytes a `<data>` declares. -/
def BytesOf : Field → List Str → List Nat → Prop
  | .data _ st _, q, v => q = [] ∧ v = st.default
  | _, _, _ => False

/-- The floating point values: of a `<float>` its own, otherwise the nearest to the number. -/
def FpOf : Field → List Str → FloatF.Dbl → Prop
  | .float _ st, q, v => (q = [] ∧ v = st.default) ∨ ∃ n i, q = [n] ∧ (n, i) ∈ st.specials ∧ v = i.value
  | g, q, v => ∃ x big, NumberOf g q x big ∧ v = FloatF.ofNumeric (x, big)

/-- The names of a reference and what they say about a schema: namespaces, the name of a field there, and what is left for the field. A name
    that could be both a namespace and a field is a namespace, unless it is the last one. -/
def FieldAt (s : Schema) (words : List Str) (f : Field) (rest : List Str) : Prop :=
  ∃ ns : Path, words = ns ++ f.name :: rest ∧ (ns, f) ∈ s.fields ∧ (rest ≠ [] → ns ++ [f.name] ∉ s.nss)

/-- A reference, the schema it is about and its names: without a schema it is about the current one, otherwise it starts with `@` and the name of
    any schema. -/
def SchemaOf (p : Proto) (ref : Str) (s : Schema) (words : List Str) : Prop :=
  s ∈ p.schemas ∧ ((ref = joinDots words ∧ ∃ i, p.curr = some i ∧ p.schemas[i]? = some s) ∨ ref = '@' :: joinDots (s.name :: words))

end Commsdsl.Spec
