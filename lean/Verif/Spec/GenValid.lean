import Verif.Model.GenValid
import Verif.Spec.IntField
/-!
# What the generated validity checks do

The COMMS library itself is not part of the repository. Its options are taken by their documented meaning: without options about valid values every value is
valid (unless `InvalidByDefault` is given), with some of them exactly the values within one of the ranges are; `getVersion()` needs `VersionStorage`; the
lower bound of a range must not exceed the upper one (it does not compile otherwise).
-/
namespace Commsdsl.Spec
open Commsdsl IntF Gen

/-- The values an option declares valid. -/
def boundsOf : VOpt → Option (Int × Int)
  | .num x => some (x, x)
  | .range a b => some (a, b)
  | .bigNum n => some (n, n)
  | .bigRange a b => some (a, b)
  | .versionStorage => none
  | .invalidByDefault => none

/-- `Base::valid()` of a field class with the options, for the value. -/
def BaseValid (opts : List VOpt) (v : Int) : Prop :=
  (∃ o ∈ opts, ∃ a b, boundsOf o = some (a, b) ∧ a ≤ v ∧ v ≤ b) ∨ ((∀ o ∈ opts, boundsOf o = none) ∧ VOpt.invalidByDefault ∉ opts)

/-- The condition of a generated `if` is true for the version and the value. -/
def Holds (c : Check) (ver : Nat) (v : Int) : Prop :=
  (∀ n, c.frm = some n → n ≤ ver) ∧ (∀ n, c.upto = some n → ver < n) ∧ c.min ≤ v ∧ v ≤ c.max

/-- `valid()` of the generated class, for the remote version and the value; `enumerator` gives the numbers behind the names of enumerators. -/
def Valid (enumerator : Str → Option Int) (opts : List VOpt) (body : Body) (ver : Nat) (v : Int) : Prop :=
  match body with
  | .none => BaseValid opts v
  | .anyOf cs => BaseValid opts v ∨ ∃ c ∈ cs, Holds c ver v
  | .listed names => BaseValid opts v ∧
      (names.map enumerator)[lowerBound (fun x => decide (x.getD 0 < v)) (names.map enumerator) names.length 0 names.length]? = some (some v)

/-- The options and the function fit together: bounds are in order, and the version is asked for only if there is one. -/
def Fits (opts : List VOpt) (body : Body) : Prop :=
  (∀ o ∈ opts, ∀ a b, boundsOf o = some (a, b) → a ≤ b) ∧
  (∀ cs, body = .anyOf cs → (∃ c ∈ cs, c.frm ≠ none ∨ c.upto ≠ none) → VOpt.versionStorage ∈ opts)

/-- The generator takes the 64 bit variable for the number it stands for. (It treats those of `int64` as unsigned ones, and those of `uintvar` as signed ones.) -/
def ReadsAs (t : IntType) (maxLen : Nat) (x : Int) : Prop := (if bigOpt t maxLen then x % 2 ^ 64 else x) = interp t x

instance (t : IntType) (maxLen : Nat) (x : Int) : Decidable (ReadsAs t maxLen x) := inferInstanceAs (Decidable (_ = _))

/-- The number is declared for a value of the enum that the version has. -/
def DeclaredAt (t : IntType) (values : List (Str × SpecialInfo)) (ver : Nat) (v : Int) : Prop :=
  ∃ p ∈ values, p.2.since ≤ ver ∧ ver < p.2.depr ∧ interp t p.2.value = v

/-- The number is declared for a value of the enum that some supported version has. -/
def DeclaredSome (g : GVer) (t : IntType) (values : List (Str × SpecialInfo)) (v : Int) : Prop :=
  ∃ p ∈ values, p.2.since ≤ g.version ∧ g.minRemote < p.2.depr ∧ interp t p.2.value = v

/-- The name shown for a value: its display name (`_` stands for an empty one), else its name. -/
def shown (p : Str × SpecialInfo) : Str := if p.2.displayName = [] then p.1 else if p.2.displayName = ['_'] then [] else p.2.displayName

/-- The name to be shown for a number: the one of the first value defined with it, or if duplicates are allowed the first one that is not deprecated, if any. -/
def nameFor (ver : Nat) (nonUnique : Bool) (t : IntType) (values : List (Str × SpecialInfo)) (v : Int) : Option Str :=
  let l := values.filter fun p => decide (interp t p.2.value = v)
  ((if nonUnique then l.find? (fun p => decide (ver < p.2.depr)) else none).or l.head?).map shown

/-- The generated `valueName()`, CommsEnumField.cpp:765-799, run for a number; `none` is `nullptr`. A `std::size_t` has 64 bits. -/
def valueName (enumerator : Str → Option Int) : NameTable → Int → Option Str
  | .direct names, v => names[(v % 2 ^ 64).toNat]?.join
  | .search pairs, v =>
    match pairs[lowerBound (fun p => decide ((enumerator p.1).getD 0 < v)) pairs pairs.length 0 pairs.length]? with
    | none => none
    | some p => if enumerator p.1 = some v then some p.2 else none

/-- The name with some `_` appended. -/
def Padded (base s : Str) : Prop := ∃ k, s = base ++ List.replicate k '_'

end Commsdsl.Spec
