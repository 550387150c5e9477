import Verif.Model.FloatField
/-!
# What `<float>` fields mean
-/
namespace Commsdsl.Spec
open Commsdsl FloatF Text

namespace FloatS

/-- `a ≤ b` on the extended line; `nan` is comparable with nothing. -/
inductive Le : Dbl → Dbl → Prop where
  | negInf {b : Dbl} : b ≠ .nan → Le .negInf b
  | posInf {a : Dbl} : a ≠ .nan → Le a .posInf
  | fin {x y : Int} : x ≤ y → Le (.fin x) (.fin y)

/-- The value is in the range; the range from `nan` to `nan` consists of `nan`. -/
def InRange (lo hi v : Dbl) : Prop := (Le lo v ∧ Le v hi) ∨ (lo = .nan ∧ hi = .nan ∧ v = .nan)

/-- Value `v` is declared valid in protocol version `ver` by the ranges. -/
def ValidAt (l : List RangeInfo) (ver : Nat) (v : Dbl) : Prop := ∃ r ∈ l, r.since ≤ ver ∧ ver < r.depr ∧ InRange r.min r.max v

/-- Largest finite number of the type, in units of `2^-1074`: 24 or 53 significant bits, largest exponent 127 or 1023. -/
def largest (double : Bool) : Int := if double then (2 ^ 53 - 1) * 2 ^ (1023 - 52 + 1074) else (2 ^ 24 - 1) * 2 ^ (127 - 23 + 1074)

/-- A value the type can hold (up to rounding): `nan`, an infinity, or a number that does not exceed the largest finite one. -/
def OfType (double : Bool) (v : Dbl) : Prop :=
  v = .nan ∨ v = .posInf ∨ v = .negInf ∨ ∃ x, v = .fin x ∧ -largest double ≤ x ∧ x ≤ largest double

/-- What a text means. Where allowed, `nan`, `inf` and `-inf` (in any case) are these values; else the name of a special value of the field is
    its value; else a reference (or any other name) is resolved by the protocol; and everything else is a number. -/
inductive Reads (fp : Fp) (specials : List (Str × SpecialInfo)) (words : Bool) (s : Str) : Dbl → Prop where
  | nan : words = true → toLower s = "nan".toList → Reads fp specials words s .nan
  | posInf : words = true → toLower s = "inf".toList → Reads fp specials words s .posInf
  | negInf : words = true → toLower s = "-inf".toList → Reads fp specials words s .negInf
  | special {i : SpecialInfo} : (words = true → toLower s ∉ ["nan".toList, "inf".toList, "-inf".toList]) → isValidName s = true →
      findSpecial specials s = some i → Reads fp specials words s i.value
  | ref {v : Dbl} : (words = true → toLower s ∉ ["nan".toList, "inf".toList, "-inf".toList]) →
      (isValidName s = true → findSpecial specials s = none) → isValidRefName s = true → fp.strToFp s = some v → Reads fp specials words s v
  | number {v : Dbl} : (words = true → toLower s ∉ ["nan".toList, "inf".toList, "-inf".toList]) →
      (isValidName s = true → findSpecial specials s = none) → isValidRefName s = false → fp.stod (toLower s) = some v →
      Reads fp specials words s v

/-- The bounds a property gives: `validFullRange` those of the type, `validRange` the two that are written, `validValue` one value (also `nan`
    and the infinities), `validMin`, `validMax` one bound and the limit of the type. -/
def TextBounds (fp : Fp) (specials : List (Str × SpecialInfo)) (double : Bool) (text : Str) (lo hi : Dbl) : RangeProp → Prop
  | .full => strToBool text = some true ∧ lo = .fin (-largest double) ∧ hi = .fin (largest double)
  | .range => ∃ a b, parseRange text = .ok (a, b) ∧ Reads fp specials false a lo ∧ Reads fp specials false b hi ∧ (Le lo hi ∨ lo = .nan ∨ hi = .nan)
  | .value => Reads fp specials true text lo ∧ hi = lo ∧ OfType double lo
  | .min => Reads fp specials false text lo ∧ hi = .fin (largest double) ∧ OfType double lo
  | .max => lo = .fin (-largest double) ∧ Reads fp specials false text hi ∧ OfType double hi

/-- The element declares a text for the property: as attribute, with the versions of the field, or as child with its own versions. -/
def DeclaresText (env : IntF.Env) (c : IntF.Ctx) (p : RangeProp) (text : Str) (since depr : Nat) : Prop :=
  ((nodeProps c.node).find p.name = some text ∧ since = c.since ∧ depr = c.depr) ∨
  ∃ child ∈ getChildren c.node [p.name], nodeValue child = some text ∧ Versions.getAndCheckNode env.schemaVersion child c.since c.depr = some (since, depr)

/-- The element declares the range. -/
def DeclaresRange (env : IntF.Env) (fp : Fp) (c : IntF.Ctx) (specials : List (Str × SpecialInfo)) (double : Bool) (r : RangeInfo) : Prop :=
  ∃ p text, DeclaresText env c p text r.since r.depr ∧ TextBounds fp specials double text r.min r.max p

end FloatS

end Commsdsl.Spec
