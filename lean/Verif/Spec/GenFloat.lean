import Verif.Model.GenFloat
import Verif.Spec.FloatField
import Verif.Spec.Text
/-!
# What the generated code of `<float>` fields does

Numbers of floating point type are those of IEEE 754 (24 or 53 significant bits). Where a number of the type stands in the generated code, the nearest one is
taken (in the middle the even one). Of the options of the COMMS library, `InvalidByDefault` makes `Base::valid()` false, and `getVersion()` needs `VersionStorage`.
-/
namespace Commsdsl.Spec
open Commsdsl FloatF Gen FloatS

/-- The finite numbers of type `double` or `float`, in units of `2^-1074`. -/
def IsFlt (double : Bool) (n : Int) : Prop :=
  (∃ (m : Int) (e : Nat), n = m * 2 ^ e ∧ m.natAbs < 2 ^ (if double then 53 else 24) ∧ (if double then 0 else 925) ≤ e) ∧ n.natAbs ≤ largest double

/-- The number of the type that is nearest to `num / den`; in the middle of two, the one that is an even multiple of their difference. -/
def Nearest (double : Bool) (num : Int) (den : Nat) (n : Int) : Prop :=
  IsFlt double n ∧ ∀ n', IsFlt double n' → n' = n ∨ (num - n * den).natAbs < (num - n' * den).natAbs ∨
    ((num - n * den).natAbs = (num - n' * den).natAbs ∧ ∃ j, n = j * (2 * (n - n')))

/-- The `double` as a number of the type. -/
inductive RoundsTo (double : Bool) : Dbl → Dbl → Prop where
  | nan : RoundsTo double .nan .nan
  | posInf : RoundsTo double .posInf .posInf
  | negInf : RoundsTo double .negInf .negInf
  | fin {x y : Int} : Nearest double x 1 y → RoundsTo double (.fin x) (.fin y)

/-- The text of a decimal number with a point: digits, the point, digits; `num / 10^places` is the number. -/
def DecimalText (s : Str) (num places : Nat) : Prop :=
  ∃ a b : Str, a ≠ [] ∧ (∀ c ∈ a ++ b, DecDigit c) ∧ s = a ++ ['.'] ++ b ∧ b.length = places ∧
    posVal 10 (a ++ b) = num

/-- The value of a number in the generated code: a decimal number is read as `double`, then converted to the type. -/
inductive LitVal (double : Bool) : FLit → Dbl → Prop where
  | nan : LitVal double .nan .nan
  | posInf : LitVal double .posInf .posInf
  | negInf : LitVal double .negInf .negInf
  | lowest : LitVal double .lowest (.fin (-largest double))
  | max : LitVal double .max (.fin (largest double))
  | dec {neg : Bool} {k : Nat} {x : Int} {d : Dbl} : Nearest true ((if neg then -1 else 1) * k * 2 ^ 1074) 1000000 x → RoundsTo double (.fin x) d →
      LitVal double (.dec neg k) d

/-- The generated comparison is true for the value. `epsilon()` is `2^-52` or `2^-23`; the difference is taken without rounding. -/
def FCmpHolds (double : Bool) (v : Dbl) : FCmp → Prop
  | .isNan => v = .nan
  | .isNegInf => v = .negInf
  | .isPosInf => v = .posInf
  | .eq x => ∃ a, LitVal double x a ∧ a ≠ .nan ∧ v = a
  | .range x y => ∃ a b, LitVal double x a ∧ LitVal double y b ∧ Le a v ∧ Le v b
  | .near x => ∃ a n, LitVal double x (.fin a) ∧ v = .fin n ∧ (n - a).natAbs < 2 ^ (1074 - if double then 52 else 23)

/-- `valid()` of the generated class for the remote version and the value; there is no function if there are no checks. -/
def FloatValid (double : Bool) (opts : FloatOpts) (checks : List FCheck) (ver : Nat) (v : Dbl) : Prop :=
  opts.invalidByDefault = false ∨
    ∃ c ∈ checks, (∀ n, c.frm = some n → n ≤ ver) ∧ (∀ n, c.upto = some n → ver < n) ∧ FCmpHolds double v c.cmp

/-- The version is asked for only if it is stored. -/
def FloatFits (opts : FloatOpts) (checks : List FCheck) : Prop := (∃ c ∈ checks, c.frm ≠ none ∨ c.upto ≠ none) → opts.versionStorage = true

/-- The value is in the range, whose bounds are taken as numbers of the type. -/
def InRangeAs (double : Bool) (r : FloatF.RangeInfo) (v : Dbl) : Prop := ∃ lo hi, RoundsTo double r.min lo ∧ RoundsTo double r.max hi ∧ InRange lo hi v

/-- The `double` keeps its value when it is written with six decimal places and read again: no other `double` is as near to the multiple of `10^-6` that is
    nearest to it. -/
def Kept (x : Int) : Prop :=
  IsFlt true x ∧ ∀ k : Int, 2 * (k * 2 ^ 1074 - x * 1000000).natAbs ≤ 2 ^ 1074 → ∀ y, IsFlt true y → y ≠ x →
    (k * 2 ^ 1074 - x * 1000000).natAbs < (k * 2 ^ 1074 - y * 1000000).natAbs

/-- The generator can write the value: it is not finite, or kept when it is written with six decimal places. -/
def WritableValue (b : Dbl) : Prop := (b = .nan ∨ b = .negInf ∨ b = .posInf) ∨ ∃ x, b = .fin x ∧ Kept x

/-- The generator can write the range: its bounds are finite and kept, or it consists of one value that is not finite. -/
def Writable (r : FloatF.RangeInfo) : Prop :=
  (∃ x y, r.min = .fin x ∧ r.max = .fin y ∧ Kept x ∧ Kept y) ∨ (r.min = r.max ∧ (r.min = .nan ∨ r.min = .negInf ∨ r.min = .posInf))

end Commsdsl.Spec
