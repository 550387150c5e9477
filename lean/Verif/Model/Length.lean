import Verif.Model.Basic
/-!
# Arithmetic on serialisation lengths (`lib/src/parse/parse_common.cpp:1530-1552`)
-/
namespace Commsdsl.Length
open Commsdsl

/-- `parseMaxPossibleLength`, parse_common.cpp:1530-1533 (the constant: parse_common.cpp:36): the marker of "unlimited". -/
def maxPossible : Nat := 18446744073709551615

/-- `parseAddToLength`, parse_common.cpp:1535-1543: the new value of `accLen`. The sum is `std::size_t` arithmetic. -/
def add (newLen accLen : Nat) : Nat :=
  if maxPossible - accLen ≤ newLen then maxPossible else (accLen + newLen) % 18446744073709551616

/-- `parseMulLength`, parse_common.cpp:1545-1552. A zero `factor` is a division by zero. -/
def mul (len factor : Nat) : Res Nat :=
  if factor = 0 then .ub
  else if (maxPossible - 1) / factor + 1 ≤ len then .ok maxPossible
  else .ok (len * factor % 18446744073709551616)

end Commsdsl.Length
