import Verif.Model.Basic
/-! # `std::multimap` keyed by numbers, as used for the reverse tables of `<enum>` and `<set>` fields. -/
namespace Commsdsl.MultiMap
variable {κ : Type} [LT κ] [DecidableLT κ] [BEq κ]

/-- `emplace`: behind all entries with a key that is not greater (C++11 and later). C++ library, not in /repo; used e.g. in ParseEnumFieldImpl.cpp:410-559. -/
def insert (k : κ) (v : Str) : List (κ × Str) → List (κ × Str)
  | [] => [(k, v)]
  | e :: r => if k < e.1 then (k, v) :: e :: r else e :: insert k v r

/-- `find(key) != end()`. C++ library, not in /repo; used e.g. in ParseEnumFieldImpl.cpp:410-559. -/
def has (k : κ) (m : List (κ × Str)) : Bool := m.any fun e => e.1 == k

/-- The loop of `parseIsUnique`, ParseEnumFieldImpl.cpp:50-70 and ParseSetFieldImpl.cpp:51-71, after the first element. -/
def uniqueLoop (prev : κ) : List (κ × Str) → Bool
  | [] => true
  | e :: r => if prev == e.1 then false else uniqueLoop e.1 r

/-- `parseIsUnique`. ParseEnumFieldImpl.cpp:50-70, ParseSetFieldImpl.cpp:51-71. -/
def isUnique : List (κ × Str) → Bool
  | [] => true
  | e :: r => uniqueLoop e.1 r

end Commsdsl.MultiMap
