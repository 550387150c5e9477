/-!
# Sorting

`std::sort` with comparator `lt` is modelled by insertion sort. When `lt` orders any two different elements the sorted list is unique, so
the algorithm does not matter; for comparators with ties the model keeps the original order of equivalent elements (which `std::sort`
does not promise); properties that would depend on it are stated up to that.
-/
namespace Commsdsl

/-- Insert before the first element that is greater. C++ library, not in /repo (`std::sort`, `std::map`); used e.g. for ParseStringFieldImpl.cpp:423-443. -/
def insertBy {α : Type} (lt : α → α → Bool) (x : α) : List α → List α
  | [] => [x]
  | y :: ys => if lt x y then x :: y :: ys else y :: insertBy lt x ys

/-- Insertion sort. C++ library, not in /repo (`std::sort`, `std::map`); used e.g. for ParseStringFieldImpl.cpp:423-443. -/
def sortBy {α : Type} (lt : α → α → Bool) : List α → List α
  | [] => []
  | x :: xs => insertBy lt x (sortBy lt xs)

end Commsdsl
