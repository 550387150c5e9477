import Verif.Model.Basic
/-!
# Sorting

What `std::sort` asks of its comparator, and what it promises.
-/
namespace Commsdsl.Spec

/-- A strict weak order on the elements satisfying `S`: the requirement of `std::sort` (its behaviour is undefined otherwise). -/
structure StrictWeak {α : Type} (S : α → Prop) (lt : α → α → Bool) : Prop where
  irrefl : ∀ a, S a → lt a a = false
  trans : ∀ a b c, S a → S b → S c → lt a b = true → lt b c = true → lt a c = true
  incomparable : ∀ a b c, S a → S b → S c → lt a b = false → lt b a = false → lt b c = false → lt c b = false → lt a c = false ∧ lt c a = false

/-- `r` is a possible result of sorting `l`. -/
def SortsTo {α : Type} (lt : α → α → Bool) (l r : List α) : Prop := r.Perm l ∧ r.Pairwise fun a b => lt b a = false

/-- A number of type `std::intmax_t`. -/
def IsI64 (n : Int) : Prop := -9223372036854775808 ≤ n ∧ n ≤ 9223372036854775807

end Commsdsl.Spec
