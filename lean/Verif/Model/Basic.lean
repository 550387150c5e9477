/-!
# Basic conventions of the model

* `Str` models `std::string` (a sequence of characters).
* `Res` is the outcome of a C++ function that may succeed, fail in a controlled way (returns `false`/`nullptr`
  after reporting an error) or run into undefined behaviour.
-/
namespace Commsdsl

/-- Model of `std::string`. Bytes above 127 are out of the model: the code only classifies ASCII characters. C++ library, not in /repo; names are checked by lib/src/parse/parse_common.cpp:1448-1464. -/
abbrev Str := List Char

/-- Outcome of a modelled function. `err` is a reported failure, `ub` is C++ undefined behaviour. Modelling device, without code of its own; the pattern is that of lib/src/parse/ParseFieldImpl.cpp:69-158 (`return false` after a message). -/
inductive Res (α : Type) where
  | ok (a : α)
  | err
  | ub
  deriving DecidableEq, Repr

namespace Res

/-- Sequencing: the first failure or undefined behaviour wins. Modelling device, without code of its own; see `Res`, e.g. lib/src/parse/ParseFieldImpl.cpp:69-158. -/
def bind {α β : Type} : Res α → (α → Res β) → Res β
  | ok a, f => f a
  | err, _ => err
  | ub, _ => ub

/-- Modelling device, without code of its own; see `Res`, lib/src/parse/ParseFieldImpl.cpp:69-158. -/
instance : Monad Res where
  pure := ok
  bind := bind

@[simp] theorem bind_ok {α β : Type} (a : α) (f : α → Res β) : (Res.ok a >>= f) = f a := rfl
@[simp] theorem bind_err {α β : Type} (f : α → Res β) : ((Res.err : Res α) >>= f) = Res.err := rfl
@[simp] theorem bind_ub {α β : Type} (f : α → Res β) : ((Res.ub : Res α) >>= f) = Res.ub := rfl
@[simp] theorem pure_eq {α : Type} (a : α) : (pure a : Res α) = Res.ok a := rfl

theorem bind_eq_ok {α β : Type} {r : Res α} {f : α → Res β} {b : β} :
    (r >>= f) = Res.ok b ↔ ∃ a, r = Res.ok a ∧ f a = Res.ok b := by
  cases r <;> simp

/-- `check b` models `if (!b) { log; return false; }`. The pattern is that of lib/src/parse/ParseFieldImpl.cpp:69-158. -/
def check (b : Bool) : Res Unit := if b then ok () else err

@[simp] theorem check_eq_ok {b : Bool} : check b = Res.ok () ↔ b = true := by
  cases b <;> simp [check]

/-- View of an `Option` as a result whose failure is controlled. Modelling device, without code of its own; for functions with an `ok` argument like lib/src/parse/parse_common.cpp:938-953. -/
def ofOption {α : Type} : Option α → Res α
  | some a => ok a
  | none => err

@[simp] theorem ofOption_eq_ok {α : Type} {o : Option α} {a : α} : ofOption o = Res.ok a ↔ o = some a := by
  cases o <;> simp [ofOption]

end Res

/-! ## 64-bit machine arithmetic -/

/-- `2^64`, `std::size_t`/`std::uintmax_t` modulus. C++ library, not in /repo; used for the arithmetic of lib/src/parse/ParseIntFieldImpl.cpp:70-84. -/
def u64Mod : Nat := 18446744073709551616
/-- `std::numeric_limits<std::size_t>::max()`; also `MaxPossibleLength`
    (`lib/src/parse/parse_common.cpp:36`). -/
def u64Max : Nat := 18446744073709551615
/-- `std::numeric_limits<std::intmax_t>::max()`. C++ library, not in /repo; used in lib/src/parse/ParseIntFieldImpl.cpp:198-253. -/
def i64Max : Int := 9223372036854775807
/-- `std::numeric_limits<std::intmax_t>::min()`. C++ library, not in /repo; used in lib/src/parse/ParseIntFieldImpl.cpp:198-253. -/
def i64Min : Int := -9223372036854775808
/-- `2^32`, `unsigned` modulus. C++ library, not in /repo; used in lib/src/parse/parse_common.cpp:36 and for the arithmetic on lengths, lib/src/parse/parse_common.cpp:1535-1543. -/
def u32Mod : Nat := 4294967296
/-- `std::numeric_limits<unsigned>::max()`; `ParseProtocol::parseNotYetDeprecated()` minus nothing. C++ library, not in /repo; used in lib/src/parse/parse_common.cpp:36. -/
def u32Max : Nat := 4294967295

/-- `static_cast<std::uintmax_t>(x)` for a mathematical integer `x`. Used e.g. in lib/src/parse/ParseIntFieldImpl.cpp:226-253. -/
def castU64 (x : Int) : Nat := (x % 18446744073709551616).toNat
/-- `static_cast<std::intmax_t>(x)` (two's complement, implementation defined before C++20, modular since). Used e.g. in lib/src/parse/ParseIntFieldImpl.cpp:656-756. -/
def castI64 (x : Int) : Int := (x + 9223372036854775808) % 18446744073709551616 - 9223372036854775808
/-- `static_cast<unsigned>(x)`. Used e.g. in lib/src/parse/ParseFieldImpl.cpp:366-381. -/
def castU32 (x : Int) : Nat := (x % 4294967296).toNat
/-- `static_cast<int>(x)`. Used e.g. in lib/src/parse/ParseFieldImpl.cpp:1392-1417. -/
def castI32 (x : Int) : Int := (x + 2147483648) % 4294967296 - 2147483648

end Commsdsl
