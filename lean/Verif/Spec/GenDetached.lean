import Verif.Model.GenDetached
import Verif.Spec.GenCond
/-!
# What the functions for detached prefixes do (C116, C117)
-/
namespace Commsdsl.Spec
open Commsdsl Gen Fld Text

/-- The access leads to a sequence. -/
def SeqAt (env : List (Str × CObj)) (a : Acc) : Prop := (∃ n, objAt env a = some (.seq n)) ∨ ∃ s, objAt env a = some (.text s)

/-- What a statement gives to the sequence: a number as `std::size_t`, or nothing. -/
inductive RunPrep (env : List (Str × CObj)) : PrepStmt → Option Nat → Prop where
  | always {st : PrepStmt} {ty : CppInt} {x y : Int} : st.cond = [] → SeqAt env st.seq → CEval env (.get st.value st.last) (.num ty x) →
      CppConv (false, 64) x y → RunPrep env st (some y.toNat)
  | holds {st : PrepStmt} {ty : CppInt} {x y : Int} : st.cond ≠ [] → Evaluates env st.cond true → SeqAt env st.seq →
      CEval env (.get st.value st.last) (.num ty x) → CppConv (false, 64) x y → RunPrep env st (some y.toNat)
  | fails {st : PrepStmt} : st.cond ≠ [] → Evaluates env st.cond false → RunPrep env st none

/-- The sequence `f` has its length, count or element length, as `func` tells, in the field the path leads to. -/
inductive Detached : Field → SeqFunc → Str → Prop where
  | data {c : Common} {st : SeqState Nat} {p : Slot Field} : Detached (.data c st p) .length st.detached
  | string {c : Common} {st : SeqState Char} {p : Slot Field} : Detached (.string c st p) .length st.detached
  | count {c : Common} {st : ListState} {e n l el t : Slot Field} : Detached (.list c st e n l el t) .elemCount st.detachedCount
  | length {c : Common} {st : ListState} {e n l el t : Slot Field} : Detached (.list c st e n l el t) .length st.detachedLen
  | elemLength {c : Common} {st : ListState} {e n l el t : Slot Field} : Detached (.list c st e n l el t) .elemLength st.detachedElemLen

end Commsdsl.Spec
