import Verif.Model.GenMsgs
import Verif.Spec.GenText
import Verif.Spec.GenScope
/-!
# What lists of messages, factories and dispatch functions mean
-/
namespace Commsdsl.Spec
open Commsdsl Msg Proto Gen

/-- The namespace `q` contains what is in the namespace `p`. The global namespace contains no other. -/
def NsInside (q p : Path) : Prop := if q = [] then p = [] else ∃ r, p = q ++ r

/-- The message may be received by the given side. -/
def ForSide : Side → Message → Prop
  | .all, _ => True
  | .client, m => m.sender = .server ∨ m.sender = .both
  | .server, m => m.sender = .client ∨ m.sender = .both

/-- The message is of the given platform, or of the bundle; a message without platforms is for all of them. `i` is the index of its schema. -/
def ForSel (i : Nat) : Sel → Path × Message → Prop
  | .every, _ => True
  | .platform p, e => e.2.platforms = [] ∨ p ∈ e.2.platforms
  | .bundle _ ms, e => (i, e.1, e.2.name) ∈ ms

/-- The messages that a file for the namespace `q` of a schema is about. -/
def Meant (s : Schema) (i : Nat) (q : Path) (sel : Sel) (side : Side) (e : Path × Message) : Prop :=
  e ∈ s.messages ∧ NsInside q e.1 ∧ ForSel i sel e ∧ ForSide side e.2

/-- Exactly these messages, each once, in ascending order of their ids (and the order given to those with the same id). -/
structure Listing (P : Path × Message → Prop) (l : List (Path × Message)) : Prop where
  exact : ∀ e, e ∈ l ↔ P e
  once : l.Nodup
  ascending : l.Pairwise fun a b => a.2.id < b.2.id ∨ a.2.id = b.2.id ∧ a.2.order ≤ b.2.order

/-- First letter in upper case. -/
def upperFirst : Str → Str
  | [] => []
  | c :: cs => c.toUpper :: cs

/-- The C++ name of the class of a message. -/
def typeText (main : Str) (e : Path × Message) : Str := joinWith "::".toList (main :: e.1 ++ ["message".toList, upperFirst e.2.name])

/-- The path of the header of a message. -/
def headerText (main : Str) (e : Path × Message) : Str := joinWith "/".toList (main :: e.1 ++ ["message".toList, upperFirst e.2.name]) ++ ".h".toList

/-- A constant expression of the given value, perhaps with a comment behind it. -/
def LabelIs (text : Str) (v : Int) : Prop :=
  ∃ e c, text = e ++ c ∧ CppExpr e v ∧ (c = [] ∨ ∃ t, c = " /* ".toList ++ t ++ " */".toList ∧ '*' ∉ t)

/-- `static_cast<std::intmax_t>` of an unsigned 64 bit number. -/
def asSigned (n : Nat) : Int := if n < 2 ^ 63 then n else n - 2 ^ 64

/-- The `switch` statement with these cases runs the given one for the value. -/
def Runs {α : Type} (cases : List (Str × α)) (v : Int) (c : α) : Prop := ∃ label, (label, c) ∈ cases ∧ LabelIs label v

/-- The code of a case uses the type for the index. -/
def Yields : Code → Nat → Str → Prop
  | .one t, _, ty => ty = t
  | .byIdx l, idx, ty => ∃ text, (text, ty) ∈ l ∧ CppExpr text idx

/-- `createMsg(id, idx)` creates an object of the type. -/
def Creates (f : Factory) (id idx : Nat) (ty : Str) : Prop :=
  (f.unique = true → idx = 0) ∧ ∃ code, Runs f.cases (asSigned id) code ∧ Yields code idx ty

/-- `msgCount(id)` returns the number. -/
def Counts (f : Factory) (id n : Nat) : Prop :=
  (∃ text, Runs f.counts (asSigned id) text ∧ CppExpr text n) ∨ (n = 0 ∧ ∀ text, ¬ Runs f.counts (asSigned id) text)

/-- The dispatch function called with the id and the index casts to the type (and does not leave the message to the handler of all the others). -/
def CastsTo (d : Dispatch) (id idx : Nat) (ty : Str) : Prop :=
  (d.multi = false → idx = 0) ∧ ∃ code, Runs d.cases (asSigned id) code ∧ Yields code idx ty

/-! ## The enum of message ids -/

/-- A field of the namespace, or of one inside, that holds the ids of messages. -/
def IdField (s : Schema) (q : Path) (e : Path × Fld.Field) : Prop := e ∈ s.fields ∧ NsInside q e.1 ∧ e.2.sem = .messageId ∧ e.2.kind = .enum

/-- The fields that count for the enum of a namespace: its own, for a global namespace without one those of the schema. -/
def IdFieldFor (s : Schema) (q : Path) (e : Path × Fld.Field) : Prop :=
  IdField s q e ∨ (q = [] ∧ (∀ x, ¬ IdField s [] x) ∧ e ∈ s.fields ∧ e.2.sem = .messageId ∧ e.2.kind = .enum)

/-- The messages that count for the enum of a namespace: its own, for a global namespace without one those of the schema. -/
def MessageFor (s : Schema) (q : Path) (e : Path × Message) : Prop :=
  (e ∈ s.messages ∧ NsInside q e.1) ∨ (q = [] ∧ (∀ x ∈ s.messages, x.1 ≠ []) ∧ e ∈ s.messages)

/-- The name of the enumerator for a message. -/
def idName (e : Path × Message) : Str := "MsgId_".toList ++ joinWith "_".toList (e.1 ++ [upperFirst e.2.name])

end Commsdsl.Spec
