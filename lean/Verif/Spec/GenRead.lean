import Verif.Model.GenRead
import Verif.Spec.CondRef
/-!
# What generated read functions do

`σ` is the state of the object and of the input, `ε` the type of errors. The functions of the COMMS library that are called are those of its documentation: they read
ranges of members one after the other and stop at the first error.
-/
namespace Commsdsl.Spec
open Commsdsl Gen Fld Text

/-- How single members are prepared and read. -/
structure Reader (σ ε : Type) where
  prep : Nat → σ → σ
  read : Nat → σ → Except ε σ

namespace Reader
variable {σ ε : Type} (r : Reader σ ε)

/-- Reads members one after the other, `n` of them from index `i` on. -/
def range (i : Nat) : Nat → σ → Except ε σ
  | 0, s => .ok s
  | n + 1, s => match r.read i s with
    | .ok s' => range (i + 1) n s'
    | .error e => .error e

/-- What one statement does in a class with `n` members. -/
def op (n : Nat) : ReadOp → σ → Except ε σ
  | .prep i, s => .ok (r.prep i s)
  | .readUntil j, s => r.range 0 j s
  | .readFromUntil i j, s => r.range i (j - i) s
  | .readAll, s => r.range 0 n s
  | .readFrom i, s => r.range i (n - i) s

/-- The statements up to the first error. -/
def ops (n : Nat) : List ReadOp → σ → Except ε σ
  | [], s => .ok s
  | o :: os, s => match r.op n o s with
    | .ok s' => ops n os s'
    | .error e => .error e

/-- What is wanted: each member in turn, prepared (if it needs that) when all members before it have been read, and then read. The first one has index `i`. -/
def inOrder (i : Nat) : List Bool → σ → Except ε σ
  | [], s => .ok s
  | b :: bs, s => match r.read i (if b then r.prep i s else s) with
    | .ok s' => inOrder (i + 1) bs s'
    | .error e => .error e

/-- The read function of a class with the flags; without generated function the one of the library reads all members. -/
def generated (flags : List Bool) (f : Option (List ReadOp)) (s : σ) : Except ε σ :=
  match f with
  | none => r.range 0 flags.length s
  | some os => r.ops flags.length os s

end Reader

/-- The read function of a message. `holds` tells whether the condition holds in the state, `update` updates the versions of fields, `valid` tells whether the message is
    valid, `invalid` is the error `InvalidMsgData`. Without generated statements the function of the library does all that. A check after a failure hides the error. -/
def runMessage {σ ε : Type} (r : Reader σ ε) (flags : List Bool) (failOnInvalid : Bool) (holds : List Tok → σ → Bool) (update : σ → σ) (valid : σ → Bool)
    (stopped : σ) (invalid : ε) (f : Option MsgRead) (s : σ) : Except ε σ :=
  let library (s : σ) : Except ε σ := match r.range 0 flags.length (update s) with
    | .error e => .error e
    | .ok s' => if failOnInvalid && !valid s' then .error invalid else .ok s'
  match f with
  | none => library s
  | some m =>
    if (match m.cond with | some c => !holds c s | none => false) then .error invalid
    else match m.ops with
      | none => library s
      | some os => match r.ops flags.length os (if m.update then update s else s) with
        | .error e => if m.failOnInvalid && !valid stopped then .error invalid else .error e
        | .ok s' => if m.failOnInvalid && !valid s' then .error invalid else .ok s'

/-- What is wanted of a message: nothing is read unless the condition holds; the versions of fields are updated, the fields are read in order, and then the message must
    be valid if invalid ones are to be refused. -/
def wantedMessage {σ ε : Type} (r : Reader σ ε) (flags : List Bool) (failOnInvalid : Bool) (holds : σ → Bool) (update : σ → σ) (valid : σ → Bool) (invalid : ε)
    (s : σ) : Except ε σ :=
  if holds s then match r.inOrder 0 flags (update s) with
    | .error e => .error e
    | .ok s' => if failOnInvalid && !valid s' then .error invalid else .ok s'
  else .error invalid

/-- The field must be prepared before it is read: an `<optional>` with a condition; a `<string>`, `<data>` or `<list>` the length, count or element length of which is in
    another field. -/
inductive NeedsPrep : Field → Prop where
  | optional {c : Common} {st : OptState} {s : Slot Field} {cd : CondM.Cond} : NeedsPrep (.optional c st s (some cd))
  | detached {f : Field} {p : Str} : p ∈ detachedPaths f → p ≠ [] → NeedsPrep f

end Commsdsl.Spec
