import Verif.Model.GenWire
import Verif.Model.GenCond
import Verif.Model.Message
/-!
# Generated read functions of bundles, messages and variants (`app/commsdsl2comms/src/CommsBundleField.cpp`, `CommsMessage.cpp`, `CommsVariantField.cpp`)

A statement of a generated function is a piece of data. Code given by the user (overrides) is left out.
-/
namespace Commsdsl.Gen
open Commsdsl Text IntF Fld

/-! ## Bundles and messages -/

/-- There is a sibling for the detached prefix, CommsDataField.cpp:213-232, CommsStringField.cpp:188-207, CommsListField.cpp:239-263 -/
def prefixFound (sibs : List Field) (name : Str) : Bool := !name.isEmpty && sibs.any fun f => f.name == name.takeWhile (· != '.')

/-- The text of `commsDefBundledReadPrepareFuncBody` is not empty: optional (CommsOptionalField.cpp:433-441), data (CommsDataField.cpp:205-265), string
    (CommsStringField.cpp:180-240), list (CommsListField.cpp:234-325), and CommsField.cpp:620-623 for all others. -/
def prepared (sibs : List Field) : Field → Bool
  | .optional _ _ _ cd => cd.isSome
  | .data _ st _ => prefixFound sibs st.detached
  | .string _ st _ => prefixFound sibs st.detached
  | .list _ st _ _ _ _ _ => prefixFound sibs st.detachedCount || (prefixFound sibs st.detachedLen || prefixFound sibs st.detachedElemLen)
  | _ => false

/-- Statements of a read function: `readPrepare_N()`, `readUntilAndUpdateLen<N>`, `readFromUntilAndUpdateLen<M, N>`, `Base::read`, `readFrom<N>`; members by their
    index. A statement that reads is left with `break` if it fails. Helper of `readLoop`, CommsBundleField.cpp:247-277. -/
inductive ReadOp where
  | prep (i : Nat)
  | readUntil (j : Nat)
  | readFromUntil (i j : Nat)
  | readAll
  | readFrom (i : Nat)
  deriving DecidableEq, Repr

/-- The loop, CommsBundleField.cpp:247-277, CommsMessage.cpp:1302-1331, on the flags of the members from index `idx` on; `prev` is `prevIdx`, `none` for -1. The
    second result is the last value of `prevIdx`. -/
def readLoop : Nat → Option Nat → List Bool → List ReadOp × Option Nat
  | _, prev, [] => ([], prev)
  | idx, prev, b :: bs =>
    if !b then readLoop (idx + 1) prev bs
    else if idx = 0 then
      let r := readLoop (idx + 1) prev bs
      (.prep idx :: r.1, r.2)
    else
      let r := readLoop (idx + 1) (some idx) bs
      match prev with
      | none => (.readUntil idx :: .prep idx :: r.1, r.2)
      | some p => (.readFromUntil p idx :: .prep idx :: r.1, r.2)

/-- The statements, CommsBundleField.cpp:236-292, CommsMessage.cpp:1293-1346; `none` if there are none. -/
def readOps (flags : List Bool) : Option (List ReadOp) :=
  let r := readLoop 0 none flags
  if r.1.isEmpty then none
  else some (r.1 ++ [match r.2 with
    | none => .readAll
    | some p => .readFrom p])

/-- `commsDefReadFuncBodyImpl`, CommsBundleField.cpp:236-304: `none` if there is no read function. -/
def bundleRead (ms : List Field) : Option (List ReadOp) := readOps (ms.map (prepared ms))

/-- The read function of a message, CommsMessage.cpp:1283-1420: the condition to be checked first, the update of versions, the statements (`none` for
    `return Base::doRead(iter, len)`), the check of validity. -/
structure MsgRead where
  cond : Option (List Tok)
  update : Bool
  ops : Option (List ReadOp)
  failOnInvalid : Bool
  deriving DecidableEq, Repr

/-- `commsDefReadFuncInternal`, CommsMessage.cpp:1283-1420, with `commsDefReadConditionsCodeInternal` (CommsMessage.cpp:1624-1651) for a condition that was written as
    `cond` (the empty text if there is none); `none` if there is no read function. -/
def messageRead (g : GVer) (failOnInvalid : Bool) (cond : List Tok) (fs : List Field) : Option MsgRead :=
  let ops := readOps (fs.map (prepared fs))
  if cond.isEmpty && ops.isNone then none
  else some ⟨if cond.isEmpty then none else some cond, ops.isSome && g.versionDependent, ops, ops.isSome && failOnInvalid⟩

end Commsdsl.Gen
