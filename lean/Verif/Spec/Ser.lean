import Verif.Model.Field
import Verif.Spec.IntField
/-!
# How many bytes the values of a field occupy

Independent of the parser's length computation: the rules of serialisation of the CommsDSL specification. `ser v f n` says that some value of
`f` takes `n` bytes when version `v` of the protocol is spoken.
-/
namespace Commsdsl.Spec
open Commsdsl Fld

/-- Numbers: variable length types take any number of bytes up to the length, the others exactly the length. -/
def numLen (type : Option IntF.IntType) (length n : Nat) : Prop :=
  if type = some .intvar ∨ type = some .uintvar then 1 ≤ n ∧ n ≤ length else n = length

/-- The number `m` can be announced by a prefix: values of `<int>` prefixes are limited, others (bitfields, bundles, references of semantic
    type "length") may hold any number. -/
def announces (m : Nat) : Field → Prop
  | .int _ st => ∃ t, st.type = some t ∧ (m : Int) ≤ interp t st.max
  | _ => True

/-- The same for an optional prefix. -/
def announcesSlot (m : Nat) : Slot Field → Prop
  | .none => True
  | .ext f => announces m f
  | .own f => announces m f

/-- Exact number of bits of the members of a bitfield. -/
def bitSum : List Field → Nat
  | [] => 0
  | m :: ms => m.bitLength + bitSum ms

/-- `k` elements, each with its own prefix. -/
def elems (elem pfx : Nat → Prop) : Nat → Nat → Prop
  | 0, n => n = 0
  | k + 1, n => ∃ a b m, elem a ∧ pfx b ∧ elems elem pfx k m ∧ n = b + a + m

/-- The elements of a list: with `fixed` the element length comes once, otherwise in front of every element. -/
def listBody (fixed : Bool) (elem pfx : Nat → Prop) (k n : Nat) : Prop :=
  if fixed then (k = 0 ∧ n = 0) ∨ ∃ b m, pfx b ∧ elems elem (· = 0) k m ∧ n = b + m
  else elems elem pfx k n

/-- The member exists in version `v`. -/
def existsIn (v : Nat) (m : Field) : Bool := decide (m.since ≤ v) && !(m.removed && decide (m.depr ≤ v))

mutual
/-- Some value of the field takes `n` bytes in version `v`. -/
def ser (v : Nat) : Field → Nat → Prop
  | .int c st, n => if c.pseudo then n = 0 else numLen st.type st.length n
  | .enum c st, n => if c.pseudo then n = 0 else numLen st.num.type st.num.length n
  | .set c st, n => if c.pseudo then n = 0 else n = st.length
  | .float c st, n => if c.pseudo then n = 0 else n = st.length
  | .bitfield c _ ms _, n => if c.pseudo then n = 0 else n = bitSum ms / 8
  | .bundle c ms _ _, n => if c.pseudo then n = 0 else serAll v ms n
  | .string c st p, n =>
    if c.pseudo then n = 0
    else if st.length ≠ 0 then n = st.length
    else if st.zeroSuffix then 1 ≤ n
    else serPrefixed v p n
  | .data c st p, n => if c.pseudo then n = 0 else if st.length ≠ 0 then n = st.length else serPrefixed v p n
  | .list c st e cn l el t, n =>
    if c.pseudo then n = 0
    else if st.count ≠ 0 then listBody st.elemFixedLength (serSlot v e) (serOpt v el) st.count n
    else if cn.has then
      ∃ a k m, serSlot v cn a ∧ announcesSlot k cn ∧ listBody st.elemFixedLength (serSlot v e) (serOpt v el) k m ∧ n = a + m
    else if l.has then serPrefixed v l n
    else if t.has then ∃ a m, serSlot v t a ∧ n = a + m
    else True
  | .ref c _ t, n => if c.pseudo then n = 0 else serSlot v t n
  | .optional c _ f _, n => if c.pseudo then n = 0 else n = 0 ∨ serSlot v f n
  | .variant c _ ms, n => if c.pseudo then n = 0 else n = 0 ∨ serAny v ms n
/-- The members one after the other, those that exist. -/
def serAll (v : Nat) : List Field → Nat → Prop
  | [], n => n = 0
  | m :: ms, n => if existsIn v m then ∃ a b, ser v m a ∧ serAll v ms b ∧ n = a + b else serAll v ms n
/-- One of the members. -/
def serAny (v : Nat) : List Field → Nat → Prop
  | [], _ => False
  | m :: ms, n => ser v m n ∨ serAny v ms n
/-- A field that must be there. -/
def serSlot (v : Nat) : Slot Field → Nat → Prop
  | .none, _ => False
  | .ext f, n => ser v f n
  | .own f, n => ser v f n
/-- Nothing, or the field. -/
def serOpt (v : Nat) : Slot Field → Nat → Prop
  | .none, n => n = 0
  | .ext f, n => ser v f n
  | .own f, n => ser v f n
/-- A prefix and as many bytes as it announces; without prefix any number of bytes. -/
def serPrefixed (v : Nat) : Slot Field → Nat → Prop
  | .none, _ => True
  | .ext f, n => ∃ a m, ser v f a ∧ announces m f ∧ n = a + m
  | .own f, n => ∃ a m, ser v f a ∧ announces m f ∧ n = a + m
end

end Commsdsl.Spec
