import Verif.Model.GenSet
/-!
# What the generated code of `<set>` fields does

The COMMS library is not part of the repository. `BitmaskReservedBits<mask, value>` makes exactly the values valid that have the given value in the bits of the
mask; without it every value is valid; `getVersion()` needs `VersionStorage`; `COMMS_BITMASK_BITS_SEQ` numbers the names from zero.
-/
namespace Commsdsl.Spec
open Commsdsl IntF SetF Gen

/-- The generated condition makes `valid()` return `false` for the version and the value. -/
def Rejects (c : SetCond) (ver : Nat) (v : BitVec 64) : Prop :=
  match c with
  | .outside frm upto mask value => ((∃ n, frm = some n ∧ ver < n) ∨ ∃ n, upto = some n ∧ n ≤ ver) ∧ v &&& mask ≠ value
  | .during mask value ranges => v &&& mask ≠ value ∧ ∃ r ∈ ranges, r.1 ≤ ver ∧ ver < r.2

/-- `valid()` of the generated class, for the remote version and the value. -/
def SetValid (opts : SetOpts) (conds : List SetCond) (ver : Nat) (v : BitVec 64) : Prop :=
  (∀ m r, opts.reserved = some (m, r) → v &&& m = r) ∧ ∀ c ∈ conds, ¬ Rejects c ver v

/-- The version is asked for only if it is stored. -/
def SetFits (opts : SetOpts) (conds : List SetCond) : Prop := conds ≠ [] → opts.versionStorage = true

/-- The bit is declared under some name that the version has, and is not reserved. -/
def BitFree (st : SetF.State) (ver : Nat) (i : Nat) : Prop := ∃ p ∈ st.bits, p.2.idx = i ∧ p.2.since ≤ ver ∧ ver < p.2.depr ∧ p.2.reserved = false

/-- The bit has the value it must have where it is reserved: the one declared with a name of it, or the one for all bits without a name. -/
def BitReserved (st : SetF.State) (v : BitVec 64) (i : Nat) : Prop :=
  (∃ p ∈ st.bits, p.2.idx = i ∧ v.getLsbD i = p.2.reservedValue) ∨ ((∀ p ∈ st.bits, p.2.idx ≠ i) ∧ v.getLsbD i = st.reservedBit)

/-- The index of the bit given to the name by the macros. -/
def AccessIdx (a : BitAccess) (name : Str) (i : Nat) : Prop :=
  match a with
  | .seq names => names[i]? = some name
  | .listed bits => (name, i) ∈ bits

/-- `bitName(i)`, CommsSetField.cpp:497-506, with the table; `none` is `nullptr`. -/
def bitName (table : List (Option Str)) (i : Nat) : Option Str := if table.length ≤ i then none else table[i]?.join

/-- The name to be shown for a bit: the one of the first name of it, or if duplicates are allowed the first one that is not deprecated, if any. -/
def bitNameFor (ver : Nat) (nonUnique : Bool) (bits : List (Str × BitInfo)) (i : Nat) : Option Str :=
  let l := bits.filter fun p => decide (p.2.idx = i)
  let show' := fun p : Str × BitInfo => if p.2.displayName = [] then p.1 else if p.2.displayName = ['_'] then [] else p.2.displayName
  ((if nonUnique then l.find? (fun p => decide (ver < p.2.depr)) else none).or l.head?).map show'

/-- The number a field of a class with the option starts with; without an option it is zero. -/
def initialValue (o : Option (Bool × BitVec 64)) : BitVec 64 :=
  match o with
  | none => 0#64
  | some (_, v) => v

end Commsdsl.Spec
