import Verif.Model.IntField
/-!
# What integer types mean
-/
namespace Commsdsl.Spec
open Commsdsl IntF

/-- Families of integer types. -/
def Signed (t : IntType) : Prop := t = .int8 ∨ t = .int16 ∨ t = .int32 ∨ t = .int64 ∨ t = .intvar
/-- Base-128 encoded types: 7 value bits per byte. -/
def VarLen (t : IntType) : Prop := t = .intvar ∨ t = .uintvar

instance : DecidablePred Signed := fun _ => inferInstanceAs (Decidable (_ ∨ _ ∨ _ ∨ _ ∨ _))
instance : DecidablePred VarLen := fun _ => inferInstanceAs (Decidable (_ ∨ _))

/-- Number of value bits of a field of type `t` that occupies `bits` bits on the wire: 7 of 8 for variable length types, all
    otherwise, at most 64. -/
def valueBits (t : IntType) (bits : Nat) : Nat := min (if VarLen t then bits / 8 * 7 else bits) 64

/-- Smallest integer representable. -/
def loBound (t : IntType) (bits : Nat) : Int := if Signed t then -(2 ^ (valueBits t bits - 1)) else 0
/-- Largest integer representable. -/
def hiBound (t : IntType) (bits : Nat) : Int := if Signed t then 2 ^ (valueBits t bits - 1) - 1 else 2 ^ valueBits t bits - 1

/-- The parser keeps all values in 64 bit signed variables; for `uint64`/`uintvar` fields they stand for the residue modulo 2^64. -/
def interp (t : IntType) (x : Int) : Int := if t = .uint64 ∨ t = .uintvar then x % 2 ^ 64 else x

/-- Bits of the type itself (variable length types hold 64 bit values). -/
def typeBits : IntType → Nat
  | .int8 | .uint8 => 8
  | .int16 | .uint16 => 16
  | .int32 | .uint32 => 32
  | _ => 64

/-- Bounds of the type itself. -/
def typeLo (t : IntType) : Int := if Signed t then -(2 ^ (typeBits t - 1)) else 0
/-- Bounds of the type itself. -/
def typeHi (t : IntType) : Int := if Signed t then 2 ^ (typeBits t - 1) - 1 else 2 ^ typeBits t - 1

/-- Value `v` is declared valid in protocol version `ver` by the ranges. -/
def ValidAt (t : IntType) (rs : List RangeInfo) (ver : Nat) (v : Int) : Prop :=
  ∃ r ∈ rs, r.since ≤ ver ∧ ver < r.depr ∧ interp t r.min ≤ v ∧ v ≤ interp t r.max

end Commsdsl.Spec
