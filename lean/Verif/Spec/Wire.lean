import Verif.Spec.GenText
import Verif.Spec.GenScope
import Verif.Spec.IntField
/-!
# What the serialisation options of the COMMS library mean

Taken from the documentation of the library: a number is kept in a C++ type, written in a number of bits (`FixedLength` counts bytes, `FixedBitLength` bits, without
them all bits of the type are written) or in groups of 7 bits (`VarLength`), and read back; a signed number is extended with its sign unless the second
parameter says otherwise. The value written is the value plus `NumValueSerOffset`.
-/
namespace Commsdsl.Spec
open Commsdsl IntF Gen

/-- How a number is put on the wire. -/
inductive Wire where
  /-- in that many bits; whether signed numbers are extended -/
  | fixed (bits : Nat) (ext : Bool)
  /-- in some number of groups of 7 bits -/
  | groups (least most : Nat)
  deriving DecidableEq

/-- What an option about the length says. -/
inductive LengthOpt : Str → Wire → Prop where
  | bytes {s : Str} {n : Nat} {sg : Bool} : CppLit s n sg → LengthOpt ("comms::option::def::FixedLength<".toList ++ s ++ ">".toList) (.fixed (8 * n) true)
  | bytesNoExt {s : Str} {n : Nat} {sg : Bool} : CppLit s n sg →
      LengthOpt ("comms::option::def::FixedLength<".toList ++ s ++ ", false".toList ++ ">".toList) (.fixed (8 * n) false)
  | bits {s : Str} {n : Nat} {sg : Bool} : CppLit s n sg → LengthOpt ("comms::option::def::FixedBitLength<".toList ++ s ++ ">".toList) (.fixed n true)
  | bitsNoExt {s : Str} {n : Nat} {sg : Bool} : CppLit s n sg →
      LengthOpt ("comms::option::def::FixedBitLength<".toList ++ s ++ ", false".toList ++ ">".toList) (.fixed n false)
  | var {s u : Str} {n m : Nat} {sg sg' : Bool} : CppLit s n sg → CppLit u m sg' →
      LengthOpt ("comms::option::def::VarLength<".toList ++ s ++ ", ".toList ++ u ++ ">".toList) (.groups n m)

/-- What the options about the length say of a field kept in the C++ type. -/
def WireOf (ty : CppInt) (opts : List Str) (w : Wire) : Prop := (opts = [] ∧ w = .fixed ty.2 true) ∨ ∃ s, opts = [s] ∧ LengthOpt s w

/-- The signed number with the bits of `raw`, of which there are `n`. -/
def signedOf (n : Nat) (raw : Int) : Int := if 2 * raw < 2 ^ n then raw else raw - 2 ^ n

/-- Conversion of a number to a C++ type. -/
def convert (ty : CppInt) (x : Int) : Int := if ty.1 then signedOf ty.2 (x % 2 ^ ty.2) else x % 2 ^ ty.2

/-- What is read, into a C++ type, from `n` bits to which the number `x` was written. -/
def readBack (ty : CppInt) (n : Nat) (ext : Bool) (x : Int) : Int := convert ty (if ty.1 && ext then signedOf n (x % 2 ^ n) else x % 2 ^ n)

/-- The number `x` is written such that it is read back unchanged. -/
def Carries (ty : CppInt) (x : Int) : Wire → Prop
  | .fixed n ext => readBack ty n ext x = x
  | .groups lo hi => ∃ k, lo ≤ k ∧ k ≤ hi ∧ readBack ty (7 * k) true x = x

/-- A field, kept in the C++ type, with value `v` and offset `off` has the value `v` again after it was written and read. -/
def Survives (ty : CppInt) (off : Int) (w : Wire) (v : Int) : Prop :=
  ∃ x, x = convert ty (v + off) ∧ Carries ty x w ∧ convert ty (x - off) = v

/-- The options say that the property has the value; without option it has the default value `d`. -/
def NumOpt (name : String) (d : Int) (opts : List Str) (v : Int) : Prop :=
  (opts = [] ∧ v = d) ∨ ∃ s, opts = ["comms::option::def::".toList ++ name.toList ++ "<".toList ++ s ++ ">".toList] ∧ CppExpr s v

/-- The options give the field the initial value: 0 without option. -/
def InitOpt (opts : List Str) (v : Int) : Prop :=
  NumOpt "DefaultNumValue" 0 opts v ∨
    ∃ s n sg, opts = ["comms::option::def::DefaultBigUnsignedNumValue<".toList ++ s ++ ">".toList] ∧ CppLit s n sg ∧ v = n

/-- The options give the scaling ratio: 1 without option. -/
def RatioOpt (opts : List Str) (num denom : Int) : Prop :=
  (opts = [] ∧ num = 1 ∧ denom = 1) ∨
    ∃ a b, opts = ["comms::option::def::ScalingRatio<".toList ++ a ++ ", ".toList ++ b ++ ">".toList] ∧ CppExpr a num ∧ CppExpr b denom

/-- The text is the option for the byte order. -/
def EndianOpt (s : Str) (e : Endian) : Prop :=
  (s = "comms::option::def::LittleEndian".toList ∧ e = .little) ∨ (s = "comms::option::def::BigEndian".toList ∧ e = .big)

/-- The byte order of `FieldBase<params>` of a schema: the one in the parameters or, without any, the one of the schema. -/
def OrderOf (schema : Endian) (params : Str) (e : Endian) : Prop := (params = [] ∧ e = schema) ∨ EndianOpt params e

end Commsdsl.Spec
