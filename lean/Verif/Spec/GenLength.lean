import Verif.Model.GenVersion
import Verif.Spec.Ser
/-!
# How many bytes the values of generated field classes take

As `Spec/Ser`, for the generated classes: a field in a `comms::field::Optional` for versions (C91) may be missing, a number whose length is limited by what is
available takes at least one byte, and all members are there otherwise.
-/
namespace Commsdsl.Spec
open Commsdsl Fld Gen

/-- Numbers: with `availableLengthLimit` any number of bytes up to the length. -/
def limitedLen (limit : Bool) (type : Option IntF.IntType) (length n : Nat) : Prop := if limit then 1 ≤ n ∧ n ≤ length else numLen type length n

mutual
/-- Some value of the class of the field, without the wrapper for versions, takes `n` bytes. -/
def genBody (g : GVer) : Place → Field → Nat → Prop
  | _, .int c st, n => if c.pseudo then n = 0 else limitedLen st.availableLengthLimit st.type st.length n
  | _, .enum c st, n => if c.pseudo then n = 0 else limitedLen st.num.availableLengthLimit st.num.type st.num.length n
  | _, .set c st, n => if c.pseudo then n = 0 else limitedLen st.availableLengthLimit none st.length n
  | _, .float c st, n => if c.pseudo then n = 0 else n = st.length
  | _, .bitfield c _ ms _, n => if c.pseudo then n = 0 else n = bitSum ms / 8
  | pl, .bundle c ms _ _, n => if c.pseudo then n = 0 else genAll g (.field c.w.since pl) ms n
  | pl, .string c st p, n =>
    if c.pseudo then n = 0
    else if st.length ≠ 0 then n = st.length
    else if st.zeroSuffix then 1 ≤ n
    else genPrefixed g (.field c.w.since pl) p n
  | pl, .data c st p, n => if c.pseudo then n = 0 else if st.length ≠ 0 then n = st.length else genPrefixed g (.field c.w.since pl) p n
  | pl, .list c st e cn l el t, n =>
    if c.pseudo then n = 0
    else if st.count ≠ 0 then listBody st.elemFixedLength (genSlot g (.field c.w.since pl) e) (genOpt g (.field c.w.since pl) el) st.count n
    else if cn.has then
      ∃ a k m, genSlot g (.field c.w.since pl) cn a ∧ announcesSlot k cn ∧
        listBody st.elemFixedLength (genSlot g (.field c.w.since pl) e) (genOpt g (.field c.w.since pl) el) k m ∧ n = a + m
    else if l.has then genPrefixed g (.field c.w.since pl) l n
    else if t.has then ∃ a m, genSlot g (.field c.w.since pl) t a ∧ n = a + m
    else True
  | pl, .ref c _ t, n => if c.pseudo then n = 0 else genSlot g (.field c.w.since pl) t n
  | pl, .optional c _ f _, n => if c.pseudo then n = 0 else n = 0 ∨ genSlot g (.field c.w.since pl) f n
  | pl, .variant c _ ms, n => if c.pseudo then n = 0 else n = 0 ∨ genAny g (.field c.w.since pl) ms n
/-- The members one after the other. -/
def genAll (g : GVer) (pl : Place) : List Field → Nat → Prop
  | [], n => n = 0
  | m :: ms, n => ∃ a b, ((versionOpt g pl m = true ∧ a = 0) ∨ genBody g pl m a) ∧ genAll g pl ms b ∧ n = a + b
/-- One of the members. -/
def genAny (g : GVer) (pl : Place) : List Field → Nat → Prop
  | [], _ => False
  | m :: ms, n => ((versionOpt g pl m = true ∧ n = 0) ∨ genBody g pl m n) ∨ genAny g pl ms n
/-- A field that must be there: a global one, or one defined inside. -/
def genSlot (g : GVer) (pl : Place) : Slot Field → Nat → Prop
  | .none, _ => False
  | .ext f, n => (versionOpt g .other f = true ∧ n = 0) ∨ genBody g .other f n
  | .own f, n => (versionOpt g pl f = true ∧ n = 0) ∨ genBody g pl f n
/-- Nothing, or the field. -/
def genOpt (g : GVer) (pl : Place) : Slot Field → Nat → Prop
  | .none, n => n = 0
  | .ext f, n => (versionOpt g .other f = true ∧ n = 0) ∨ genBody g .other f n
  | .own f, n => (versionOpt g pl f = true ∧ n = 0) ∨ genBody g pl f n
/-- A prefix and as many bytes as it announces; without prefix any number of bytes. -/
def genPrefixed (g : GVer) (pl : Place) : Slot Field → Nat → Prop
  | .none, _ => True
  | .ext f, n => ∃ a m, ((versionOpt g .other f = true ∧ a = 0) ∨ genBody g .other f a) ∧ announces m f ∧ n = a + m
  | .own f, n => ∃ a m, ((versionOpt g pl f = true ∧ a = 0) ∨ genBody g pl f a) ∧ announces m f ∧ n = a + m
end

/-- Some value of the generated class takes `n` bytes. -/
def genBytes (g : GVer) (pl : Place) (f : Field) (n : Nat) : Prop := (versionOpt g pl f = true ∧ n = 0) ∨ genBody g pl f n

mutual
/-- Nothing inside is pseudo, may be missing because of versions, or is limited by what is available; what is inside optional fields and variants does not matter. -/
def Firm (g : GVer) : Place → Field → Prop
  | pl, .int c st => versionOpt g pl (.int c st) = false ∧ c.pseudo = false ∧ st.availableLengthLimit = false
  | pl, .enum c st => versionOpt g pl (.enum c st) = false ∧ c.pseudo = false ∧ st.num.availableLengthLimit = false
  | pl, .set c st => versionOpt g pl (.set c st) = false ∧ c.pseudo = false ∧ st.availableLengthLimit = false
  | pl, .float c st => versionOpt g pl (.float c st) = false ∧ c.pseudo = false
  | pl, .bitfield c e ms cd => versionOpt g pl (.bitfield c e ms cd) = false ∧ c.pseudo = false
  | pl, .bundle c ms al cd => versionOpt g pl (.bundle c ms al cd) = false ∧ c.pseudo = false ∧ FirmAll g (.field c.w.since pl) ms
  | pl, .string c st p => versionOpt g pl (.string c st p) = false ∧ c.pseudo = false ∧ FirmSlot g (.field c.w.since pl) p
  | pl, .data c st p => versionOpt g pl (.data c st p) = false ∧ c.pseudo = false ∧ FirmSlot g (.field c.w.since pl) p
  | pl, .list c st e cn l el t => versionOpt g pl (.list c st e cn l el t) = false ∧ c.pseudo = false ∧ FirmSlot g (.field c.w.since pl) e ∧
      FirmSlot g (.field c.w.since pl) cn ∧ FirmSlot g (.field c.w.since pl) l ∧ FirmSlot g (.field c.w.since pl) el ∧ FirmSlot g (.field c.w.since pl) t
  | pl, .ref c b t => versionOpt g pl (.ref c b t) = false ∧ c.pseudo = false ∧ FirmSlot g (.field c.w.since pl) t
  | pl, .optional c st f cd => versionOpt g pl (.optional c st f cd) = false ∧ c.pseudo = false
  | pl, .variant c d ms => versionOpt g pl (.variant c d ms) = false ∧ c.pseudo = false
/-- For members. -/
def FirmAll (g : GVer) (pl : Place) : List Field → Prop
  | [] => True
  | m :: ms => Firm g pl m ∧ FirmAll g pl ms
/-- For slots. -/
def FirmSlot (g : GVer) (pl : Place) : Slot Field → Prop
  | .none => True
  | .ext f => Firm g .other f
  | .own f => Firm g pl f
end

mutual
/-- No field is pseudo, and prefixes and elements of sequences are firm. -/
def Countable (g : GVer) : Place → Field → Prop
  | pl, .bundle c ms _ _ => c.pseudo = false ∧ CountableAll g (.field c.w.since pl) ms
  | pl, .ref c _ t => c.pseudo = false ∧ CountableSlot g (.field c.w.since pl) t
  | pl, .string c _ p => c.pseudo = false ∧ FirmSlot g (.field c.w.since pl) p
  | pl, .data c _ p => c.pseudo = false ∧ FirmSlot g (.field c.w.since pl) p
  | pl, .list c _ e cn l el t => c.pseudo = false ∧ FirmSlot g (.field c.w.since pl) e ∧
      FirmSlot g (.field c.w.since pl) cn ∧ FirmSlot g (.field c.w.since pl) l ∧ FirmSlot g (.field c.w.since pl) el ∧ FirmSlot g (.field c.w.since pl) t
  | _, f => f.common.pseudo = false
/-- For members. -/
def CountableAll (g : GVer) (pl : Place) : List Field → Prop
  | [] => True
  | m :: ms => Countable g pl m ∧ CountableAll g pl ms
/-- For slots. -/
def CountableSlot (g : GVer) (pl : Place) : Slot Field → Prop
  | .none => True
  | .ext f => Countable g .other f
  | .own f => Countable g pl f
end

/-- Prefixes can announce that there is nothing. -/
def EmptyOk : Field → Prop
  | .string _ _ p => announcesSlot 0 p
  | .data _ _ p => announcesSlot 0 p
  | .list _ _ _ cn l _ _ => announcesSlot 0 cn ∧ announcesSlot 0 l
  | _ => True

/-- The field contains a variant, directly or as member of bundles. -/
inductive HasVariant : Field → Prop where
  | here {c : Common} {d : Nat} {ms : List Field} : HasVariant (.variant c d ms)
  | bundle {c : Common} {ms : List Field} {al : List Alias} {cd : Option CondM.Cond} {m : Field} : m ∈ ms → HasVariant m → HasVariant (.bundle c ms al cd)
  | bitfield {c : Common} {e : Option IntF.Endian} {ms : List Field} {cd : Option CondM.Cond} {m : Field} : m ∈ ms → HasVariant m → HasVariant (.bitfield c e ms cd)

end Commsdsl.Spec
