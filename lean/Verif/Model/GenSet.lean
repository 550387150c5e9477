import Verif.Model.GenValid
/-!
# Generated code of `<set>` fields (`app/commsdsl2comms/src/CommsSetField.cpp`)

What is written for reserved bits, valid values, default values, names of bits and access to bits, as data instead of text.
-/
namespace Commsdsl.Gen
open Commsdsl Text IntF SetF Msg

/-- The bits in the order of the `std::map` they are kept in. Helper of `setConds`, CommsSetField.cpp:128-360. -/
def sortedBits (st : SetF.State) : List (Str × BitInfo) := sortBy (fun a b => strLt a.1 b.1) st.bits

/-- A mask with the bit; the shift is undefined for 64 and above. Helper of `addBit`, CommsSetField.cpp:155-184. -/
def bitMask (i : Nat) : BitVec 64 := 1#64 <<< i

/-! ## `valid()` -/

/-- A condition of the generated `valid()`, CommsSetField.cpp:199-215, 304-343. -/
inductive SetCond where
  /-- `if (((getVersion() < frm) || (upto <= getVersion())) && ((getValue() & mask) != value)) return false;` -/
  | outside (frm upto : Option Nat) (mask value : BitVec 64)
  /-- `if ((getValue() & mask) != value) { if ((first <= getVersion()) && (getVersion() < second)) return false; ... }` -/
  | during (mask value : BitVec 64) (ranges : List (Nat × Nat))
  deriving DecidableEq, Repr

/-- An element of `bitsToCheck`, CommsSetField.cpp:141-149 -/
structure SetChk where
  key : Nat × Nat
  mask : BitVec 64
  value : BitVec 64
  deriving DecidableEq, Repr

/-- The variables of the loop, CommsSetField.cpp:148-153 -/
structure SetAcc where
  checks : List SetChk := []
  all : BitVec 64 := 0#64
  rep : BitVec 64 := 0#64
  repIdx : List Nat := []
  deriving DecidableEq, Repr

/-- `bitsToCheck[key]` with the updates of the element, CommsSetField.cpp:167-175. New elements come last: the order of the `std::map` is made later. -/
def addChk (k : Nat × Nat) (m v : BitVec 64) : List SetChk → List SetChk
  | [] => [⟨k, m, v⟩]
  | c :: r => if c.key = k then { c with mask := c.mask ||| m, value := c.value ||| v } :: r else c :: addChk k m v r

/-- The bit is looked at in `valid()`, CommsSetField.cpp:156-163; `fs` and `fd` are the versions of the field. -/
def handled (g : GVer) (fs fd : Nat) (b : BitInfo) : Bool := !(decide (b.since ≤ fs) && decide (fd ≤ b.depr)) && doesExist g b.since b.depr false

/-- One iteration, CommsSetField.cpp:155-184 -/
def addBit (g : GVer) (fs fd : Nat) (a : SetAcc) (b : BitInfo) : Res SetAcc :=
  if !handled g fs fd b then .ok a
  else if 64 ≤ b.idx then .ub
  else
    let m := bitMask b.idx
    let again := decide (a.all &&& m ≠ 0#64) && decide (a.rep &&& m = 0#64)
    .ok { checks := addChk (b.since, b.depr) m (if b.reservedValue then m else 0#64) a.checks
          all := a.all ||| m
          rep := if again then a.rep ||| m else a.rep
          repIdx := if again then a.repIdx ++ [b.idx] else a.repIdx }

/-- The loop, CommsSetField.cpp:154-184 -/
def addBits (g : GVer) (fs fd : Nat) : SetAcc → List BitInfo → Res SetAcc
  | a, [] => .ok a
  | a, b :: bs => do
    let a ← addBit g fs fd a b
    addBits g fs fd a bs

/-- The order of pairs of versions, CommsSetField.cpp:251-260 and `std::tuple`. -/
def keyLt (a b : Nat × Nat) : Bool := if a.1 ≠ b.1 then decide (a.1 < b.1) else decide (a.2 < b.2)

/-- The masks without the bits that have several names, CommsSetField.cpp:186-191 -/
def dropRep (rep : BitVec 64) (c : SetChk) : SetChk := { c with mask := c.mask &&& ~~~rep, value := c.value &&& ~~~rep }

/-- The condition for an element, CommsSetField.cpp:217-232 -/
def chkCond (c : SetChk) : SetCond :=
  if c.key.1 = 0 then .outside none (some c.key.2) c.mask c.value
  else if Versions.notYet ≤ c.key.2 then .outside (some c.key.1) none c.mask c.value
  else .outside (some c.key.1) (some c.key.2) c.mask c.value

/-- The versions of the bits with the index, in the order of the reverse table: CommsSetField.cpp:236-249 -/
def windowsOf (st : SetF.State) (idx : Nat) : List (Nat × Nat) :=
  ((st.rev.filter fun e => e.1 == idx).filterMap fun e => findBit st.bits e.2).map fun b => (b.since, b.depr)

/-- The gaps before the windows, CommsSetField.cpp:262-268, and the end of the last window. -/
def gapsBefore : Nat → List (Nat × Nat) → List (Nat × Nat) × Nat
  | prev, [] => ([], prev)
  | prev, r :: rs => ((prev, r.1) :: (gapsBefore r.2 rs).1, (gapsBefore r.2 rs).2)

/-- A range that is not looked at, CommsSetField.cpp:278-280, 284-286, 300-302 -/
def noGap (r : Nat × Nat) : Bool := decide (r.2 = 0) || decide (r.1 = r.2)

/-- The inner loop, CommsSetField.cpp:282-295 -/
def gapInner (cur : Nat × Nat) : List (Nat × Nat) → (Nat × Nat) × List (Nat × Nat)
  | [] => (cur, [])
  | n :: ns =>
    if noGap n then
      let r := gapInner cur ns
      (r.1, n :: r.2)
    else if cur.2 < n.1 then (cur, n :: ns)
    else
      let r := gapInner (cur.1, n.2) ns
      (r.1, (n.1, 0) :: r.2)

/-- The outer loop, CommsSetField.cpp:276-296 -/
def gapUnify : Nat → List (Nat × Nat) → List (Nat × Nat)
  | 0, l => l
  | _ + 1, [] => []
  | fuel + 1, r :: rs =>
    if noGap r then r :: gapUnify fuel rs
    else
      let m := gapInner r rs
      m.1 :: gapUnify fuel m.2

/-- The versions in which a bit with several names has to be reserved, CommsSetField.cpp:236-317. -/
def gapsOf (st : SetF.State) (fd : Nat) (idx : Nat) : List (Nat × Nat) :=
  let g := gapsBefore 0 (sortBy keyLt (windowsOf st idx))
  let l := if g.2 < fd then g.1 ++ [(g.2, fd)] else g.1
  (gapUnify l.length l).filter fun r => !noGap r

/-- The condition for a bit with several names, CommsSetField.cpp:235-343; none if it is never reserved. The value is the one of the first name. -/
def repCond (st : SetF.State) (fd : Nat) (idx : Nat) : Option SetCond :=
  let rv := ((st.rev.filter fun e => e.1 == idx).head?.bind fun e => findBit st.bits e.2).any BitInfo.reservedValue
  let gaps := gapsOf st fd idx
  if gaps.isEmpty then none else some (.during (bitMask idx) (if rv then bitMask idx else 0#64) gaps)

/-- `commsDefValidFuncBodyImpl`, CommsSetField.cpp:128-360: the conditions; without any there is no such function. `fs` and `fd` are the versions of the field. -/
def setConds (g : GVer) (fs fd : Nat) (st : SetF.State) : Res (List SetCond) :=
  if !checkVersion g st.validCheckVersion then .ok []
  else do
    let a ← addBits g fs fd {} ((sortedBits st).map Prod.snd)
    let cs := sortBy (fun x y => keyLt x.key y.key) a.checks
    let cs := if a.rep ≠ 0#64 then cs.map (dropRep a.rep) else cs
    pure (((cs.filter fun c => c.mask ≠ 0#64).map chkCond) ++ a.repIdx.filterMap (repCond st fd))

/-! ## Options -/

/-- The bit length, CommsSetField.cpp:737-740, 824-827 -/
def bitsOf (st : SetF.State) : Nat := if st.bitLength = 0 then st.length * 8 else st.bitLength

/-- A mask with all bits below the length, CommsSetField.cpp:742-745, 829-832 -/
def lenMask (n : Nat) : BitVec 64 := if n < 64 then (1#64 <<< n) - 1#64 else ~~~0#64

/-- The variables of the loop over the bits, CommsSetField.cpp:779-785 -/
structure ResAcc where
  mask : BitVec 64
  value : BitVec 64
  version : Bool := false
  deriving DecidableEq, Repr

/-- One iteration, CommsSetField.cpp:787-820 -/
def resStep (g : GVer) (chk : Bool) (fs fd : Nat) (a : ResAcc) (b : BitInfo) : ResAcc :=
  if 64 ≤ b.idx then a
  else if chk && !doesExist g b.since b.depr true then a
  else if chk && (decide (fs < b.since) || decide (b.depr < fd)) then
    { mask := a.mask &&& ~~~bitMask b.idx, value := a.value &&& ~~~bitMask b.idx, version := true }
  else if !b.reserved then { a with mask := a.mask &&& ~~~bitMask b.idx, value := a.value &&& ~~~bitMask b.idx }
  else if b.reservedValue then { a with value := a.value ||| bitMask b.idx }
  else { a with value := a.value &&& ~~~bitMask b.idx }

/-- The options about reserved bits: whether `VersionStorage` is among them, and `BitmaskReservedBits` with mask and value. Helper of `setOpts`, CommsSetField.cpp:770-852. -/
structure SetOpts where
  versionStorage : Bool
  reserved : Option (BitVec 64 × BitVec 64)
  deriving DecidableEq, Repr

/-- `commsAddReservedBitsOptInternal`, CommsSetField.cpp:770-852 -/
def setOpts (g : GVer) (fs fd : Nat) (st : SetF.State) : SetOpts :=
  let a := ((sortedBits st).map Prod.snd).foldl (resStep g (checkVersion g st.validCheckVersion) fs fd)
    { mask := ~~~0#64, value := if st.reservedBit then ~~~0#64 else 0#64 }
  let mask := a.mask &&& lenMask (bitsOf st)
  { versionStorage := a.version
    reserved := if mask = 0#64 then none else some (mask, a.value &&& a.mask &&& lenMask (bitsOf st)) }

/-- One iteration, CommsSetField.cpp:721-735 -/
def dfltStep (a : BitVec 64) (b : BitInfo) : BitVec 64 :=
  if 64 ≤ b.idx then a else if b.default then a ||| bitMask b.idx else a &&& ~~~bitMask b.idx

/-- `commsAddDefaultValueOptInternal`, CommsSetField.cpp:713-768: none, or the number and whether it is given as `DefaultBigUnsignedNumValue`. -/
def setDefault (st : SetF.State) : Option (Bool × BitVec 64) :=
  let v := ((sortedBits st).map Prod.snd).foldl dfltStep (if st.defaultBit then ~~~0#64 else 0#64) &&& lenMask (bitsOf st)
  if v = 0#64 then none else some (decide (st.type = some .uint64) || decide (st.type = some .uintvar), v)

/-! ## Names and access -/

/-- The name to be shown, CommsSetField.cpp:437-449 -/
def bitShown (p : Str × BitInfo) : Str := if p.2.displayName.isEmpty then p.1 else if p.2.displayName == ['_'] then [] else p.2.displayName

/-- The search for a name that is not deprecated, CommsSetField.cpp:467-479 -/
def freshName (g : GVer) (st : SetF.State) : List (Nat × Str) → Option Str
  | [] => none
  | e :: es =>
    match findBit st.bits e.2 with
    | none => freshName g st es
    | some b => if g.version < b.depr then some (bitShown (e.2, b)) else freshName g st es

/-- The name put into the table for an index, CommsSetField.cpp:458-485; `e` is its first entry. -/
def bitEntry (g : GVer) (st : SetF.State) (e : Nat × Str) : Str :=
  match findBit st.bits e.2 with
  | none => []
  | some b =>
    if !st.nonUnique || decide (g.version < b.depr) || isUnique st then bitShown (e.2, b)
    else (freshName g st (st.rev.filter fun x => x.1 == e.1)).getD (bitShown (e.2, b))

/-- The loop over the reverse table, CommsSetField.cpp:419-486: `nextBit` and the table, where `none` is `nullptr`. -/
def bitNamesLoop (g : GVer) (st : SetF.State) : Nat → List (Nat × Str) → List (Option Str)
  | _, [] => []
  | next, e :: es =>
    if e.1 < next then bitNamesLoop g st next es
    else List.replicate (e.1 - next) none ++ some (bitEntry g st e) :: bitNamesLoop g st (e.1 + 1) es

/-- The table of `bitName()`, CommsSetField.cpp:419-524 -/
def bitNames (g : GVer) (st : SetF.State) : List (Option Str) := bitNamesLoop g st 0 st.rev

/-- The macros that define indices and access functions. Helper of `bitAccess`, CommsSetField.cpp:539-678. -/
inductive BitAccess where
  /-- `COMMS_BITMASK_BITS_SEQ(names)` -/
  | seq (names : List Str)
  /-- `COMMS_BITMASK_BITS(name=idx, ...)` and `COMMS_BITMASK_BITS_ACCESS(names)` -/
  | listed (bits : List (Str × Nat))
  deriving DecidableEq, Repr

/-- `commsDefBitsAccessCodeInternal`, CommsSetField.cpp:539-678 -/
def bitAccess (st : SetF.State) : BitAccess :=
  let l := st.rev.filter fun e => decide (e.1 < 64)
  let used := l.foldl (fun a e => a ||| bitMask e.1) 0#64
  if isUnique st && decide ((used + 1#64) &&& used = 0#64) then .seq (l.map Prod.snd)
  else .listed (l.map fun e => (e.2, ((findBit st.bits e.2).map BitInfo.idx).getD 0))

end Commsdsl.Gen
