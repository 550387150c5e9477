import Verif.Model.Field
/-!
# References to fields, conditions, aliases (`ParseFieldImpl.cpp`, `ParseOptCondImpl.cpp`, `ParseAliasImpl.cpp`)
-/
namespace Commsdsl.Fld
open Commsdsl Text

/-- `ParseFieldRefType`, ParseFieldImpl.h:45-53 (`Invalid` is the absence of an info). -/
inductive RefType where
  | field | innerValue | size | exists
  deriving DecidableEq, Repr

/-- `ParseFieldRefInfo`, ParseFieldImpl.h:55-60 -/
structure RefInfo where
  field : Field
  type : RefType
  valueName : Str := []

/-- What parsing a field needs from the protocol object: `int` serves the kinds modelled before; `findField` is
    `ParseProtocolImpl::parseFindField` (all global fields recorded so far), `strToEnum` is `parseStrToEnumValue`, `strToData` is
    `parseStrToData(str, false, ..)`, `ifaceRefs` is `parseProcessInterfaceFieldRef` of the current schema, `fp` is what reading
    floating point values needs. Helper of `valueComparableImpl`, ParseIntFieldImpl.cpp:414-418. -/
structure FEnv where
  int : IntF.Env
  findField : Str → Option Field := fun _ => none
  strToEnum : Str → Option Int := fun _ => none
  strToData : Str → Option (List Nat) := fun _ => none
  ifaceRefs : Str → Res (List RefInfo) := fun _ => .ok []
  fp : FloatF.Fp := {}

/-- DSL version of the current schema. Helper of `verifySingle`, ParseOptCondImpl.cpp:327-336. -/
abbrev FEnv.dsl (e : FEnv) : Nat := e.int.dsl

/-! ## Sibling references -/

/-- `'#'` or `'?'`, ParseFieldImpl.cpp:392 -/
def isMark (c : Char) : Bool := c == '#' || c == '?'

/-- The text before the first `.`, ParseFieldImpl.cpp:418-419 -/
def beforeDot (s : Str) : Str := s.takeWhile (· != '.')

/-- The text behind the first `.`, empty if there is none, ParseFieldImpl.cpp:436-441 -/
def afterDot (s : Str) : Str := (s.dropWhile (· != '.')).drop 1

/-- The general part of `parseIsValidRefType`, ParseFieldImpl.cpp:467-483 -/
def generalRefType (f : Field) (t : RefType) : Bool :=
  t == .field || (t == .exists && (decide (0 < f.since) || decide (f.depr < Versions.notYet)))

mutual
/-- The reference types a kind accepts: `parseIsValidRefTypeImpl` of string (ParseStringFieldImpl.cpp:231-234), data
    (ParseDataFieldImpl.cpp:198-201), list (ParseListFieldImpl.cpp:225-228), optional (ParseOptionalFieldImpl.cpp:259-262), int/enum/set/float
    (inner values), ref (ParseRefFieldImpl.cpp:223-227); none for the others (ParseFieldImpl.cpp:671-674). -/
def refTypeImpl : Field → RefType → Res Bool
  | .int .., t | .enum .., t | .set .., t | .float .., t => .ok (t == .innerValue)
  | .string .., t | .data .., t | .list .., t => .ok (t == .size)
  | .optional .., t => .ok (t == .exists)
  | .ref _ _ s, t => refTypeSlot s t
  | .bitfield .., _ | .bundle .., _ | .variant .., _ => .ok false
/-- The target of a `<ref>`; without one it is a null dereference. Helper of `refTypeImpl`, ParseStringFieldImpl.cpp:231-234. -/
def refTypeSlot : Slot Field → RefType → Res Bool
  | .none, _ => .ub
  | .ext g, t => if generalRefType g t then .ok true else refTypeImpl g t
  | .own g, t => if generalRefType g t then .ok true else refTypeImpl g t
end

/-- `parseIsValidRefType`, ParseFieldImpl.cpp:467-483 -/
def isValidRefType (f : Field) (t : RefType) : Res Bool := if generalRefType f t then .ok true else refTypeImpl f t

/-- The marks in front of a reference, applied from the innermost to the outermost: the recursive calls at ParseFieldImpl.cpp:388-414. -/
def applyMark (ch : Char) (r : Option RefInfo) : Res (Option RefInfo) :=
  match r with
  | none => .ok none
  | some i =>
    if i.type ≠ .field then .ok none
    else do
      let t : RefType := if ch = '#' then .size else .exists
      let ok ← isValidRefType i.field t
      pure (if ok then some { i with type := t } else none)

/-- All marks. Helper of `siblingWith`, ParseFieldImpl.cpp:388-442. -/
def applyMarks : Str → Option RefInfo → Res (Option RefInfo)
  | [], r => .ok r
  | c :: cs, r => do
    let r' ← applyMarks cs r
    applyMark c r'

/-- An inner value of a field. Helper of `innerRef`, ParseFieldImpl.cpp:444-459. -/
def innerValue (f : Field) (found : Bool) (s : Str) : Option RefInfo := if found then some ⟨f, .innerValue, s⟩ else none

/-- `parseProcessSiblingRef`, ParseFieldImpl.cpp:388-442; `find` looks for the first sibling of a name and follows the rest of the reference
    there. (With no members at all the code asks `parseProcessInnerRefImpl`, whose result is the same: nothing.) -/
def siblingWith (find : Str → Str → Res (Option RefInfo)) (s : Str) : Res (Option RefInfo) :=
  let marks := s.takeWhile isMark
  let plain := s.dropWhile isMark
  if (beforeDot plain).isEmpty then .ok none
  else do
    let r ← find (beforeDot plain) (afterDot plain)
    applyMarks marks r

mutual
/-- `parseProcessInnerRef`, ParseFieldImpl.cpp:444-459, with `parseProcessInnerRefImpl` of int (ParseIntFieldImpl.cpp:493-505), enum
    (ParseEnumFieldImpl.cpp:226-239), set (ParseSetFieldImpl.cpp:236-249), float (ParseFloatFieldImpl.cpp:252-264), ref
    (ParseRefFieldImpl.cpp:217-221), optional (ParseOptionalFieldImpl.cpp:240-257: only `m_field`, which is null if the field is referenced). -/
def innerRef : Field → Str → Res (Option RefInfo)
  | .int c st, s =>
    .ok (if s.isEmpty then some ⟨.int c st, .field, []⟩ else innerValue (.int c st) (IntF.findSpecial st.specials s).isSome s)
  | .enum c st, s =>
    .ok (if s.isEmpty then some ⟨.enum c st, .field, []⟩ else innerValue (.enum c st) (IntF.findSpecial st.values s).isSome s)
  | .set c st, s =>
    .ok (if s.isEmpty then some ⟨.set c st, .field, []⟩ else innerValue (.set c st) (SetF.findBit st.bits s).isSome s)
  | .float c st, s =>
    .ok (if s.isEmpty then some ⟨.float c st, .field, []⟩ else innerValue (.float c st) (FloatF.findSpecial st.specials s).isSome s)
  | .bitfield c e ms cd, s => if s.isEmpty then .ok (some ⟨.bitfield c e ms cd, .field, []⟩) else siblingWith (findRef ms) s
  | .bundle c ms al cd, s => if s.isEmpty then .ok (some ⟨.bundle c ms al cd, .field, []⟩) else siblingWith (findRef ms) s
  | .string c st p, s => .ok (if s.isEmpty then some ⟨.string c st p, .field, []⟩ else none)
  | .data c st p, s => .ok (if s.isEmpty then some ⟨.data c st p, .field, []⟩ else none)
  | .list c st a b d e t, s => .ok (if s.isEmpty then some ⟨.list c st a b d e t, .field, []⟩ else none)
  | .ref c b t, s => if s.isEmpty then .ok (some ⟨.ref c b t, .field, []⟩) else targetRef t s
  | .optional c st f cd, s => if s.isEmpty then .ok (some ⟨.optional c st f cd, .field, []⟩) else optRef f s
  | .variant c d ms, s => if s.isEmpty then .ok (some ⟨.variant c d ms, .field, []⟩) else siblingWith (findRef ms) s
/-- The `std::find_if` by name, ParseFieldImpl.cpp:424-434, and the call at 441 -/
def findRef : List Field → Str → Str → Res (Option RefInfo)
  | [], _, _ => .ok none
  | f :: fs, n, rest => if f.name = n then innerRef f rest else findRef fs n rest
/-- Through a `<ref>`. Helper of `innerRef`, ParseFieldImpl.cpp:444-459. -/
def targetRef : Slot Field → Str → Res (Option RefInfo)
  | .none, _ => .ub
  | .ext f, s => innerRef f s
  | .own f, s => innerRef f s
/-- Into an `<optional>`. Helper of `innerRef`, ParseFieldImpl.cpp:444-459. -/
def optRef : Slot Field → Str → Res (Option RefInfo)
  | .none, _ => .ub
  | .ext _, _ => .ub
  | .own f, s => if beforeDot s = f.name then innerRef f (afterDot s) else .ok none
end

/-- `parseProcessSiblingRef`, ParseFieldImpl.cpp:388-442 -/
def siblingRef (fs : List Field) (s : Str) : Res (Option RefInfo) := siblingWith (findRef fs) s

/-! ## Comparable fields -/

/-- The semantic types compared as numbers, ParseFieldImpl.cpp:272-277 -/
def numericSem (f : Field) : Bool := f.sem == .version || f.sem == .length

mutual
/-- `parseIsComparableToValueImpl` of int (ParseIntFieldImpl.cpp:414-418), enum (ParseEnumFieldImpl.cpp:156-160), set
    (ParseSetFieldImpl.cpp:145-171), float (ParseFloatFieldImpl.cpp:226-230), string (ParseStringFieldImpl.cpp:190-215), ref
    (ParseRefFieldImpl.cpp:138-142); false for the others (ParseFieldImpl.cpp:563-566). -/
def valueComparableImpl (env : FEnv) : Field → Str → Res Bool
  | .int _ st, v => .ok (match st.type with | some t => (IntF.strToValue env.int t st.specials v).isSome | none => false)
  | .enum _ st, v => .ok (match st.num.type with | some t => (IntF.strToValue env.int t st.values v).isSome | none => false)
  | .set _ _, v =>
    if isValidRefName v then .ok (match env.int.strToNumeric v with | none => false | some (x, big) => big || decide (0 ≤ x))
    else .ok (match strToIntMax v with | none => false | some x => decide (0 ≤ x))
  | .float _ st, v => .ok (FloatF.strToValue env.fp st.specials v).isSome
  | .string _ _ _, v =>
    .ok (match v with
      | '^' :: r => (match env.findField r with | some g => g.kind == .string | none => false)
      | _ => true)
  | .ref _ _ s, v => valueComparableSlot env s v
  | .bitfield .., _ | .bundle .., _ | .data .., _ | .list .., _ | .optional .., _ | .variant .., _ => .ok false
/-- The target of a `<ref>`. Helper of `valueComparableImpl`, ParseIntFieldImpl.cpp:414-418. -/
def valueComparableSlot (env : FEnv) : Slot Field → Str → Res Bool
  | .none, _ => .ub
  | .ext g, v => if numericSem g then .ok (strToIntMax v).isSome else valueComparableImpl env g v
  | .own g, v => if numericSem g then .ok (strToIntMax v).isSome else valueComparableImpl env g v
end

/-- `parseIsComparableToValue`, ParseFieldImpl.cpp:270-286 -/
def comparableToValue (env : FEnv) (f : Field) (v : Str) : Res Bool :=
  if numericSem f then .ok (strToIntMax v).isSome else valueComparableImpl env f v

mutual
/-- The loop of `parseGetNonRefFieldKind`, ParseFieldImpl.cpp:873-883 -/
def throughRefs : Field → Option Field
  | .ref _ _ s => throughSlot s
  | .int c st => some (.int c st)
  | .enum c st => some (.enum c st)
  | .set c st => some (.set c st)
  | .float c st => some (.float c st)
  | .bitfield c e ms cd => some (.bitfield c e ms cd)
  | .bundle c ms al cd => some (.bundle c ms al cd)
  | .string c st p => some (.string c st p)
  | .data c st p => some (.data c st p)
  | .list c st a b d e t => some (.list c st a b d e t)
  | .optional c st f cd => some (.optional c st f cd)
  | .variant c d ms => some (.variant c d ms)
/-- The target of a `<ref>`; `none` is a null dereference. Helper of `throughRefs`, ParseFieldImpl.cpp:873-883. -/
def throughSlot : Slot Field → Option Field
  | .none => none
  | .ext g => throughRefs g
  | .own g => throughRefs g
end

/-- `parseIsComparableToFieldImpl` on a field that is not a `<ref>`: int, enum (ParseIntFieldImpl.cpp:420-424, ParseEnumFieldImpl.cpp:162-166),
    set (ParseSetFieldImpl.cpp:173-177); same kinds always (ParseFieldImpl.cpp:301-303). -/
def comparableKinds (a b : Kind) : Bool :=
  a == b || match a, b with
    | .int, .enum => true
    | .enum, .int => true
    | _, _ => false

/-- `parseIsComparableToField`, ParseFieldImpl.cpp:288-307, with ParseRefFieldImpl.cpp:144-148: both sides are followed through references. (A
    `<ref>` on the left is never of the kind of the right side once the latter is followed, so that its target decides.) -/
def comparableToField (f g : Field) : Res Bool :=
  match throughRefs f, throughRefs g with
  | some a, some b => .ok (comparableKinds a.kind b.kind)
  | _, _ => .ub

/-! ## Verification of conditions -/

/-- `std::stoll(str)` with base 10 succeeds, ParseOptCondImpl.cpp:602-612: white space, sign, at least one digit, value in range; the rest is
    ignored. -/
def stollDec (s : Str) : Bool :=
  let r := s.dropWhile isSpace
  let (neg, d) := match r with
    | '-' :: d => (true, d)
    | '+' :: d => (false, d)
    | d => (false, d)
  match d with
  | c :: _ =>
    let m := (scanDigits 10 0 d).1
    isDigit c && (if neg then decide (m ≤ 9223372036854775808) else decide (m ≤ 9223372036854775807))
  | [] => false

/-- `std::any_of` over results. Helper of `verifySiblingComp`, ParseOptCondImpl.cpp:418-504. -/
def anyRes {α : Type} (p : α → Res Bool) : List α → Res Bool
  | [] => .ok false
  | a :: as => do
    let b ← p a
    if b then pure true else anyRes p as

/-- `parseVerifySingleElementCheck`, ParseOptCondImpl.cpp:327-336 -/
def verifySingle (env : FEnv) (fields : List Field) (right : Str) : Res Bool :=
  match right with
  | '$' :: r => do
    let i ← siblingRef fields r
    match i with
    | none => pure false
    | some i =>
      if i.type = .innerValue then pure true
      else if i.type ≠ .exists then pure false
      else pure (Dsl.isSupported env.dsl .existsCheckInConditionals)
  | _ :: r => do
    let is ← env.ifaceRefs r
    pure (is.any fun i => i.type == .innerValue && i.field.kind == .set)
  | [] => .ub

/-- `parseVerifySiblingComparison`, ParseOptCondImpl.cpp:418-504; `l` is the left side without `$`. -/
def verifySiblingComp (env : FEnv) (fields : List Field) (l right : Str) : Res Bool := do
  let i ← siblingRef fields l
  match i with
  | none => pure false
  | some i =>
    if i.type = .size then pure (Dsl.isSupported env.dsl .sizeCompInConditionals && stollDec right)
    else if i.type ≠ .field then pure false
    else match right with
    | '$' :: r => do
      let j ← siblingRef fields r
      match j with
      | none => pure false
      | some j => if j.type ≠ .field then pure false else comparableToField i.field j.field
    | '%' :: r => do
      let js ← env.ifaceRefs r
      anyRes (fun (j : RefInfo) => comparableToField i.field j.field) (js.filter fun j => j.type == .field)
    | _ => comparableToValue env i.field right

/-- The right side of a comparison of interface fields `lf`. Helper of `verifyIfaceComp`, ParseOptCondImpl.cpp:506-620. -/
def verifyIfaceRight (env : FEnv) (fields : List Field) (lf : List RefInfo) (right : Str) : Res Bool :=
  match right with
  | '$' :: r => do
    let j ← siblingRef fields r
    match j with
    | none => pure false
    | some j =>
      if j.type ≠ .field then pure false
      else anyRes (fun (i : RefInfo) => comparableToField i.field j.field) lf
  | '%' :: r => do
    let js ← env.ifaceRefs r
    anyRes (fun (i : RefInfo) => anyRes (fun (j : RefInfo) => comparableToField i.field j.field)
      (js.filter fun j => j.type == .field)) lf
  | _ => anyRes (fun (i : RefInfo) => comparableToValue env i.field right) lf

/-- `parseVerifyInterfaceComparison`, ParseOptCondImpl.cpp:506-620; `l` is the left side without `%`. -/
def verifyIfaceComp (env : FEnv) (fields : List Field) (l right : Str) : Res Bool := do
  let ls ← env.ifaceRefs l
  if ls.any fun i => i.type == .size then pure (Dsl.isSupported env.dsl .sizeCompInConditionals && stollDec right)
  else
    let lf := ls.filter fun i => i.type == .field
    if lf.isEmpty then pure false else verifyIfaceRight env fields lf right

/-- `parseVerifyImpl`, ParseOptCondImpl.cpp:164-171 ff. and 403-414. Access to the first character of an empty side is out of bounds. -/
def verifyExpr (env : FEnv) (fields : List Field) (e : CondM.Expr) : Res Bool :=
  match e.left with
  | [] => verifySingle env fields e.right
  | '$' :: l => if e.right.isEmpty then .ub else verifySiblingComp env fields l e.right
  | _ :: l => if e.right.isEmpty then .ub else verifyIfaceComp env fields l e.right

mutual
/-- `parseVerify`, ParseOptCondImpl.cpp:711-719 for lists -/
def verifyCond (env : FEnv) (fields : List Field) : CondM.Cond → Res Bool
  | .expr e => verifyExpr env fields e
  | .list _ cs => verifyConds env fields cs
/-- `std::all_of`. Helper of `verifyCond`, ParseOptCondImpl.cpp:711-719. -/
def verifyConds (env : FEnv) (fields : List Field) : List CondM.Cond → Res Bool
  | [] => .ok true
  | c :: cs => do
    let b ← verifyCond env fields c
    if b then verifyConds env fields cs else pure false
end

/-! ## Detached prefixes -/

/-- `parseFindSibling`, ParseFieldImpl.cpp:843-871. The path gets shorter with every step (`fuel`). -/
def findSibling : Nat → List Field → Str → Option Field
  | 0, _, _ => none
  | fuel + 1, fs, path =>
    match fs.find? fun f => f.name == beforeDot path with
    | none => none
    | some f => if path.contains '.' then findSibling fuel f.members (afterDot path) else some f

/-- The check of a detached prefix: ParseStringFieldImpl.cpp:126-143, ParseDataFieldImpl.cpp:121-141 and `parseVerifySiblingsForPrefix` of
    lists. -/
def verifyDetached (fields : List Field) (path : Str) : Res Bool :=
  if path.isEmpty then .ok true
  else match findSibling (path.length + 1) fields path with
  | none => .ok false
  | some s => match throughRefs s with
    | none => .ub
    | some t => .ok (t.kind == .int || s.sem == .length)

/-- `parseVerifySiblings`: ParseStringFieldImpl.cpp:126-143, ParseDataFieldImpl.cpp:121-141, ParseListFieldImpl.cpp:116-122,
    ParseOptionalFieldImpl.cpp:143-151, nothing for the other kinds (ParseFieldImpl.cpp:548-551). -/
def verifySiblings (env : FEnv) (fields : List Field) : Field → Res Bool
  | .string _ st _ => verifyDetached fields st.detached
  | .data _ st _ => verifyDetached fields st.detached
  | .list _ st _ _ _ _ _ => do
    let a ← verifyDetached fields st.detachedCount
    if !a then pure false
    else do
      let b ← verifyDetached fields st.detachedLen
      if !b then pure false else verifyDetached fields st.detachedElemLen
  | .optional _ _ _ (some c) => verifyCond env fields c
  | _ => .ok true

/-! ## Semantic types, bit lengths -/

mutual
/-- `parseVerifySemanticTypeImpl`: ParseIntFieldImpl.cpp:479-491, ParseEnumFieldImpl.cpp:221-224, ParseBitfieldFieldImpl.cpp:212-221,
    ParseBundleFieldImpl.cpp:256-265, ParseRefFieldImpl.cpp:211-215 (`t` is not `none`, so that the target's `parseVerifySemanticType` asks its
    `Impl`); otherwise false (ParseFieldImpl.cpp:645-648). -/
def verifySemImpl (dsl : Nat) (t : Sem) : Field → Res Bool
  | .int .. => .ok (t == .version || (t == .length && Dsl.isSupported dsl .semanticTypeLength))
  | .enum .. => .ok (t == .messageId)
  | .bitfield .. | .bundle .. =>
    .ok (t == .length && Dsl.isSupported dsl .semanticTypeLength && Dsl.isSupported dsl .nonIntSemanticTypeLength)
  | .ref _ _ s => verifySemSlot dsl t s
  | .set .. | .float .. | .string .. | .data .. | .list .. | .optional .. | .variant .. => .ok false
/-- The target of a `<ref>`. Helper of `verifySemImpl`, ParseIntFieldImpl.cpp:479-491. -/
def verifySemSlot (dsl : Nat) (t : Sem) : Slot Field → Res Bool
  | .none => .ub
  | .ext g => verifySemImpl dsl t g
  | .own g => verifySemImpl dsl t g
end

/-- `parseVerifySemanticType`, ParseFieldImpl.cpp:309-312 -/
def verifySem (dsl : Nat) (f : Field) (t : Sem) : Res Bool := if t = .none then .ok true else verifySemImpl dsl t f

mutual
/-- `parseValidateBitLengthValue`: ParseIntFieldImpl.cpp:459-477, ParseEnumFieldImpl.cpp:201-219, ParseSetFieldImpl.cpp:222-234,
    ParseRefFieldImpl.cpp:205-209, otherwise ParseFieldImpl.cpp:637-643. -/
def validateBits (n : Nat) : Field → Res Bool
  | .int _ st => .ok (match st.type with | some t => IntF.validateBitLength t st n | none => !decide (st.length * 8 < n))
  | .enum _ st => .ok (match st.num.type with | some t => IntF.validateBitLength t st.num n | none => !decide (st.num.length * 8 < n))
  | .set _ st => .ok (!decide (st.length * 8 < n))
  | .ref _ _ s => validateBitsSlot n s
  | .float .. | .bitfield .. | .bundle .. | .string .. | .data .. | .list .. | .optional .. | .variant .. => .ok false
/-- The target of a `<ref>`. Helper of `validateBits`, ParseIntFieldImpl.cpp:459-477. -/
def validateBitsSlot (n : Nat) : Slot Field → Res Bool
  | .none => .ub
  | .ext g => validateBits n g
  | .own g => validateBits n g
end

/-! ## Aliases -/

mutual
/-- `parseVerifyAliasedMember`, ParseFieldImpl.cpp:357-364, ParseBitfieldFieldImpl.cpp:223-244, ParseBundleFieldImpl.cpp:267-288. -/
def verifyAliased : Field → Str → Bool
  | .bitfield _ _ ms _, s => s.isEmpty || aliasedIn ms (beforeDot s) s
  | .bundle _ ms _ _, s => s.isEmpty || aliasedIn ms (beforeDot s) s
  | .int .., s | .enum .., s | .set .., s | .float .., s | .string .., s | .data .., s | .list .., s | .ref .., s | .optional .., s
  | .variant .., s => s.isEmpty
/-- The search by name; `s` is the whole path. Helper of `verifyAliased`, ParseFieldImpl.cpp:357-364. -/
def aliasedIn : List Field → Str → Str → Bool
  | [], _, _ => false
  | f :: fs, n, s =>
    if n = f.name then (if s.contains '.' then verifyAliased f (afterDot s) else true)
    else aliasedIn fs n s
end

/-- `checkSameNameFunc`, ParseAliasImpl.cpp:95-107. The alias name is not empty. -/
def sameAliasName (a n : Str) : Bool :=
  match a, n with
  | x :: xs, y :: ys => toLowerC x == toLowerC y && xs == ys
  | [], [] => true
  | _, _ => false

/-- `parseVerifyAlias`, ParseAliasImpl.cpp:90-173 -/
def verifyAlias (aliases : List Alias) (fields : List Field) (a : Alias) : Bool :=
  if fields.any fun f => sameAliasName a.name f.name then false
  else if aliases.any fun b => sameAliasName a.name b.name then false
  else match fields.find? fun f => beforeDot a.fieldName == f.name with
  | none => false
  | some f => if a.fieldName.contains '.' then verifyAliased f (afterDot a.fieldName) else true

end Commsdsl.Fld
