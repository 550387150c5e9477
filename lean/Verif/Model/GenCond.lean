import Verif.Model.GenScope
import Verif.Model.GenSchema
import Verif.Model.GenText
/-!
# Conditions in the generated code

The condition of an `<optional>` and the validity condition of a bundle, bitfield or message become a C++ expression. The expression is modelled as a
list of tokens; line breaks and indentation, which the templates add, are left out. Access to a field is a token made of the functions that are
called, a cast has the type names. Left out: conditions that refer to fields of an interface, code injected by the user.
-/
namespace Commsdsl.Gen
open Commsdsl Text Fld Msg Frm Proto

/-! ## Tokens -/

/-- `.field()` or `Field::`; `.field_NAME()` or `Field_NAME::`. Helper of `layer`, CommsField.cpp:300-303, 309-312, 325-329, 336-339. -/
inductive Step where
  | field
  | member (name : Str)
  deriving DecidableEq, Repr

/-- `field_NAME()` or `Field_NAME::`, followed by steps. Helper of `sizeExpr`, CommsOptionalField.cpp:801-822. -/
structure Acc where
  name : Str
  steps : List Step
  deriving DecidableEq, Repr

/-- What is called at the end of an access: `.getValue()`, `.getBitValue_NAME()`, `.getValue().size()`, `???` (which does not compile). Helper of `valueAccImpl`, CommsField.cpp:690-694. -/
inductive Last where
  | value
  | bit (name : Str)
  | size
  | unexpected
  deriving DecidableEq, Repr

/-- Tokens of an expression: `(`, `)`, `&&`, `||`, `!`, a comparison operator, `ACC.doesExist()`, `ACC` with its end, `ACC.getValue().empty()`,
    `static_cast<typename TYPE::ValueType>(`, `static_cast<std::size_t>(`, other text, the text of a string literal. Helper of `prepValue`, CommsField.cpp:344-347. -/
inductive Tok where
  | lpar
  | rpar
  | and
  | or
  | not
  | cmp (op : Str)
  | exists (a : Acc)
  | get (a : Acc) (last : Last)
  | empty (a : Acc)
  | cast (a : Acc)
  | castSize
  | text (s : Str)
  | quoted (s : Str)
  deriving DecidableEq, Repr

/-! ## Access to fields -/

/-- `commsIsVersionOptional`, CommsField.cpp:358-361. One description of versions serves all fields: those of other schemas are left out. -/
def versionOpt (g : GVer) (pl : Place) (f : Field) : Bool := isVersionOptional g pl f.since f.depr f.removed

/-- `optPrefix` and `prefixExtra`, CommsField.cpp:300-303, 309-312, 325-329, 336-339 -/
def layer (g : GVer) (pl : Place) (f : Field) : List Step := if versionOpt g pl f then [.field] else []

/-- The parent of the members of a field. Helper of `valueAccImpl`, CommsField.cpp:690-694. -/
def inField (pl : Place) (f : Field) : Place := .field f.since pl

mutual
/-- `commsValueAccessStrImpl`: CommsField.cpp:690-694, and of set (CommsSetField.cpp:396-411), bitfield (CommsBitfieldField.cpp:221-236), bundle
    (CommsBundleField.cpp:431-446), optional (CommsOptionalField.cpp:503-517), ref (CommsRefField.cpp:167-171). The asserted facts are not checked. A
    missing target would be a null dereference; accepted fields have one. -/
def valueAccImpl (g : GVer) (pl : Place) : Field → Str → List Step × Last
  | .set _ st, s => if s.isEmpty then ([], .value) else if (SetF.findBit st.bits s).isSome then ([], .bit s) else ([], .unexpected)
  | .bitfield c e ms cd, s => if s.isEmpty then ([], .value) else valueAccIn g (inField pl (.bitfield c e ms cd)) ms s
  | .bundle c ms al cd, s => if s.isEmpty then ([], .value) else valueAccIn g (inField pl (.bundle c ms al cd)) ms s
  | .optional c st f cd, s => if s.isEmpty then ([], .value) else valueAccOpt g (inField pl (.optional c st f cd)) f (afterDot s)
  | .ref _ _ t, s => valueAccRef g t s
  | .int .., _ | .enum .., _ | .float .., _ | .string .., _ | .data .., _ | .list .., _ | .variant .., _ => ([], .value)
/-- The member by name: `commsParseMemRefInternal`, CommsBundleField.cpp:677-700, CommsBitfieldField.cpp:385-408 -/
def valueAccIn (g : GVer) (pl : Place) : List Field → Str → List Step × Last
  | [], _ => ([], .unexpected)
  | m :: ms, s =>
    if m.name = beforeDot s then
      let r := valueAccImpl g pl m (afterDot s)
      (.member (accessName m.name) :: (layer g pl m ++ r.1), r.2)
    else valueAccIn g pl ms s
/-- The field of an `<optional>`: a global one or its own. Helper of `valueAccImpl`, CommsField.cpp:690-694. -/
def valueAccOpt (g : GVer) (pl : Place) : Slot Field → Str → List Step × Last
  | .none, _ => ([], .unexpected)
  | .ext m, s =>
    let r := valueAccImpl g .other m s
    (.field :: (layer g .other m ++ r.1), r.2)
  | .own m, s =>
    let r := valueAccImpl g pl m s
    (.field :: (layer g pl m ++ r.1), r.2)
/-- The target of a `<ref>`, which is a global field. Helper of `valueAccImpl`, CommsField.cpp:690-694. -/
def valueAccRef (g : GVer) : Slot Field → Str → List Step × Last
  | .none, _ => ([], .unexpected)
  | .ext m, s =>
    let r := valueAccImpl g .other m s
    (layer g .other m ++ r.1, r.2)
  | .own m, s =>
    let r := valueAccImpl g .other m s
    (layer g .other m ++ r.1, r.2)
end

/-- `commsValueAccessStr`, CommsField.cpp:298-305 -/
def valueAcc (g : GVer) (pl : Place) (f : Field) (s : Str) : List Step × Last :=
  let r := valueAccImpl g pl f s
  (layer g pl f ++ r.1, r.2)

mutual
/-- `commsSizeAccessStrImpl`: CommsField.cpp:696-702 (an empty text), string (CommsStringField.cpp:372-376), data (CommsDataField.cpp:436-440), list
    (CommsListField.cpp:548-552), bitfield (CommsBitfieldField.cpp:238-253), bundle (CommsBundleField.cpp:448-463), optional
    (CommsOptionalField.cpp:519-533), ref (CommsRefField.cpp:173-177). `none` is the empty text. -/
def sizeAccImpl (g : GVer) (pl : Place) : Field → Str → Option (List Step × Last)
  | .string .., _ | .data .., _ | .list .., _ => some ([], .size)
  | .bitfield c e ms cd, s => if s.isEmpty then none else sizeAccIn g (inField pl (.bitfield c e ms cd)) ms s
  | .bundle c ms al cd, s => if s.isEmpty then none else sizeAccIn g (inField pl (.bundle c ms al cd)) ms s
  | .optional c st f cd, s => if s.isEmpty then none else sizeAccOpt g (inField pl (.optional c st f cd)) f (afterDot s)
  | .ref _ _ t, s => sizeAccRef g t s
  | .int .., _ | .enum .., _ | .set .., _ | .float .., _ | .variant .., _ => none
/-- The member by name. Helper of `sizeAccImpl`, CommsField.cpp:696-702. -/
def sizeAccIn (g : GVer) (pl : Place) : List Field → Str → Option (List Step × Last)
  | [], _ => some ([], .unexpected)
  | m :: ms, s =>
    if m.name = beforeDot s then (sizeAccImpl g pl m (afterDot s)).map fun r => (.member (accessName m.name) :: (layer g pl m ++ r.1), r.2)
    else sizeAccIn g pl ms s
/-- The field of an `<optional>`. Helper of `sizeAccImpl`, CommsField.cpp:696-702. -/
def sizeAccOpt (g : GVer) (pl : Place) : Slot Field → Str → Option (List Step × Last)
  | .none, _ => none
  | .ext m, s => (sizeAccImpl g .other m s).map fun r => (.field :: (layer g .other m ++ r.1), r.2)
  | .own m, s => (sizeAccImpl g pl m s).map fun r => (.field :: (layer g pl m ++ r.1), r.2)
/-- The target of a `<ref>`. Helper of `sizeAccImpl`, CommsField.cpp:696-702. -/
def sizeAccRef (g : GVer) : Slot Field → Str → Option (List Step × Last)
  | .none, _ => none
  | .ext m, s => (sizeAccImpl g .other m s).map fun r => (layer g .other m ++ r.1, r.2)
  | .own m, s => (sizeAccImpl g .other m s).map fun r => (layer g .other m ++ r.1, r.2)
end

/-- `commsSizeAccessStr`, CommsField.cpp:307-314 -/
def sizeAcc (g : GVer) (pl : Place) (f : Field) (s : Str) : Option (List Step × Last) :=
  (sizeAccImpl g pl f s).map fun r => (layer g pl f ++ r.1, r.2)

mutual
/-- `commsCompOptChecksImpl`: CommsField.cpp:704-709 (nothing), bitfield (CommsBitfieldField.cpp:255-271), bundle (CommsBundleField.cpp:465-481), optional
    (CommsOptionalField.cpp:535-552), ref (CommsRefField.cpp:179-183); `pre` is the access so far, the result are the accesses for which existence is
    checked. -/
def checksImpl (g : GVer) (pl : Place) : Field → Str → List Step → List (List Step)
  | .bitfield c e ms cd, s, pre => if s.isEmpty then [] else checksIn g (inField pl (.bitfield c e ms cd)) ms s pre
  | .bundle c ms al cd, s, pre => if s.isEmpty then [] else checksIn g (inField pl (.bundle c ms al cd)) ms s pre
  | .optional c st f cd, s, pre =>
    pre :: (if s.isEmpty then [] else checksOpt g (inField pl (.optional c st f cd)) f (afterDot s) (pre ++ [.field]))
  | .ref _ _ t, s, pre => checksRef g t s pre
  | .int .., _, _ | .enum .., _, _ | .set .., _, _ | .float .., _, _ | .string .., _, _ | .data .., _, _ | .list .., _, _ | .variant .., _, _ => []
/-- The member by name. Helper of `checksImpl`, CommsField.cpp:704-709. -/
def checksIn (g : GVer) (pl : Place) : List Field → Str → List Step → List (List Step)
  | [], _, _ => []
  | m :: ms, s, pre =>
    if m.name = beforeDot s then
      (if versionOpt g pl m then [pre ++ [.member (accessName m.name)]] else []) ++
        checksImpl g pl m (afterDot s) (pre ++ [.member (accessName m.name)] ++ layer g pl m)
    else checksIn g pl ms s pre
/-- The field of an `<optional>`. Helper of `checksImpl`, CommsField.cpp:704-709. -/
def checksOpt (g : GVer) (pl : Place) : Slot Field → Str → List Step → List (List Step)
  | .none, _, _ => []
  | .ext m, s, pre => (if versionOpt g .other m then [pre] else []) ++ checksImpl g .other m s (pre ++ layer g .other m)
  | .own m, s, pre => (if versionOpt g pl m then [pre] else []) ++ checksImpl g pl m s (pre ++ layer g pl m)
/-- The target of a `<ref>`. Helper of `checksImpl`, CommsField.cpp:704-709. -/
def checksRef (g : GVer) : Slot Field → Str → List Step → List (List Step)
  | .none, _, _ => []
  | .ext m, s, pre => (if versionOpt g .other m then [pre] else []) ++ checksImpl g .other m s (pre ++ layer g .other m)
  | .own m, s, pre => (if versionOpt g .other m then [pre] else []) ++ checksImpl g .other m s (pre ++ layer g .other m)
end

/-- `commsCompOptChecks`, CommsField.cpp:316-332 -/
def checks (g : GVer) (pl : Place) (f : Field) (s : Str) (pre : List Step) : List (List Step) :=
  (if versionOpt g pl f then [pre] else []) ++ checksImpl g pl f s (pre ++ layer g pl f)

mutual
/-- `commsCompValueCastTypeImpl`: CommsField.cpp:711-715, string (CommsStringField.cpp:388-394, no cast), bitfield (CommsBitfieldField.cpp:273-289), bundle
    (CommsBundleField.cpp:483-499), optional (CommsOptionalField.cpp:554-568), ref (CommsRefField.cpp:185-189). A member that is not found gives `???`;
    it does not happen together with a value access that compiles, and `none` stands for it as well. -/
def castImpl (g : GVer) (pl : Place) : Field → Str → Option (List Step)
  | .string .., _ => none
  | .bitfield c e ms cd, s => if s.isEmpty then some [] else castIn g (inField pl (.bitfield c e ms cd)) ms s
  | .bundle c ms al cd, s => if s.isEmpty then some [] else castIn g (inField pl (.bundle c ms al cd)) ms s
  | .optional c st f cd, s => if s.isEmpty then some [] else castOpt g (inField pl (.optional c st f cd)) f (afterDot s)
  | .ref _ _ t, s => castRef g t s
  | .int .., _ | .enum .., _ | .set .., _ | .float .., _ | .data .., _ | .list .., _ | .variant .., _ => some []
/-- The member by name. Helper of `castImpl`, CommsField.cpp:711-715. -/
def castIn (g : GVer) (pl : Place) : List Field → Str → Option (List Step)
  | [], _ => none
  | m :: ms, s =>
    if m.name = beforeDot s then (castImpl g pl m (afterDot s)).map fun r => .member (accessName m.name) :: (layer g pl m ++ r)
    else castIn g pl ms s
/-- The field of an `<optional>`. Helper of `castImpl`, CommsField.cpp:711-715. -/
def castOpt (g : GVer) (pl : Place) : Slot Field → Str → Option (List Step)
  | .none, _ => none
  | .ext m, s => (castImpl g .other m s).map fun r => .field :: (layer g .other m ++ r)
  | .own m, s => (castImpl g pl m s).map fun r => .field :: (layer g pl m ++ r)
/-- The target of a `<ref>`. Helper of `castImpl`, CommsField.cpp:711-715. -/
def castRef (g : GVer) : Slot Field → Str → Option (List Step)
  | .none, _ => none
  | .ext m, s => (castImpl g .other m s).map fun r => layer g .other m ++ r
  | .own m, s => (castImpl g .other m s).map fun r => layer g .other m ++ r
end

/-- `commsCompValueCastType`, CommsField.cpp:334-342 -/
def castType (g : GVer) (pl : Place) (f : Field) (s : Str) : Option (List Step) := (castImpl g pl f s).map fun r => layer g pl f ++ r

/-! ## Values -/

/-- `genUnexpectedValueStr`, strings.cpp:413-417 -/
def unexpectedStr : Str := "???".toList

/-- `valToString`, CommsIntField.cpp:395-403 -/
def intText (t : IntF.IntType) (v : Int) : Res Str := if IntF.isUnsigned t then .ok (numToStringU (castU64 v) 0) else numToStringS v

/-- The name of the field and of the value in a reference, CommsIntField.cpp:430-441 -/
def splitValueRef (v : Str) : Str × Str :=
  match v with
  | '@' :: _ =>
    if v.contains '.' then
      if (afterDot v).contains '.' then (beforeDot v ++ '.' :: beforeDot (afterDot v), afterDot (afterDot v)) else (v, [])
    else (v, [])
  | _ => if v.contains '.' then (beforeDot v, afterDot v) else (v, [])

/-- The part of the text before the last `.` and the one behind it, CommsEnumField.cpp:513, 520, 529 -/
def splitLast (v : Str) : Str × Str :=
  ((v.reverse.dropWhile (· != '.')).drop 1 |>.reverse, (v.reverse.takeWhile (· != '.')).reverse)

/-- A string field as the target of `^name`. Helper of `stringText`, CommsStringField.cpp:396-444. -/
def stringDefault : Option Field → Option Str
  | some (.string _ st _) => some st.default
  | _ => none

/-- The value of the text for a string field without the quotes, CommsStringField.cpp:396-444 -/
def stringText (find : Str → Option Field) (v : Str) : Str :=
  match v with
  | '^' :: r => (stringDefault (find r)).getD v
  | _ => if v.contains '^' && (v.takeWhile (· != '^')).all (· == '\\') then v.drop 1 else v

/-- The values of an enum. Helper of `enumPrep`, CommsEnumField.cpp:490-537. -/
def enumValues : Option Field → Option (List (Str × IntF.SpecialInfo))
  | some (.enum _ st) => some st.values
  | _ => none

/-- `commsCompPrepValueStrImpl` of an enum, CommsEnumField.cpp:490-537 -/
def enumPrep (find : Str → Option Field) (st : EnumF.State) (v : Str) : Res Str :=
  if v.isEmpty then numToStringS st.num.default
  else match stoll v with
  | some x => numToStringS x
  | none =>
    match IntF.findSpecial st.values v with
    | some i => numToStringS i.value
    | none =>
      if !v.contains '.' then .ok v
      else match enumValues (find (splitLast v).1) with
      | none => .ok v
      | some vs => match IntF.findSpecial vs (splitLast v).2 with
        | none => .ok v
        | some i => numToStringS i.value

/-- Reads the number in the text of an int field, CommsIntField.cpp:410-419 -/
def intNumber (t : IntF.IntType) (v : Str) : Option (Res Str) :=
  if IntF.isUnsigned t then (stoull v).map fun n => .ok (numToStringU n 0) else (stoll v).map numToStringS

mutual
/-- `commsCompPrepValueStr`, CommsField.cpp:344-347, with the `Impl` functions: CommsField.cpp:717-721 (the text as it is), int (CommsIntField.cpp:391-460), enum,
    string, bitfield (CommsBitfieldField.cpp:291-307), bundle (CommsBundleField.cpp:501-518), optional (CommsOptionalField.cpp:570-584), ref
    (CommsRefField.cpp:191-195). `find` is `genFindField` of the generator; `fuel` bounds the steps from an int field to the field of a value reference. -/
def prepValue (find : Str → Option Field) : Nat → Field → Str → Str → Res Tok
  | n, .int _ st, _, v => (intPrep find n st v).bind fun t => .ok (.text t)
  | _, .enum _ st, _, v => (enumPrep find st v).bind fun t => .ok (.text t)
  | _, .string .., _, v => .ok (.quoted (stringText find v))
  | n, .bitfield _ _ ms _, s, v => if s.isEmpty then .ok (.text v) else prepValueIn find n ms s v
  | n, .bundle _ ms _ _, s, v => if s.isEmpty then .ok (.text v) else prepValueIn find n ms s v
  | n, .optional _ _ f _, s, v => if s.isEmpty then .ok (.text v) else prepValueSlot find n f (afterDot s) v
  | n, .ref _ _ t, s, v => prepValueSlot find n t s v
  | _, .set .., _, v | _, .float .., _, v | _, .data .., _, v | _, .list .., _, v | _, .variant .., _, v => .ok (.text v)
  termination_by n f => (n, sizeOf f + 2)
/-- The member by name. Helper of `prepValue`, CommsField.cpp:344-347. -/
def prepValueIn (find : Str → Option Field) : Nat → List Field → Str → Str → Res Tok
  | _, [], _, v => .ok (.text v)
  | n, m :: ms, s, v => if m.name = beforeDot s then prepValue find n m (afterDot s) v else prepValueIn find n ms s v
  termination_by n ms => (n, sizeOf ms + 2)
/-- The field of an `<optional>`, the target of a `<ref>`. Helper of `prepValue`, CommsField.cpp:344-347. -/
def prepValueSlot (find : Str → Option Field) : Nat → Slot Field → Str → Str → Res Tok
  | _, .none, _, _ => .ub
  | n, .ext m, s, v => prepValue find n m s v
  | n, .own m, s, v => prepValue find n m s v
  termination_by n s => (n, sizeOf s + 2)
/-- `commsCompPrepValueStrImpl` of an int field, CommsIntField.cpp:391-460 -/
def intPrep (find : Str → Option Field) : Nat → IntF.State → Str → Res Str
  | n, st, v =>
    match st.type with
    | none => .ub
    | some t =>
      if v.isEmpty then intText t st.default
      else match intNumber t v with
      | some r => r
      | none => match IntF.findSpecial st.specials v with
        | some i => intText t i.value
        | none => intRef find n st v
  termination_by n => (n, 1)
/-- The loop that is left with `break`, CommsIntField.cpp:427-454, and what follows: a value of another field. -/
def intRef (find : Str → Option Field) : Nat → IntF.State → Str → Res Str
  | 0, _, _ => .ok unexpectedStr
  | n + 1, st, v =>
    match find (splitValueRef v).1 with
    | none => .ok unexpectedStr
    | some f => (prepValue find n f [] (splitValueRef v).2).bind fun k =>
      match k with
      | .text x => if x.isEmpty || x = unexpectedStr then .ok unexpectedStr else intPrep find n st x
      | .quoted x => intPrep find n st ('"' :: x ++ ['"'])
      | _ => .ub
  termination_by n => (n, 0)
end

/-! ## Expressions -/

/-- `parseDperandInfoInternal`, ParseOptCondImpl.cpp:71-114: the access mode and the text behind it. -/
def operand (s : Str) : Char × Str :=
  match s.drop 1 with
  | '#' :: r => ('#', r)
  | '?' :: r => ('?', r)
  | r => ('.', r)

/-- `opFunc`, CommsOptionalField.cpp:163-170 -/
def cppOp (op : Str) : Str := if op = "=".toList then "==".toList else op

/-- Existence checks of an access, joined by `&&`. Helper of `valueComp`, CommsOptionalField.cpp:719-750. -/
def checkToks (name : Str) : List (List Step) → List Tok
  | [] => []
  | [c] => [.exists ⟨name, c⟩]
  | c :: cs => .exists ⟨name, c⟩ :: .and :: checkToks name cs

/-- The template `COND &&\n(EXPR)`, CommsOptionalField.cpp:738-749, 777-788, 826-837; only the expression without checks. -/
def guarded (cond expr : List Tok) : List Tok := if cond.isEmpty then expr else cond ++ .and :: .lpar :: expr ++ [.rpar]

/-- Joined by `&&`. Helper of `fieldComp`, CommsOptionalField.cpp:752-789. -/
def joinAnd (a b : List Tok) : List Tok := if a.isEmpty then b else if b.isEmpty then a else a ++ .and :: b

/-- `static_cast<...>(VALUE)` if there is a type. Helper of `valueComp`, CommsOptionalField.cpp:719-750. -/
def castTok (name : Str) (ty : Option (List Step)) (v : Tok) : List Tok :=
  match ty with
  | none => [v]
  | some p => [.cast ⟨name, p⟩, v, .rpar]

/-- What the generator knows: the versions, the place of the fields, `genFindField`. Helper of `valueComp`, CommsOptionalField.cpp:719-750. -/
structure CondEnv where
  g : GVer
  pl : Place
  find : Str → Option Field

/-- `commsDslCondToStringFieldValueCompInternal`, CommsOptionalField.cpp:719-750 -/
def valueComp (x : CondEnv) (f : Field) (s op v : Str) : Res (List Tok) := do
  let t ← prepValue x.find (v.length + 1) f s v
  let r := valueAcc x.g x.pl f s
  pure (guarded (checkToks (accessName f.name) (checks x.g x.pl f s []))
    (.get ⟨accessName f.name, r.1⟩ r.2 :: .cmp op :: castTok (accessName f.name) (castType x.g x.pl f s) t))

/-- `commsDslCondToStringFieldFieldCompInternal`, CommsOptionalField.cpp:752-789 -/
def fieldComp (x : CondEnv) (f : Field) (s op : Str) (f' : Field) (s' : Str) : List Tok :=
  let r := valueAcc x.g x.pl f s
  let r' := valueAcc x.g x.pl f' s'
  guarded (joinAnd (checkToks (accessName f.name) (checks x.g x.pl f s [])) (checkToks (accessName f'.name) (checks x.g x.pl f' s' [])))
    (.get ⟨accessName f.name, r.1⟩ r.2 :: .cmp op :: castTok (accessName f.name) (castType x.g x.pl f s) (.get ⟨accessName f'.name, r'.1⟩ r'.2))

/-- The size and a number, or whether it is empty, CommsOptionalField.cpp:801-822. `genStrReplace` replaces `.size()`. -/
def sizeExpr (a : Acc) (last : Last) (op v : Str) : List Tok :=
  if op = "==".toList ∧ v = "0".toList ∧ last = .size then [.empty a]
  else if op = "!=".toList ∧ v = "0".toList ∧ last = .size then [.not, .empty a]
  else [.get a last, .cmp op, .castSize, .text v, .rpar]

/-- `commsDslCondToStringFieldSizeCompInternal`, CommsOptionalField.cpp:791-837. A field without size has an empty text for it; only the name of the field
    is left then, to which nothing can be compared. -/
def sizeComp (x : CondEnv) (f : Field) (s op v : Str) : List Tok :=
  let r := (sizeAcc x.g x.pl f s).getD ([], .unexpected)
  guarded (checkToks (accessName f.name) (checks x.g x.pl f s [])) (sizeExpr ⟨accessName f.name, r.1⟩ r.2 op v)

/-- `commsDslCondToStringFieldExistsCompInternal`, CommsOptionalField.cpp:839-866; the empty list is the empty text. -/
def existsComp (x : CondEnv) (f : Field) (s op : Str) : List Tok :=
  match checkToks (accessName f.name) (checks x.g x.pl f s []) with
  | [] => []
  | c :: cs => if op.isEmpty then c :: cs else .not :: .lpar :: (c :: cs) ++ [.rpar]

/-- The check of a bit, CommsOptionalField.cpp:278-282 -/
def bitCheck (x : CondEnv) (f : Field) (s op : Str) : List Tok :=
  let r := valueAcc x.g x.pl f s
  joinAnd (checkToks (accessName f.name) (checks x.g x.pl f s []))
    ((if op.isEmpty then [] else [.not]) ++ [.get ⟨accessName f.name, r.1⟩ r.2])

/-- `findSiblingFieldFunc`, CommsOptionalField.cpp:145-160 -/
def findSib (fs : List Field) (s : Str) : Option Field := fs.find? fun f => f.name == beforeDot s

/-- A comparison, CommsOptionalField.cpp:180-240. `none`: the empty text, because a field was not found. References to interfaces are left out. -/
def compToks (x : CondEnv) (fs : List Field) (e : CondM.Expr) : Res (List Tok) :=
  let l := operand e.left
  match findSib fs l.2 with
  | none => .ok []
  | some f =>
    if l.1 = '#' then .ok (sizeComp x f (afterDot l.2) (cppOp e.op) e.right)
    else match e.right with
    | '$' :: _ =>
      let r := operand e.right
      match findSib fs r.2 with
      | none => .ok []
      | some f' => .ok (fieldComp x f (afterDot l.2) (cppOp e.op) f' (afterDot r.2))
    | _ => valueComp x f (afterDot l.2) (cppOp e.op) e.right

/-- A single check, CommsOptionalField.cpp:243-282 -/
def singleToks (x : CondEnv) (fs : List Field) (e : CondM.Expr) : List Tok :=
  let r := operand e.right
  match findSib fs r.2 with
  | none => []
  | some f => if r.1 = '?' then existsComp x f (afterDot r.2) e.op else bitCheck x f (afterDot r.2) e.op

/-- The first part of `commsDslCondToString`, CommsOptionalField.cpp:144-283 -/
def exprToks (x : CondEnv) (fs : List Field) (e : CondM.Expr) : Res (List Tok) :=
  if e.left.isEmpty then .ok (singleToks x fs e) else compToks x fs e

/-- `AndOp`, `OrOp`, CommsOptionalField.cpp:294-303 -/
def listTok : CondM.ListType → Tok
  | .and => .and
  | .or => .or

mutual
/-- `commsDslCondToString`, CommsOptionalField.cpp:138-340 -/
def condToks (x : CondEnv) (fs : List Field) : Bool → CondM.Cond → Res (List Tok)
  | _, .expr e => exprToks x fs e
  | wrap, .list t cs => (listToks x fs (listTok t) cs).bind fun l => .ok (if wrap then .lpar :: l ++ [.rpar] else l)
/-- The loop over the conditions, CommsOptionalField.cpp:312-333: the operator follows every text but that of the last condition. -/
def listToks (x : CondEnv) (fs : List Field) (op : Tok) : List CondM.Cond → Res (List Tok)
  | [] => .ok []
  | c :: cs => (condToks x fs true c).bind fun t => (listToks x fs op cs).bind fun r =>
    .ok ((if t.isEmpty then [] else .lpar :: t ++ .rpar :: (if cs.isEmpty then [] else [op])) ++ r)
end

/-- The condition in the refresh function of an optional field, CommsOptionalField.cpp:443-477: `none` if there is no function. Then the mode of the field
    is not changed; otherwise it becomes `Exists` or `Missing` by the condition. -/
def refreshCond (x : CondEnv) (fs : List Field) : Option CondM.Cond → Res (Option (List Tok))
  | none => .ok none
  | some c => (condToks x fs false c).bind fun t => .ok (if t.isEmpty then none else some t)

/-- The condition in `valid()` of a bundle or bitfield (CommsBundleField.cpp:334-361, CommsBitfieldField.cpp:167-194) or message
    (CommsMessage.cpp:1650-1692), besides the validity of all fields. -/
def validCondToks (x : CondEnv) (fs : List Field) : Option CondM.Cond → Res (Option (List Tok))
  | none => .ok none
  | some c => (condToks x fs true c).bind fun t => .ok (if t.isEmpty then none else some t)

end Commsdsl.Gen
