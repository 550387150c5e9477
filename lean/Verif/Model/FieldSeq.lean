import Verif.Model.FieldRef
/-!
# `<string>`, `<data>` and `<list>` fields (`ParseStringFieldImpl.cpp`, `ParseDataFieldImpl.cpp`, `ParseListFieldImpl.cpp`)
-/
namespace Commsdsl.Fld
open Commsdsl Text

/-- What `ParseFieldImpl::parse` has prepared when `parseImpl` runs. `child` creates a field of the name of a node and parses it with this
    field as parent; `detachedAllowed` is `parseCheckDetachedPrefixAllowed()` (ParseFieldImpl.cpp:885-914): the parent is a bundle or a message. -/
structure BCtx where
  ic : IntF.Ctx
  detachedAllowed : Bool
  child : Xml → Res Field

/-- The collected properties. Helper of `prefixFromRef`, ParseStringFieldImpl.cpp:445-501. -/
abbrev BCtx.props (b : BCtx) : Props := b.ic.props
/-- The XML node. Helper of `prefixAsChild`, ParseStringFieldImpl.cpp:503-571. -/
abbrev BCtx.node (b : BCtx) : Xml := b.ic.node

/-- A field that can hold a length: `<int>`, or `semanticType="length"` (ParseStringFieldImpl.cpp:485, 560, ParseListFieldImpl.cpp:658, 737). -/
def holdsLength (f : Field) : Bool := f.kind == .int || f.sem == .length

/-- A length or count prefix: text of a detached one, and the real one. Helper of `prefixFromRef`, ParseStringFieldImpl.cpp:445-501. -/
structure Pfx where
  detached : Str := []
  slot : Slot Field := .none

/-- The prefix as property: `parseCheckPrefixFromRef`, ParseStringFieldImpl.cpp:445-501, ParseDataFieldImpl.cpp:339-396,
    ParseListFieldImpl.cpp:609-667. -/
def prefixFromRef (env : FEnv) (b : BCtx) (key : Str) (cur : Pfx) : Res Pfx :=
  if !b.props.validateSingle key then .err
  else match b.props.find key with
  | none => .ok cur
  | some [] => .err
  | some (ch :: rest) =>
    if ch = '$' then
      if !b.detachedAllowed then .err
      else if (normalise rest).isEmpty then .err
      else .ok ⟨normalise rest, .none⟩
    else match env.findField (ch :: rest) with
    | none => .err
    | some f => if holdsLength f then .ok ⟨[], .ext f⟩ else .err

/-- The prefix as child element: `parseCheckPrefixAsChild`, ParseStringFieldImpl.cpp:503-571, ParseDataFieldImpl.cpp:398-470,
    ParseListFieldImpl.cpp:669-747. -/
def prefixAsChild (b : BCtx) (key : Str) (cur : Pfx) : Res Pfx :=
  match getChildren b.node [key] with
  | [] => .ok cur
  | [ch] =>
    match getChildren ch with
    | [] => if (b.props.find key).isSome then .ok cur else .err
    | [fieldNode] =>
      if (b.props.find key).isSome then .err
      else do
        let f ← b.child fieldNode
        if holdsLength f then pure ⟨[], .own f⟩ else .err
    | _ => .err
  | _ => .err

/-- Both ways to define a prefix. Helper of `seqUpdatePrefix`, ParseStringFieldImpl.cpp:354-378. -/
def updatePfx (env : FEnv) (b : BCtx) (key : Str) (cur : Pfx) : Res Pfx := do
  let p ← prefixFromRef env b key cur
  prefixAsChild b key p

/-! ## Strings and data -/

/-- `parseUpdateEncoding`, ParseStringFieldImpl.cpp:302-314 -/
def updateEncoding {α : Type} (b : BCtx) (st : SeqState α) : Res (SeqState α) :=
  if !b.props.validateSingle "encoding".toList then .err
  else match b.props.find "encoding".toList with
  | none => .ok st
  | some s => .ok { st with encoding := s }

/-- `parseUpdateLength`, ParseStringFieldImpl.cpp:316-352, ParseDataFieldImpl.cpp:271-298 (no zero suffix there) -/
def seqUpdateLength {α : Type} (b : BCtx) (pfx : Slot Field) (st : SeqState α) : Res (SeqState α) :=
  if !b.props.validateSingle "length".toList then .err
  else match b.props.find "length".toList with
  | none => .ok st
  | some s => match strToUnsigned s with
    | none => .err
    | some n =>
      if n = 0 then .err
      else if st.length = n then .ok st
      else if pfx.has then .err
      else if st.zeroSuffix then .err
      else .ok { st with length := n }

/-- `parseUpdatePrefix`, ParseStringFieldImpl.cpp:354-378, ParseDataFieldImpl.cpp:300-317 -/
def seqUpdatePrefix {α : Type} (env : FEnv) (b : BCtx) (st : SeqState α) (pfx : Slot Field) : Res (SeqState α × Slot Field) := do
  let p ← updatePfx env b "lengthPrefix".toList ⟨st.detached, pfx⟩
  Res.check (!(p.slot.has && decide (st.length ≠ 0)))
  Res.check (!(p.slot.has && st.zeroSuffix))
  pure ({ st with detached := p.detached }, p.slot)

/-- `parseUpdateZeroTerm`, ParseStringFieldImpl.cpp:380-421 -/
def updateZeroTerm {α : Type} (b : BCtx) (pfx : Slot Field) (st : SeqState α) : Res (SeqState α) :=
  if !b.props.validateSingle "zeroTermSuffix".toList then .err
  else match b.props.find "zeroTermSuffix".toList with
  | none => .ok st
  | some s => match strToBool s with
    | none => .err
    | some v =>
      if v = st.zeroSuffix then .ok st
      else if !v then .ok { st with zeroSuffix := v }
      else if st.length ≠ 0 then .err
      else if pfx.has then .err
      else .ok { st with zeroSuffix := v }

/-- `parseUpdateDefaultValue`, ParseStringFieldImpl.cpp:236-262, ParseDataFieldImpl.cpp:203-231; `val` is `parseStrToValue`. -/
def seqUpdateDefault {α : Type} (val : Str → Option (List α)) (b : BCtx) (st : SeqState α) : Res (SeqState α) :=
  if !b.props.validateSingle "defaultValue".toList then .err
  else match b.props.find "defaultValue".toList with
  | none => .ok st
  | some s => match val s with
    | none => .err
    | some v => .ok { st with default := v }

/-- `parseUpdateDefaultValidValue`, ParseStringFieldImpl.cpp:264-300, ParseDataFieldImpl.cpp:233-269 -/
def seqUpdateDefaultValid {α : Type} (dsl : Nat) (val : Str → Option (List α)) (b : BCtx) (st : SeqState α) : Res (SeqState α) :=
  if !b.props.validateSingle "defaultValidValue".toList then .err
  else match b.props.find "defaultValidValue".toList with
  | none => .ok st
  | some s =>
    if !Dsl.isSupported dsl .validValueInStringAndData then .ok st
    else match val s with
    | none => .err
    | some v => .ok { st with default := v, valid := st.valid ++ [(v, b.ic.since, b.ic.depr)] }

/-- `parseCheckValidValueAsAttr`, ParseStringFieldImpl.cpp:573-599, ParseDataFieldImpl.cpp:472-499 -/
def validAsAttr {α : Type} (dsl : Nat) (val : Str → Option (List α)) (b : BCtx) (st : SeqState α) : Res (SeqState α) :=
  match (nodeProps b.node).find "validValue".toList with
  | none => .ok st
  | some s =>
    if !Dsl.isSupported dsl .validValueInStringAndData then .ok st
    else match val s with
    | none => .err
    | some v => .ok { st with valid := st.valid ++ [(v, b.ic.since, b.ic.depr)] }

/-- `parseCheckValidValueAsChild`, ParseStringFieldImpl.cpp:601-631, ParseDataFieldImpl.cpp:501-532 -/
def validAsChild {α : Type} (env : FEnv) (val : Str → Option (List α)) (b : BCtx) (ch : Xml) (st : SeqState α) : Res (SeqState α) := do
  let s ← Res.ofOption (nodeValue ch)
  if !Dsl.isSupported env.dsl .validValueInStringAndData then pure st
  else do
    let v ← Res.ofOption (val s)
    let (since, depr) ← Res.ofOption (Versions.getAndCheckNode env.int.schemaVersion ch b.ic.since b.ic.depr)
    pure { st with valid := st.valid ++ [(v, since, depr)] }

/-- The loop over `<validValue>` children. Helper of `seqUpdateValid`, ParseStringFieldImpl.cpp:423-443. -/
def validChildren {α : Type} (env : FEnv) (val : Str → Option (List α)) (b : BCtx) : List Xml → SeqState α → Res (SeqState α)
  | [], st => .ok st
  | ch :: chs, st => do
    let st' ← validAsChild env val b ch st
    validChildren env val b chs st'

/-- Lexicographic order: `std::string::operator<` and `std::lexicographical_compare`. Helper of `seqUpdateValid`, ParseStringFieldImpl.cpp:423-443. -/
def lexLt {α : Type} (lt : α → α → Bool) : List α → List α → Bool
  | _, [] => false
  | [], _ :: _ => true
  | a :: as, b :: bs => if lt a b then true else if lt b a then false else lexLt lt as bs

/-- `parseUpdateValidValues`, ParseStringFieldImpl.cpp:423-443, ParseDataFieldImpl.cpp:319-337 -/
def seqUpdateValid {α : Type} (env : FEnv) (val : Str → Option (List α)) (lt : α → α → Bool) (b : BCtx) (st : SeqState α) :
    Res (SeqState α) := do
  let st ← validAsAttr env.dsl val b st
  let st ← validChildren env val b (getChildren b.node ["validValue".toList]) st
  pure { st with valid := sortBy (fun x y => lexLt lt x.1 y.1) st.valid }

/-- `parseStrToValue` of strings, ParseStringFieldImpl.cpp:644-647 -/
def stringValue (env : FEnv) (s : Str) : Option Str :=
  strToStringValue (Dsl.isSupported env.dsl .fieldValueReference) env.int.strToString s

/-- `parseImpl`, ParseStringFieldImpl.cpp:114-124 -/
def stringImpl (env : FEnv) (b : BCtx) (st : SeqState Char) (pfx : Slot Field) : Res (SeqState Char × Slot Field) := do
  let st ← updateEncoding b st
  let st ← seqUpdateLength b pfx st
  let (st, pfx) ← seqUpdatePrefix env b st pfx
  let st ← updateZeroTerm b pfx st
  let st ← seqUpdateDefault (stringValue env) b st
  let st ← seqUpdateDefaultValid env.dsl (stringValue env) b st
  let st ← seqUpdateValid env (stringValue env) (fun a b => decide (a < b)) b st
  pure (st, pfx)

/-- A hexadecimal digit after `std::tolower`, ParseDataFieldImpl.cpp:561-569 -/
def isHexDigit (c : Char) : Bool :=
  let l := toLowerC c
  isDigit l || (decide ('a' ≤ l) && decide (l ≤ 'f'))

/-- The loop that makes bytes from pairs of digits (`std::stoul(byteStr, 0, 16)`), ParseDataFieldImpl.cpp:575-592 -/
def hexBytes : Str → List Nat
  | a :: b :: rest => (digitVal a * 16 + digitVal b) :: hexBytes rest
  | _ => []

/-- Text to bytes, ParseDataFieldImpl.cpp:550-595 -/
def hexValue (s : Str) : Option (List Nat) :=
  let adj := s.filter (· != ' ')
  if adj.length % 2 ≠ 0 then none
  else if !adj.all isHexDigit then none
  else some (hexBytes adj)

/-- `parseStrToValue`, ParseDataFieldImpl.cpp:544-596 -/
def dataValue (env : FEnv) (s : Str) : Option (List Nat) :=
  match s with
  | '^' :: r => if Dsl.isSupported env.dsl .fieldValueReference then env.strToData r else hexValue s
  | _ => hexValue s

/-- `parseImpl`, ParseDataFieldImpl.cpp:113-121 -/
def dataImpl (env : FEnv) (b : BCtx) (st : SeqState Nat) (pfx : Slot Field) : Res (SeqState Nat × Slot Field) := do
  let st ← seqUpdateLength b pfx st
  let (st, pfx) ← seqUpdatePrefix env b st pfx
  let st ← seqUpdateDefault (dataValue env) b st
  let st ← seqUpdateDefaultValid env.dsl (dataValue env) b st
  let st ← seqUpdateValid env (dataValue env) (fun a b => decide (a < b)) b st
  pure (st, pfx)

/-! ## Lists -/

/-- The fields of a list. Helper of `updateCount`, ParseListFieldImpl.cpp:274-305. -/
structure ListSlots where
  elem : Slot Field := .none
  cnt : Slot Field := .none
  len : Slot Field := .none
  elemLen : Slot Field := .none
  term : Slot Field := .none

/-- All kinds of fields (`parseSupportedTypes`, ParseFieldImpl.cpp:200-212), also the element types of lists
    (`parseListSupportedTypes`, ParseListFieldImpl.cpp) -/
def kindTable : List (Str × Kind) := [
  ("bitfield".toList, .bitfield), ("bundle".toList, .bundle), ("data".toList, .data), ("enum".toList, .enum),
  ("float".toList, .float), ("int".toList, .int), ("list".toList, .list), ("optional".toList, .optional), ("ref".toList, .ref),
  ("set".toList, .set), ("string".toList, .string), ("variant".toList, .variant)]

/-- The names of all kinds. ParseFieldImpl.cpp:763-802. -/
def fieldTypes : List Str := kindTable.map Prod.fst

/-- `parseCheckElementFromRef`, ParseListFieldImpl.cpp:466-488 -/
def elementFromRef (env : FEnv) (b : BCtx) (cur : Slot Field) : Res (Slot Field) :=
  if !b.props.validateSingle "element".toList then .err
  else match b.props.find "element".toList with
  | none => .ok cur
  | some s => match env.findField s with
    | none => .err
    | some f => .ok (.ext f)

/-- The node that defines the element: ParseListFieldImpl.cpp:497-587; `ok none` if there is none. -/
def elementNode (b : BCtx) : Res (Option Xml) :=
  let children := getChildren b.node ["element".toList]
  let types := getChildren b.node fieldTypes
  if 1 < children.length then .err
  else if !children.isEmpty && !types.isEmpty then .err
  else match types with
  | [t] =>
    if (getChildren b.node).length ≠ 1 then .err
    else if (b.props.find "element".toList).isSome then .err
    else .ok (some t)
  | _ :: _ :: _ => .err
  | [] => match children with
    | [] => .ok none
    | ch :: _ =>
      let fields := getChildren ch
      if 1 < fields.length then .err
      else if (b.props.find "element".toList).isNone then
        match fields with
        | f :: _ => .ok (some f)
        | [] => .err
      else if ((nodeProps b.node).find "fields".toList).isSome then .err
      else .ok none

/-- `parseCheckElementAsChild`, ParseListFieldImpl.cpp:490-603 -/
def elementAsChild (b : BCtx) (cur : Slot Field) : Res (Slot Field) := do
  let n ← elementNode b
  match n with
  | none => pure cur
  | some n => do
    let f ← b.child n
    pure (.own f)

/-- `parseUpdateElement`, ParseListFieldImpl.cpp:258-272 -/
def updateElement (env : FEnv) (b : BCtx) (cur : Slot Field) : Res (Slot Field) := do
  let e ← elementFromRef env b cur
  let e ← elementAsChild b e
  Res.check e.has
  pure e

/-- `parseUpdateCount`, ParseListFieldImpl.cpp:274-305 -/
def updateCount (b : BCtx) (sl : ListSlots) (st : ListState) : Res ListState :=
  if !b.props.validateSingle "count".toList then .err
  else match b.props.find "count".toList with
  | none => .ok st
  | some s => match strToUnsigned s with
    | none => .err
    | some n =>
      if n = 0 then .err
      else if sl.cnt.has || sl.len.has || sl.term.has || !st.detachedCount.isEmpty || !st.detachedLen.isEmpty ||
          !st.detachedElemLen.isEmpty || !st.detachedTerm.isEmpty then .err
      else .ok { st with count := n }

/-- A prefix is given in one of the two ways. Helper of `updateCountPrefix`, ParseListFieldImpl.cpp:307-337. -/
def given (s : Slot Field) (detached : Str) : Bool := s.has || !detached.isEmpty

/-- `parseUpdateCountPrefix`, ParseListFieldImpl.cpp:307-337 -/
def updateCountPrefix (env : FEnv) (b : BCtx) (x : ListState × ListSlots) : Res (ListState × ListSlots) := do
  let p ← updatePfx env b "countPrefix".toList ⟨x.1.detachedCount, x.2.cnt⟩
  let st := { x.1 with detachedCount := p.detached }
  let sl := { x.2 with cnt := p.slot }
  Res.check (!given sl.cnt st.detachedCount ||
    (decide (st.count = 0) && !given sl.len st.detachedLen && !given sl.term st.detachedTerm))
  pure (st, sl)

/-- `parseUpdateLengthPrefix`, ParseListFieldImpl.cpp:339-369 -/
def updateLengthPrefix (env : FEnv) (b : BCtx) (x : ListState × ListSlots) : Res (ListState × ListSlots) := do
  let p ← updatePfx env b "lengthPrefix".toList ⟨x.1.detachedLen, x.2.len⟩
  let st := { x.1 with detachedLen := p.detached }
  let sl := { x.2 with len := p.slot }
  Res.check (!given sl.len st.detachedLen ||
    (decide (st.count = 0) && !given sl.cnt st.detachedCount && !given sl.term st.detachedTerm))
  pure (st, sl)

/-- The flag itself, ParseListFieldImpl.cpp:395-412 -/
def elemFixedProp (b : BCtx) (cur : Bool) : Res Bool :=
  if !b.props.validateSingle "elemFixedLength".toList then .err
  else match b.props.find "elemFixedLength".toList with
  | none => .ok cur
  | some s => Res.ofOption (strToBool s)

/-- `parseUpdateElemFixedLength`, ParseListFieldImpl.cpp:389-422 -/
def updateElemFixed (b : BCtx) (elem : Slot Field) (st : ListState) : Res ListState := do
  let v ← elemFixedProp b st.elemFixedLength
  if !v then pure { st with elemFixedLength := v }
  else do
    let mn ← minOrUb elem
    let mx ← maxOrUb elem
    Res.check (decide (mn = mx))
    pure { st with elemFixedLength := v }

/-- `parseUpdateElemLengthPrefix`, ParseListFieldImpl.cpp:371-387 -/
def updateElemLenPrefix (env : FEnv) (b : BCtx) (x : ListState × ListSlots) : Res (ListState × ListSlots) := do
  let p ← updatePfx env b "elemLengthPrefix".toList ⟨x.1.detachedElemLen, x.2.elemLen⟩
  let st := { x.1 with detachedElemLen := p.detached }
  Res.check (st.detachedElemLen.isEmpty || st.elemFixedLength)
  pure (st, { x.2 with elemLen := p.slot })

/-- `parseUpdateTermSuffix`, ParseListFieldImpl.cpp:424-464 -/
def updateTermSuffix (env : FEnv) (b : BCtx) (x : ListState × ListSlots) : Res (ListState × ListSlots) := do
  let p ← updatePfx env b "termSuffix".toList ⟨x.1.detachedTerm, x.2.term⟩
  if given p.slot p.detached && !Dsl.propertySupported env.dsl "termSuffix".toList then
    pure ({ x.1 with detachedTerm := [] }, { x.2 with term := .none })
  else do
    let st := { x.1 with detachedTerm := p.detached }
    let sl := { x.2 with term := p.slot }
    Res.check (!given sl.term st.detachedTerm ||
      (decide (st.count = 0) && !given sl.cnt st.detachedCount && !given sl.len st.detachedLen))
    pure (st, sl)

/-- `parseImpl`, ParseListFieldImpl.cpp:124-135 -/
def listImpl (env : FEnv) (b : BCtx) (st : ListState) (sl : ListSlots) : Res (ListState × ListSlots) := do
  let e ← updateElement env b sl.elem
  let sl := { sl with elem := e }
  let st ← updateCount b sl st
  let x ← updateCountPrefix env b (st, sl)
  let x ← updateLengthPrefix env b x
  let st ← updateElemFixed b x.2.elem x.1
  let x ← updateElemLenPrefix env b (st, x.2)
  updateTermSuffix env b x

end Commsdsl.Fld
