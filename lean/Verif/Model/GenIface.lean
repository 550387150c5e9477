import Verif.Model.GenCond
/-!
# Conditions on the fields of interfaces

A message may have conditions on the fields of its interface (transport fields): one that is checked when the message is read, and one that the constructor
establishes. An access named `N` stands for `Base::transportField_N()` and `Base::TransportField_N::`. Other texts in their place, which the generator also
produces, are names with the text in front. Left out: code injected by the user.
-/
namespace Commsdsl.Gen
open Commsdsl Text Fld

mutual
/-- `commsVerifyInnerRefImpl`: CommsField.cpp:728-732 (nothing is inside), int (CommsIntField.cpp:462-467), enum (CommsEnumField.cpp:539-544), set
    (CommsSetField.cpp:413-417), float (CommsFloatField.cpp:442-447), bitfield (CommsBitfieldField.cpp:319-327), bundle (CommsBundleField.cpp:530-538), ref
    (CommsRefField.cpp:197-201). A missing target would be a null dereference; accepted fields have one. -/
def verifyImpl : Field → Str → Bool
  | .int _ st, s => (IntF.findSpecial st.specials s).isSome
  | .enum _ st, s => (IntF.findSpecial st.values s).isSome
  | .set _ st, s => (SetF.findBit st.bits s).isSome
  | .float _ st, s => (FloatF.findSpecial st.specials s).isSome
  | .bitfield _ _ ms _, s => verifyIn ms s
  | .bundle _ ms _ _, s => verifyIn ms s
  | .ref _ _ t, s => verifySlot t s
  | .string .., _ | .data .., _ | .list .., _ | .variant .., _ | .optional .., _ => false
/-- The member by name: `commsParseMemRefInternal`, CommsBundleField.cpp:677-700, CommsBitfieldField.cpp:385-408 -/
def verifyIn : List Field → Str → Bool
  | [], _ => false
  | m :: ms, s => if m.name = beforeDot s then (afterDot s).isEmpty || verifyImpl m (afterDot s) else verifyIn ms s
/-- The target of a `<ref>`. Helper of `verifyImpl`, CommsField.cpp:728-732. -/
def verifySlot : Slot Field → Str → Bool
  | .none, _ => false
  | .ext m, s => s.isEmpty || verifyImpl m s
  | .own m, s => s.isEmpty || verifyImpl m s
end

/-- `commsVerifyInnerRef`, CommsField.cpp:349-356 -/
def verifyInner (f : Field) (s : Str) : Bool := s.isEmpty || verifyImpl f s

/-- `commsFindInterfaceFieldInternal`, CommsOptionalField.cpp:62-97: the fields of all interfaces of the current schema. -/
def findIface : List (List Field) → Str → Option Field
  | [], _ => none
  | fs :: ifs, r =>
    if r.isEmpty then none
    else match fs.find? fun f => f.name == beforeDot r && verifyInner f (afterDot r) with
    | some f => some f
    | none => findIface ifs r

/-- The field of an operand: `InterfaceRef`, or `SiblingRef` for which there are no fields here; CommsOptionalField.cpp:180-190, 214-223, 252-261. -/
def operandField (ifs : List (List Field)) (s : Str) : Option Field :=
  match s with
  | '%' :: _ => findIface ifs (operand s).2
  | _ => none

/-- `commsDslCondToStringFieldFieldCompInternal`, CommsOptionalField.cpp:752-789: the cast has `Field_` in front of the name. -/
def ifaceFieldComp (x : CondEnv) (f : Field) (s op : Str) (f' : Field) (s' : Str) : List Tok :=
  let r := valueAcc x.g x.pl f s
  let r' := valueAcc x.g x.pl f' s'
  guarded (joinAnd (checkToks (accessName f.name) (checks x.g x.pl f s [])) (checkToks (accessName f'.name) (checks x.g x.pl f' s' [])))
    (.get ⟨accessName f.name, r.1⟩ r.2 :: .cmp op ::
      castTok ("Field_".toList ++ accessName f.name) (castType x.g x.pl f s) (.get ⟨accessName f'.name, r'.1⟩ r'.2))

/-- A comparison, CommsOptionalField.cpp:174-240 -/
def ifaceComp (x : CondEnv) (ifs : List (List Field)) (e : CondM.Expr) : Res (List Tok) :=
  let l := operand e.left
  match operandField ifs e.left with
  | none => .ok []
  | some f =>
    if l.1 = '#' then .ok (sizeComp x f (afterDot l.2) (cppOp e.op) e.right)
    else if e.right.head? = some '%' ∨ e.right.head? = some '$' then
      match operandField ifs e.right with
      | none => .ok []
      | some f' => .ok (ifaceFieldComp x f (afterDot l.2) (cppOp e.op) f' (afterDot (operand e.right).2))
    else valueComp x f (afterDot l.2) (cppOp e.op) e.right

/-- A single check, CommsOptionalField.cpp:243-282 -/
def ifaceSingle (x : CondEnv) (ifs : List (List Field)) (e : CondM.Expr) : List Tok :=
  let r := operand e.right
  match operandField ifs e.right with
  | none => []
  | some f => if r.1 = '?' then existsComp x f (afterDot r.2) e.op else bitCheck x f (afterDot r.2) e.op

mutual
/-- `commsDslCondToString` with no sibling fields, CommsOptionalField.cpp:138-340 -/
def ifaceToks (x : CondEnv) (ifs : List (List Field)) : Bool → CondM.Cond → Res (List Tok)
  | _, .expr e => if e.left.isEmpty then .ok (ifaceSingle x ifs e) else ifaceComp x ifs e
  | wrap, .list t cs => (ifaceList x ifs (listTok t) cs).bind fun l => .ok (if wrap then .lpar :: l ++ [.rpar] else l)
/-- The loop over the conditions, CommsOptionalField.cpp:312-333 -/
def ifaceList (x : CondEnv) (ifs : List (List Field)) (op : Tok) : List CondM.Cond → Res (List Tok)
  | [] => .ok []
  | c :: cs => (ifaceToks x ifs true c).bind fun t => (ifaceList x ifs op cs).bind fun r =>
    .ok ((if t.isEmpty then [] else .lpar :: t ++ .rpar :: (if cs.isEmpty then [] else [op])) ++ r)
end

/-- `commsDefReadConditionsCodeInternal`, CommsMessage.cpp:1624-1651: `none` if there is no check. The check comes first in the read function
    (CommsMessage.cpp:1291-1370); where it is false the message is not read and the result is `InvalidMsgData`. -/
def readCheck (x : CondEnv) (ifs : List (List Field)) : Option CondM.Cond → Res (Option (List Tok))
  | none => .ok none
  | some c => (ifaceToks x ifs true c).bind fun t => .ok (if t.isEmpty then none else some t)

/-! ## The constructor -/

mutual
/-- `genProcessInnerRefImpl` gives a field: GenField.cpp:317-322 (nothing), GenBitfieldField.cpp:108-116, GenBundleField.cpp:107-115, GenVariantField.cpp:106-114,
    GenRefField.cpp:120-125 (a field without members gives a value, or nothing). -/
def innerImpl : Field → Str → Bool
  | .bitfield _ _ ms _, s => innerIn ms s
  | .bundle _ ms _ _, s => innerIn ms s
  | .variant _ _ ms, s => innerIn ms s
  | .ref _ _ t, s => innerSlot t s
  | .int .., _ | .enum .., _ | .set .., _ | .float .., _ | .string .., _ | .data .., _ | .list .., _ | .optional .., _ => false
/-- `genProcessMemberRef`, GenField.cpp:255-282; names are not empty. -/
def innerIn : List Field → Str → Bool
  | [], _ => false
  | m :: ms, s => if m.name = beforeDot s then (afterDot s).isEmpty || innerImpl m (afterDot s) else innerIn ms s
/-- The target of a `<ref>`. Helper of `innerImpl`, GenField.cpp:317-322. -/
def innerSlot : Slot Field → Str → Bool
  | .none, _ => false
  | .ext m, s => s.isEmpty || innerImpl m s
  | .own m, s => s.isEmpty || innerImpl m s
end

/-- `genProcessInnerRef` gives a field, GenField.cpp:243-253 -/
def innerField (f : Field) (s : Str) : Bool := s.isEmpty || innerImpl f s

/-- `commsFindValidInterfaceReferencedField`, CommsSchema.cpp:76-86, CommsNamespace.cpp:348-367, CommsInterface.cpp:112-143: in every interface only the first field
    of the name is looked at. -/
def findIfaceField : List (List Field) → Str → Option Field
  | [], _ => none
  | fs :: ifs, r =>
    match fs.find? fun f => f.name == beforeDot r with
    | some f => if innerField f (afterDot r) then some f else findIfaceField ifs r
    | none => findIfaceField ifs r

/-- A statement of the constructor: `Base::ACC.setBitValue_NAME(VAL);` or `Base::ACC.value() = static_cast<typename Base::CAST>(VAL);`, where the type may be
    missing. Helper of `constructBool`, CommsMessage.cpp:84-124. -/
inductive Stmt where
  | bit (a : Acc) (name : Str) (val : Bool)
  | value (a : Acc) (cast : Option (List Step)) (v : Tok)
  deriving DecidableEq, Repr

/-- `commsFieldAccessStr`, CommsField.cpp:288-295: the access to the value without its end. -/
def fieldAcc (g : GVer) (pl : Place) (f : Field) (s : Str) : Res (List Step) :=
  match valueAcc g pl f s with
  | (st, .value) => .ok st
  | _ => .ub

/-- `commsUpdateConstructBoolInternal`, CommsMessage.cpp:84-124 -/
def constructBool (x : CondEnv) (ifs : List (List Field)) (e : CondM.Expr) : Res (List Stmt) :=
  if !e.right.contains '.' then .ok []
  else
    let p := splitLast (e.right.drop 1)
    match findIfaceField ifs p.1 with
    | none => .ok []
    | some f => (fieldAcc x.g x.pl f (afterDot p.1)).bind fun st => .ok [.bit ⟨accessName f.name, st⟩ p.2 e.op.isEmpty]

/-- The value, CommsMessage.cpp:152-164: the access to the field on the right has no `Base::` in front. `none`: there is no such field. -/
def constructValue (x : CondEnv) (ifs : List (List Field)) (f : Field) (s right : Str) : Res (Option Tok) :=
  match right with
  | '%' :: r =>
    match findIfaceField ifs r with
    | none => .ok none
    | some f' =>
      let k := valueAcc x.g x.pl f' (afterDot r)
      .ok (some (.get ⟨"transportField_".toList ++ accessName f'.name, k.1⟩ k.2))
  | _ => (prepValue x.find (right.length + 1) f s right).bind fun t => .ok (some t)

/-- `commsUpdateConstructExprInternal`, CommsMessage.cpp:126-177 -/
def constructExpr (x : CondEnv) (ifs : List (List Field)) (e : CondM.Expr) : Res (List Stmt) :=
  if e.left.isEmpty then constructBool x ifs e
  else
    let l := e.left.drop 1
    match findIfaceField ifs l with
    | none => .ok []
    | some f => (fieldAcc x.g x.pl f (afterDot l)).bind fun st => (constructValue x ifs f (afterDot l) e.right).bind fun v =>
      match v with
      | none => .ok []
      | some t => .ok [.value ⟨accessName f.name, st⟩ (castType x.g x.pl f (afterDot l)) t]

mutual
/-- `commsUpdateConstructCodeInternal`, CommsMessage.cpp:179-199; lists are taken as `<and>`, which is checked when the definition is read. -/
def constructStmts (x : CondEnv) (ifs : List (List Field)) : CondM.Cond → Res (List Stmt)
  | .expr e => constructExpr x ifs e
  | .list _ cs => constructList x ifs cs
/-- The loop, CommsMessage.cpp:195-198 -/
def constructList (x : CondEnv) (ifs : List (List Field)) : List CondM.Cond → Res (List Stmt)
  | [] => .ok []
  | c :: cs => (constructStmts x ifs c).bind fun a => (constructList x ifs cs).bind fun b => .ok (a ++ b)
end

/-- `commsPrepareConstructCodeInternal`, CommsMessage.cpp:1754-1769 -/
def constructCode (x : CondEnv) (ifs : List (List Field)) : Option CondM.Cond → Res (List Stmt)
  | none => .ok []
  | some c => constructStmts x ifs c

end Commsdsl.Gen
