import Verif.Model.Xml
import Verif.Model.Dsl
/-!
# Conditions of optional fields, bundles, messages (`lib/src/parse/ParseOptCondImpl.cpp`), parsing part
-/
namespace Commsdsl.CondM
open Commsdsl Text

/-- `ParseOptCondExprImpl`: `m_left`, `m_op`, `m_right`, ParseOptCondImpl.h:128-130 -/
structure Expr where
  left : Str := []
  op : Str := []
  right : Str := []
  deriving DecidableEq, Repr

/-- `ParseOptCondList::ParseType`, include/commsdsl/parse/ParseOptCondList.h -/
inductive ListType where
  | and | or
  deriving DecidableEq, Repr

/-- `ParseOptCondImpl` with its two subclasses. ParseOptCondImpl.h:33-137 and 139-175. -/
inductive Cond where
  | expr (e : Expr)
  | list (t : ListType) (conds : List Cond)

/-- Outcome of looking for an operator. Helper of `searchOp`, ParseOptCondImpl.cpp:193-211. -/
inductive Found where
  | none
  | invalid
  | at (before after : Str)
  deriving DecidableEq, Repr

/-- The `while` loop of `parseCheckComparison`, ParseOptCondImpl.cpp:193-211: the first occurrence not preceded by `\`; an occurrence at the
    very beginning is an error. `before` (reversed) / `rest` is the position `opPos` the search starts from. -/
def searchOp (op : Str) : Str → Str → Found
  | _, [] => .none
  | before, c :: cs =>
    if op.isPrefixOf (c :: cs) then
      match before with
      | [] => .invalid
      | p :: _ => if p = '\\' then searchOp op (c :: before) cs else .at before.reverse ((c :: cs).drop op.length)
    else searchOp op (c :: before) cs

/-- `s.substr(0, s.find_last_not_of(' ') + 1)`. Helper of `checkComparison`, ParseOptCondImpl.cpp:177-257. -/
def dropRightSpaces (s : Str) : Str := (s.reverse.dropWhile (· == ' ')).reverse

/-- `s.substr(s.find_first_not_of(' '))`. Helper of `checkComparison`, ParseOptCondImpl.cpp:177-257. -/
def dropLeftSpaces (s : Str) : Str := s.dropWhile (· == ' ')

/-- The check of the first character of the left side, ParseOptCondImpl.cpp:236-251: `$`, or `%` where interface references are
    supported. -/
def derefOk (dsl : Nat) : Str → Bool
  | '$' :: _ => true
  | '%' :: _ => Dsl.isSupported dsl .interfaceFieldReference
  | _ => false

/-- `parseCheckComparison` on an expression without value so far, ParseOptCondImpl.cpp:177-257; `ok none`: operator not found. -/
def checkComparison (dsl : Nat) (s op : Str) : Res (Option Expr) :=
  match searchOp op [] s with
  | .none => .ok none
  | .invalid => .err
  | .at before after =>
    let l := dropRightSpaces before
    let r := dropLeftSpaces after
    if l.isEmpty then .err
    else if r.isEmpty then .err
    else if derefOk dsl l then .ok (some ⟨l, op, r⟩)
    else .err

/-- `parseCheckBool`, ParseOptCondImpl.cpp:259-325 -/
def checkBool (dsl : Nat) : Str → Res Expr
  | '$' :: cs => .ok ⟨[], [], '$' :: cs⟩
  | '%' :: cs => if Dsl.isSupported dsl .interfaceFieldReference then .ok ⟨[], [], '%' :: cs⟩ else .err
  | '!' :: cs =>
    let v := dropLeftSpaces cs
    if v.isEmpty then .err
    else if derefOk dsl v then .ok ⟨[], ['!'], v⟩
    else .err
  | _ => .err

/-- The operators in the order they are looked for, ParseOptCondImpl.cpp:129-134 -/
def ops : List Str := ["!=".toList, ">=".toList, "<=".toList, "=".toList, ">".toList, "<".toList]

/-- The chain of checks in `ParseOptCondExprImpl::parse`; the first operator found decides. ParseOptCondImpl.cpp:118-137. -/
def tryOps (dsl : Nat) (s : Str) : List Str → Res Expr
  | [] => checkBool dsl s
  | op :: rest => do
    let r ← checkComparison dsl s op
    match r with
    | some e => pure e
    | none => tryOps dsl s rest

/-- `ParseOptCondExprImpl::parse`, ParseOptCondImpl.cpp:118-137 -/
def parseExpr (dsl : Nat) (s : Str) : Res Expr := if s.isEmpty then .err else tryOps dsl s ops

/-- `CondMap` lookup, ParseOptCondImpl.cpp:621-643 -/
def listType (name : Str) : Option ListType :=
  if name = "and".toList then some .and
  else if name = "or".toList then some .or
  else none

mutual
/-- `ParseOptCondListImpl::parse`, ParseOptCondImpl.cpp:619-696; `condStr` is `parseCondStr()`. -/
def parseList (dsl : Nat) (condStr : Str) : Xml → Res Cond
  | .elem name _ children =>
    match listType name with
    | none => .err
    | some t => do
      let cs ← parseConds dsl condStr children
      if cs.length < 2 then .err else pure (.list t cs)
  | .text _ => .err -- excluded: only called on elements
  | .other => .err
/-- The loop over the child elements, ParseOptCondImpl.cpp:649-686. Text and comments are skipped (`parseGetChildren`). -/
def parseConds (dsl : Nat) (condStr : Str) : List Xml → Res (List Cond)
  | [] => .ok []
  | c :: rest =>
    if !c.isElem then parseConds dsl condStr rest
    else if c.name = condStr then do
      let e ← Res.ofOption (nodeValue c)
      let x ← parseExpr dsl e
      let xs ← parseConds dsl condStr rest
      pure (.expr x :: xs)
    else do
      let x ← parseList dsl condStr c
      let xs ← parseConds dsl condStr rest
      pure (x :: xs)
end

/-- `parseHasInterfaceReferenceImpl` of an expression, ParseOptCondImpl.cpp:163-168 -/
def Expr.hasIfaceRef (e : Expr) : Bool := e.left.head? == some '%' || e.right.head? == some '%'

mutual
/-- `parseHasInterfaceReference`, ParseOptCondImpl.cpp:163-168, 721-729 -/
def Cond.hasIfaceRef : Cond → Bool
  | .expr e => e.hasIfaceRef
  | .list _ cs => anyIfaceRef cs
/-- `std::any_of` over the list. ParseOptCondImpl.cpp:721-729. -/
def anyIfaceRef : List Cond → Bool
  | [] => false
  | c :: cs => c.hasIfaceRef || anyIfaceRef cs
end

end Commsdsl.CondM
