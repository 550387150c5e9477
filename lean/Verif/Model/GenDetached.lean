import Verif.Model.GenCond
import Verif.Model.GenRead
/-!
# Detached prefixes in the generated code (`app/commsdsl2comms/src/CommsListField.cpp`, `CommsDataField.cpp`, `CommsStringField.cpp`)

The length, the count or the element length of a sequence can be in a field before it. The generated class has a function that hands the value over before the
sequence is read, and one that brings the value up to date before it is written.
-/
namespace Commsdsl.Gen
open Commsdsl Text Fld

/-! ## Reading -/

/-- `forceReadElemCount`, `forceReadLength`, `forceReadElemLength`, CommsListField.cpp:303-319 -/
inductive SeqFunc where
  | elemCount | length | elemLength
  deriving DecidableEq, Repr

/-- `if (COND) { SEQ.FUNC(static_cast<std::size_t>(VALUE)); }`, without `if` when the condition is empty; CommsListField.cpp:279-296, CommsDataField.cpp:249-264 -/
structure PrepStmt where
  cond : List Tok
  seq : Acc
  func : SeqFunc
  value : Acc
  last : Last
  deriving DecidableEq, Repr

/-- `processPrefixFunc`, CommsListField.cpp:238-297; CommsDataField.cpp:205-265; CommsStringField.cpp:180-240. `commsFieldAccessStr` (CommsField.cpp:289-296) is
    the value access without what is called at the end. -/
def prepStmt (g : GVer) (pl : Place) (sibs : List Field) (f : Field) (func : SeqFunc) (path : Str) : Option PrepStmt :=
  if path.isEmpty then none
  else match findSib sibs path with
    | none => none
    | some s =>
      let r := valueAcc g pl s (afterDot path)
      some { cond := joinAnd (checkToks (accessName f.name) (checks g pl f [] [])) (checkToks (accessName s.name) (checks g pl s (afterDot path) []))
             seq := ⟨accessName f.name, (valueAcc g pl f []).1⟩
             func := func
             value := ⟨accessName s.name, r.1⟩
             last := r.2 }

/-- `commsDefBundledReadPrepareFuncBodyImpl` of data (CommsDataField.cpp:205-265), string (CommsStringField.cpp:180-240) and list (CommsListField.cpp:234-325) -/
def prepStmts (g : GVer) (pl : Place) (sibs : List Field) (f : Field) : List PrepStmt :=
  match f with
  | .data _ st _ => (prepStmt g pl sibs f .length st.detached).toList
  | .string _ st _ => (prepStmt g pl sibs f .length st.detached).toList
  | .list _ st _ _ _ _ _ =>
    (prepStmt g pl sibs f .elemCount st.detachedCount).toList ++ ((prepStmt g pl sibs f .length st.detachedLen).toList ++
      (prepStmt g pl sibs f .elemLength st.detachedElemLen).toList)
  | _ => []

/-! ## Refreshing

What the generated text does with the value of the prefix, of the type `ty`, and the sequence.
-/

/-- `std::numeric_limits<T>::max()` as `std::size_t`, CommsListField.cpp:368-369, CommsDataField.cpp:302-303 -/
def limitMax (ty : CppInt) : Nat := if ty.1 then 2 ^ (ty.2 - 1) - 1 else 2 ^ ty.2 - 1

/-- A prefix and a sequence: the value of the prefix, the lengths of the elements (`element.length()`; bytes have length 1). Helper of `refreshCount`, CommsListField.cpp:357-404. -/
structure PfxSeq where
  value : Int
  elems : List Nat
  deriving DecidableEq, Repr

/-- The result of a refresh function: the function may stop at an assertion. Helper of `refreshCount`, CommsListField.cpp:357-404. -/
inductive RefreshRes where
  | done (s : PfxSeq) (updated : Bool)
  | asserted
  | undefined
  deriving DecidableEq, Repr

/-- The count prefix of a list, CommsListField.cpp:357-404, and the length prefix of data and strings, CommsDataField.cpp:295-309, CommsStringField.cpp:270-284 -/
def refreshCount (ty : CppInt) (s : PfxSeq) : RefreshRes :=
  let real := s.elems.length
  if castU64 s.value = real then .done s false
  else
    let allowed := min (limitMax ty) real
    .done ⟨allowed, if allowed < real then s.elems.take allowed else s.elems⟩ true

/-- The loop `while (maxAllowedValue < realValue)`, CommsListField.cpp:412-417; the list is reversed: `back()` is the first element, and undefined (`none`) if there is none. -/
def dropLoop (allowed : Nat) : List Nat → Nat → Option (List Nat × Nat)
  | [], real => if allowed < real then none else some ([], real)
  | e :: es, real => if allowed < real then dropLoop allowed es (castU64 ((real : Int) - e)) else some (e :: es, real)

/-- `LIST_FIELD.length()`; `per` are the bytes of the prefix in front of each element, 0 if the list has none. Helper of `refreshLength`, CommsListField.cpp:357-371, 406-421. -/
def listLength (per : Nat) (elems : List Nat) : Nat := (elems.map (· + per)).sum

/-- The length prefix of a list, CommsListField.cpp:357-371, 406-421 -/
def refreshLength (per : Nat) (ty : CppInt) (s : PfxSeq) : RefreshRes :=
  let real := listLength per s.elems
  if castU64 s.value = real then .done s false
  else match dropLoop (min (limitMax ty) real) s.elems.reverse real with
    | none => .undefined
    | some (es, real') => .done ⟨real', es.reverse⟩ true

/-- The element length prefix of a list, CommsListField.cpp:357-371, 423-438; `checked` tells whether `COMMS_ASSERT` does something (it depends on how the generated
    code is compiled). -/
def refreshElemLength (checked : Bool) (ty : CppInt) (s : PfxSeq) : RefreshRes :=
  let real := s.elems.headD 0
  if castU64 s.value = real then .done s false
  else
    let allowed := min (limitMax ty) real
    if checked && !(s.elems.isEmpty || decide (s.elems.headD 0 < allowed)) then .asserted
    else .done ⟨allowed, s.elems⟩ true

/-- A refresh of two sequences with the same prefix, one after the other (CommsBundleField.cpp:305-332): the prefix, the sequences, and whether something has changed. -/
def refreshTwo (ty : CppInt) (v : Int) (a b : List Nat) : Option (Int × List Nat × List Nat × Bool) :=
  match refreshCount ty ⟨v, a⟩ with
  | .done s u => match refreshCount ty ⟨s.value, b⟩ with
    | .done s' u' => some (s'.value, s.elems, s'.elems, u || u')
    | _ => none
  | _ => none

end Commsdsl.Gen
