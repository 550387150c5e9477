import Verif.Model.Basic

/-!
Which global fields are generated: the generator objects of the fields, their preparation and the marks of the fields that are in use
(`genSetReferenced()`); and the order of the classes in the code for SWIG, which is driven by the same objects.
-/

namespace Commsdsl.Gen

/-- A field used by another one, as the generator keeps it: a pointer to a global field, found by its external reference (`m_external...Field`), or an
    owned object (`m_member...Field`), e.g. GenListField.cpp:313-322 -/
inductive USlot (α : Type) where
  | none
  | ext (r : Str)
  | own (a : α)

/-- The generator object of a field, as far as its use of other fields goes: `force` is `parseIsForceGen()`. The kinds without inner fields (int, enum,
    set, float) are `plain`. Helper of `markParts`, GenField.cpp:313-315. -/
inductive UField where
  | plain (force : Bool)
  | bitfield (force : Bool) (ms : List UField)
  | bundle (force : Bool) (ms : List UField)
  | variant (force : Bool) (ms : List UField)
  | string (force : Bool) (pfx : USlot UField)
  | data (force : Bool) (pfx : USlot UField)
  | list (force : Bool) (elem cnt len elemLen term : USlot UField)
  | ref (force : Bool) (r : Str)
  | optional (force : Bool) (f : USlot UField)

/-- `genParseObj().parseIsForceGen()`. Helper of `prepAll`, GenBundleField.cpp:50-58. -/
def UField.force : UField → Bool
  | .plain b | .bitfield b _ | .bundle b _ | .variant b _ | .string b _ | .data b _ | .list b _ _ _ _ _ | .ref b _ | .optional b _ => b

/-- The global fields that are prepared (`m_prepared`) and those that are in use (`m_referenced`), GenField.cpp:85-86. -/
structure UseSt where
  prepared : List Str := []
  used : List Str := []

mutual
/-- `genSetReferencedImpl` of the kinds of fields: GenField.cpp:313-315 (int, enum, set, float), GenBitfieldField.cpp:70-75, GenBundleField.cpp:69-74,
    GenVariantField.cpp:68-73, GenStringField.cpp:85-89, GenDataField.cpp:83-87, GenListField.cpp:279-291, GenRefField.cpp:79-83,
    GenOptionalField.cpp:82-86. `g` marks a global field. The object must be prepared, its pointers are null otherwise. The mark of an owned object
    itself is not modelled: only those of global fields matter (CommsField.cpp:133-141, SwigField.cpp:142, CField.cpp:96, EmscriptenField.cpp:106). -/
def markParts (g : Str → UseSt → Res UseSt) : UField → UseSt → Res UseSt
  | .plain _, st => pure st
  | .bitfield _ ms, st => markAll g ms st
  | .bundle _ ms, st => markAll g ms st
  | .variant _ ms, st => markAll g ms st
  | .string _ p, st => markSlot g p st
  | .data _ p, st => markSlot g p st
  | .list _ e n l el t, st => do
      let st ← markSlot g e st
      let st ← markSlot g n st
      let st ← markSlot g l st
      let st ← markSlot g el st
      markSlot g t st
  | .ref _ r, st => g r st
  | .optional _ f, st => markSlot g f st
/-- The loop over the members, GenBundleField.cpp:71-73 -/
def markAll (g : Str → UseSt → Res UseSt) : List UField → UseSt → Res UseSt
  | [], st => pure st
  | f :: fs, st => do
      let st ← markParts g f st
      markAll g fs st
/-- `genSetFieldReferencedIfExists`, GenField.cpp:190-195, of the two pointers of a slot -/
def markSlot (g : Str → UseSt → Res UseSt) : USlot UField → UseSt → Res UseSt
  | .none, st => pure st
  | .ext r, st => g r st
  | .own f, st => markParts g f st
end

/-- `genSetReferenced` of a global field, GenField.cpp:184-188. The objects are found by `find`; the pointers of one that is not prepared are null and its
    lists of members empty: nothing is marked then, except that `<ref>` follows the null pointer (GenRefField.cpp:81-82). `n` bounds the depth of the
    recursion, which the code does not: see `C121_used`. -/
def markGlobal (find : Str → Option UField) : Nat → Str → UseSt → Res UseSt
  | 0, _, _ => .err
  | n + 1, r, st =>
    match find r with
    | none => .ub
    | some f =>
      if r ∈ st.prepared then markParts (markGlobal find n) f { st with used := r :: st.used }
      else
        match f with
        | .ref _ _ => .ub
        | _ => pure { st with used := r :: st.used }

mutual
/-- `genPrepareImpl` of the kinds of fields, after which the pointers are there: GenBundleField.cpp:42-61, GenBitfieldField.cpp:43-62,
    GenVariantField.cpp:41-60, GenStringField.cpp:44-63, GenDataField.cpp:42-61, GenListField.cpp:43-175, GenRefField.cpp:41-67,
    GenOptionalField.cpp:43-60. `p` finds and prepares a global field, `g` marks one. The errors of the generator itself (the names of the fields of a
    list, other properties of a referenced field) stop it and are not modelled. -/
def prepParts (p g : Str → UseSt → Res UseSt) : UField → UseSt → Res UseSt
  | .plain _, st => pure st
  | .bitfield _ ms, st => prepAll p g ms st
  | .bundle _ ms, st => prepAll p g ms st
  | .variant _ ms, st => prepAll p g ms st
  | .string _ s, st => prepSlot p g s st
  | .data _ s, st => prepSlot p g s st
  | .list _ e n l el t, st => do
      let st ← prepSlot p g e st
      let st ← prepSlot p g n st
      let st ← prepSlot p g l st
      let st ← prepSlot p g el st
      prepSlot p g t st
  | .ref _ r, st => p r st
  | .optional _ f, st => prepSlot p g f st
/-- The loop over the members, GenBundleField.cpp:50-58, each created and prepared: `genPrepare` of an owned object, GenField.cpp:141-157 -/
def prepAll (p g : Str → UseSt → Res UseSt) : List UField → UseSt → Res UseSt
  | [], st => pure st
  | f :: fs, st => do
      let st ← prepParts p g f st
      let st ← (if f.force then markParts g f st else pure st : Res UseSt)
      prepAll p g fs st
/-- A field that may be global, e.g. GenStringField.cpp:50-60 -/
def prepSlot (p g : Str → UseSt → Res UseSt) : USlot UField → UseSt → Res UseSt
  | .none, st => pure st
  | .ext r, st => p r st
  | .own f, st => do
      let st ← prepParts p g f st
      (if f.force then markParts g f st else pure st : Res UseSt)
end

/-- `genPrepare` of an object that is not shared, GenField.cpp:141-157: a field of a message, an interface or a layer -/
def prepField (p g : Str → UseSt → Res UseSt) (f : UField) (st : UseSt) : Res UseSt := do
  let st ← prepParts p g f st
  if f.force then markParts g f st else pure st

/-- `genFindField` of the generator, which prepares the field, GenGenerator.cpp:874-891 and GenSchema.cpp:567-584, and `genPrepare` of a global field,
    GenField.cpp:141-157. -/
def prepGlobal (find : Str → Option UField) (n : Nat) : Nat → Str → UseSt → Res UseSt
  | 0, _, _ => .err
  | k + 1, r, st =>
    if r ∈ st.prepared then pure st
    else
      match find r with
      | none => .ub
      | some f => do
        let st ← prepParts (prepGlobal find n k) (markGlobal find n) f st
        let st := { st with prepared := r :: st.prepared }
        if f.force then markGlobal find n r st else pure st

/-- A layer: its field, and the escape field of a `<sync>` layer. Helper of `prepLayers`, GenFrame.cpp:46-65. -/
structure ULayer where
  field : USlot UField := .none
  esc : USlot UField := .none

/-- A namespace of the generator: its global fields by their references, its interfaces and messages with the mark `m_referenced` (C60) and their fields, its
    frames with their layers. Helper of `prepNs`, GenNamespace.cpp:85-97. -/
inductive UNs where
  | mk (subs : List UNs) (fields : List Str) (ifaces : List (Bool × List UField)) (messages : List (Bool × List UField)) (frames : List (List ULayer))

/-- What a run of the generator is given: the functions `p` and `g` for global fields, and whether it is the one for C++ (`comms`), that marks the escape
    fields of `<sync>` layers. Helper of `prepFields`, GenMessage.cpp:72-93. -/
structure UEnv where
  p : Str → UseSt → Res UseSt
  g : Str → UseSt → Res UseSt
  comms : Bool

/-- The fields of a message, GenMessage.cpp:72-93, or of an interface, GenInterface.cpp:64-84 -/
def prepFields (e : UEnv) : List UField → UseSt → Res UseSt
  | [], st => pure st
  | f :: fs, st => do
      let st ← prepField e.p e.g f st
      let st ← markParts e.g f st
      prepFields e fs st

/-- The messages, or the interfaces, of a namespace, GenNamespace.cpp:427-438 and GenNamespace.cpp:455-466: nothing is prepared of those that are not
    requested, GenMessage.cpp:74-76 and GenInterface.cpp:66-68. -/
def prepHolders (e : UEnv) : List (Bool × List UField) → UseSt → Res UseSt
  | [], st => pure st
  | (used, fs) :: ms, st => do
      let st ← (if used then prepFields e fs st else pure st : Res UseSt)
      prepHolders e ms st

/-- The field of a layer, GenLayer.cpp:50-78 -/
def prepLayerField (e : UEnv) : USlot UField → UseSt → Res UseSt
  | .none, st => pure st
  | .ext r, st => do
      let st ← e.p r st
      e.g r st
  | .own f, st => do
      let st ← prepField e.p e.g f st
      markParts e.g f st

/-- The escape field of a layer, GenSyncLayer.cpp:44-66 and CommsSyncLayer.cpp:39-54: only an external one is marked, and only by the generator for C++. -/
def prepEsc (e : UEnv) : USlot UField → UseSt → Res UseSt
  | .none, st => pure st
  | .ext r, st => do
      let st ← e.p r st
      if e.comms then e.g r st else pure st
  | .own f, st => prepField e.p e.g f st

/-- The layers of a frame, GenFrame.cpp:46-65 -/
def prepLayers (e : UEnv) : List ULayer → UseSt → Res UseSt
  | [], st => pure st
  | l :: ls, st => do
      let st ← prepLayerField e l.field st
      let st ← prepEsc e l.esc st
      prepLayers e ls st

/-- The frames of a namespace, GenNamespace.cpp:480-491 -/
def prepFrames (e : UEnv) : List (List ULayer) → UseSt → Res UseSt
  | [], st => pure st
  | f :: fs, st => do
      let st ← prepLayers e f st
      prepFrames e fs st

/-- The global fields of a namespace, GenNamespace.cpp:397-408 -/
def prepRefs (e : UEnv) : List Str → UseSt → Res UseSt
  | [], st => pure st
  | r :: rs, st => do
      let st ← e.p r st
      prepRefs e rs st

mutual
/-- `GenNamespaceImpl::genPrepare`, GenNamespace.cpp:85-97 -/
def prepNs (e : UEnv) : UNs → UseSt → Res UseSt
  | .mk subs fields ifaces messages frames, st => do
      let st ← prepNss e subs st
      let st ← prepRefs e fields st
      let st ← prepHolders e ifaces st
      let st ← prepHolders e messages st
      prepFrames e frames st
/-- The namespaces, GenNamespace.cpp:368-378; those of all the schemas, GenGenerator.cpp:455-461 and GenSchema.cpp:308-315 -/
def prepNss (e : UEnv) : List UNs → UseSt → Res UseSt
  | [], st => pure st
  | x :: xs, st => do
      let st ← prepNs e x st
      prepNss e xs st
end

/-- The preparation of everything, with recursion up to the depth `n`. The calls of `genPrepare`, GenGenerator.cpp:436-471, with the rest of it left out. -/
def prepareRun (find : Str → Option UField) (comms : Bool) (n : Nat) (nss : List UNs) : Res UseSt :=
  prepNss { p := prepGlobal find n n, g := markGlobal find n, comms := comms } nss {}

end Commsdsl.Gen
