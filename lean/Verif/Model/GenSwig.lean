import Verif.Model.GenUse

/-!
The order of the classes in the code for SWIG, and of the headers in its definitions: `swigAddCode()` and `swigAddDef()` of the elements.
-/

namespace Commsdsl.Gen

/-- What has a class of its own: a global field, an interface, a message, a frame. Modelling device, without code of its own: the classes with `swigAddCode`, SwigField.cpp:150-173, SwigInterface.cpp:56-76, SwigMessage.cpp, SwigFrame.cpp:59-84. -/
inductive SKind where
  | global | iface | message | frame
  deriving DecidableEq, Repr

/-- A class: the element, by its external reference, and the way from it to an inner field (or a layer of a frame): indices of members. Modelling device, without code of its own: names an object of the generator, SwigField.cpp:543-558. -/
structure SCls where
  kind : SKind
  owner : Str
  path : List Nat := []
  deriving DecidableEq, Repr

/-- The class of the member `i`. Modelling device, without code of its own, see `SCls`; SwigField.cpp:134-148. -/
def SCls.sub (c : SCls) (i : Nat) : SCls := { c with path := c.path ++ [i] }

/-- What is added to the list: the code of a class, the handler of a `<variant>`; in the definitions the vector of a field that is the element of a list, the
    director of a `<variant>`, the new names of the comparison and the header of an element, which defines its class and those of its members. Helper of `swigBefore`, SwigField.cpp:543-558. -/
inductive SItem where
  | code (c : SCls)
  | handler (c : SCls)
  | vector (c : SCls)
  | director (c : SCls)
  | rename (c : SCls)
  | header (c : SCls)
  deriving DecidableEq, Repr

/-- The two lists that are made: the code and the definitions. Helper of `swigSteps`, SwigNamespace.cpp:76-118. -/
inductive SwigOut where
  | code | defs
  deriving DecidableEq, Repr

/-- What is known besides the fields: whether a field is the element of a list (`m_listElement`), whether a global field is in use (C121) and how global fields
    are found. Helper of `swigBefore`, SwigField.cpp:543-558. -/
structure SwigEnv where
  out : SwigOut
  listElem : SCls → Bool
  used : Str → Bool
  find : Str → Option UField

/-- What a field adds in front of its members: nothing in the code; `swigAddVectorTemplateInternal`, SwigField.cpp:543-558, and the beginning of
    SwigVariantField.cpp:166-181 in the definitions. -/
def swigBefore (e : SwigEnv) (c : SCls) (f : UField) : List SItem :=
  match e.out with
  | .code => []
  | .defs =>
    (if e.listElem c then [.vector c] else []) ++
      match f with
      | .variant _ _ => [.director c]
      | _ => []

/-- What a field adds behind its members: SwigField.cpp:147 with SwigVariantField.cpp:188 in the code, SwigField.cpp:167-173 in the definitions. -/
def swigAfter (e : SwigEnv) (c : SCls) (f : UField) : List SItem :=
  match e.out with
  | .code =>
    (match f with
      | .variant _ _ => [.handler c]
      | _ => []) ++ [.code c]
  | .defs => .rename c :: (if c.kind = .global ∧ c.path = [] then [.header c] else [])

/-- The global fields and the interfaces that are added (`m_codeAdded`, or `m_defAdded`), and the list. A field inside another element is reached once, through
    that element: its flag makes no difference and is not modelled. Helper of `swigParts`, SwigBundleField.cpp:144-156. -/
structure SwigSt where
  fields : List Str := []
  ifaces : List Str := []
  out : List SItem := []

/-- `list.push_back(...)`. Helper of `swigAll`, SwigField.cpp:134-148. -/
def SwigSt.push (st : SwigSt) (l : List SItem) : SwigSt := { st with out := st.out ++ l }

mutual
/-- `swigAddMembersCodeImpl` and `swigAddDefImpl`: SwigBundleField.cpp:144-156, SwigBitfieldField.cpp:144-156, SwigVariantField.cpp:178-186,
    SwigListField.cpp:135-155, SwigRefField.cpp:86-96, SwigOptionalField.cpp:101-121; the other kinds add nothing. `g` adds a global field. -/
def swigParts (e : SwigEnv) (g : Str → SwigSt → Res SwigSt) (c : SCls) : UField → SwigSt → Res SwigSt
  | .plain _, st => pure st
  | .string _ _, st => pure st
  | .data _ _, st => pure st
  | .bitfield _ ms, st => swigAll e g c 0 ms st
  | .bundle _ ms, st => swigAll e g c 0 ms st
  | .variant _ ms, st => swigAll e g c 0 ms st
  | .list _ el _ _ _ _, st => swigSlot e g c el st
  | .ref _ r, st => g r st
  | .optional _ f, st => swigSlot e g c f st
/-- The loop over the members, the next one with the index `i`: each with `swigAddCode` (SwigField.cpp:134-148) or `swigAddDef` (SwigField.cpp:150-173) -/
def swigAll (e : SwigEnv) (g : Str → SwigSt → Res SwigSt) (c : SCls) (i : Nat) : List UField → SwigSt → Res SwigSt
  | [], st => pure st
  | f :: fs, st => do
      let st ← swigParts e g (c.sub i) f (st.push (swigBefore e (c.sub i) f))
      swigAll e g c (i + 1) fs (st.push (swigAfter e (c.sub i) f))
/-- The field of a list or of an optional, that may be global; one of them must be there. Helper of `swigParts`, SwigBundleField.cpp:144-156. -/
def swigSlot (e : SwigEnv) (g : Str → SwigSt → Res SwigSt) (c : SCls) : USlot UField → SwigSt → Res SwigSt
  | .none, _ => .ub
  | .ext r, st => g r st
  | .own f, st => do
      let st ← swigParts e g (c.sub 0) f (st.push (swigBefore e (c.sub 0) f))
      pure (st.push (swigAfter e (c.sub 0) f))
end

/-- `swigAddCode`, SwigField.cpp:134-148, and `swigAddDef`, SwigField.cpp:150-173, of a field with the class `c` -/
def swigField (e : SwigEnv) (g : Str → SwigSt → Res SwigSt) (c : SCls) (f : UField) (st : SwigSt) : Res SwigSt := do
  let st ← swigParts e g c f (st.push (swigBefore e c f))
  pure (st.push (swigAfter e c f))

/-- The same for a global field, with the flag. `n` bounds the depth of the recursion, which the code does not. Helper of `swigRun`, Swig.cpp:100-150. -/
def swigGlobal (e : SwigEnv) : Nat → Str → SwigSt → Res SwigSt
  | 0, _, _ => .err
  | n + 1, r, st =>
    if r ∈ st.fields then pure st
    else if !e.used r then pure { st with fields := r :: st.fields }
    else
      match e.find r with
      | none => .ub
      | some f => swigField e (swigGlobal e n) { kind := .global, owner := r } f { st with fields := r :: st.fields }

/-- An interface or a message: its reference, `m_referenced`, its fields. Helper of `swigIface`, SwigInterface.cpp:56-76. -/
structure SHolder where
  id : Str
  used : Bool
  fields : List UField

/-- What an interface, a message or a frame adds behind its fields, besides lines that do not matter for the order: SwigInterface.cpp:56-176,
    SwigMessage.cpp:56-152, SwigFrame.cpp:69-84 -/
def swigOwn (e : SwigEnv) (c : SCls) : List SItem :=
  match e.out with
  | .code => [.code c]
  | .defs => [.header c]

/-- An interface, with its flag: SwigInterface.cpp:56-76, SwigInterface.cpp:157-176 -/
def swigIface (e : SwigEnv) (g : Str → SwigSt → Res SwigSt) (h : SHolder) (st : SwigSt) : Res SwigSt :=
  if h.id ∈ st.ifaces then pure st
  else if !h.used then pure { st with ifaces := h.id :: st.ifaces }
  else do
    let st ← swigAll e g { kind := .iface, owner := h.id } 0 h.fields { st with ifaces := h.id :: st.ifaces }
    pure (st.push (swigOwn e { kind := .iface, owner := h.id }))

/-- A message: SwigMessage.cpp:56-130, SwigMessage.cpp:132-152 -/
def swigMessage (e : SwigEnv) (g : Str → SwigSt → Res SwigSt) (h : SHolder) (st : SwigSt) : Res SwigSt :=
  if !h.used then pure st
  else do
    let st ← swigAll e g { kind := .message, owner := h.id } 0 h.fields st
    pure (st.push (swigOwn e { kind := .message, owner := h.id }))

/-- A frame: its reference, `m_validFrame`, the fields of its layers in the order of `m_swigLayers` (a payload has none). Helper of `swigFrame`, SwigFrame.cpp:59-84. -/
structure SFrame where
  id : Str
  valid : Bool
  layers : List (USlot UField)

/-- The layers of a frame, the next one with the index `i`: SwigLayer.cpp:95-135. A layer has a class in the code only. -/
def swigLayers (e : SwigEnv) (g : Str → SwigSt → Res SwigSt) (c : SCls) (i : Nat) : List (USlot UField) → SwigSt → Res SwigSt
  | [], st => pure st
  | s :: ss, st => do
      let st ← (match s with
        | .none => pure st
        | s => swigSlot e g (c.sub i) s st : Res SwigSt)
      swigLayers e g c (i + 1) ss (st.push (match e.out with | .code => [.code (c.sub i)] | .defs => []))

/-- A frame: SwigFrame.cpp:59-84 -/
def swigFrame (e : SwigEnv) (g : Str → SwigSt → Res SwigSt) (fr : SFrame) (st : SwigSt) : Res SwigSt :=
  if !fr.valid then pure st
  else do
    let st ← swigLayers e g { kind := .frame, owner := fr.id } 0 fr.layers st
    pure (st.push (swigOwn e { kind := .frame, owner := fr.id }))

/-- A namespace: `main` is `swigInterface()`, the interface its messages use. Helper of `swigSteps`, SwigNamespace.cpp:76-118. -/
inductive SNs where
  | mk (subs : List SNs) (fields : List Str) (main : Option SHolder) (ifaces messages : List SHolder)

/-- A call of `swigAddCode` or `swigAddDef` for an element; a message with the interface it uses. Helper of `swigSteps`, SwigNamespace.cpp:76-118. -/
inductive SStep where
  | field (r : Str)
  | iface (h : SHolder)
  | message (h : SHolder) (main : Option SHolder)
  | frame (f : SFrame)

mutual
/-- The calls for a namespace, SwigNamespace.cpp:76-118 for the code and SwigNamespace.cpp:120-148 for the definitions, those of the message ids, the
    handlers and the input messages left out. -/
def swigSteps (o : SwigOut) : SNs → List SStep
  | .mk subs fields main ifaces messages =>
    fields.map .field ++ ((match o with | .code => main.toList.map .iface | .defs => []) ++ (ifaces.map .iface ++
      (messages.map (fun m => .message m main) ++ swigStepsAll o subs)))
/-- The namespaces, Swig.cpp:118-122 and Swig.cpp:175-177 with SwigSchema.cpp:40-63 -/
def swigStepsAll (o : SwigOut) : List SNs → List SStep
  | [] => []
  | x :: xs => swigSteps o x ++ swigStepsAll o xs
end

/-- One call. Swig.cpp:100-150. -/
def swigStep (e : SwigEnv) (g : Str → SwigSt → Res SwigSt) : SStep → SwigSt → Res SwigSt
  | .field r, st => g r st
  | .iface h, st => swigIface e g h st
  | .message h _, st => swigMessage e g h st
  | .frame f, st => swigFrame e g f st

/-- The calls, one after the other. Helper of `swigRun`, Swig.cpp:100-150. -/
def swigCalls (e : SwigEnv) (g : Str → SwigSt → Res SwigSt) : List SStep → SwigSt → Res SwigSt
  | [], st => pure st
  | s :: ss, st => do
      let st ← swigStep e g s st
      swigCalls e g ss st

/-- The list: the namespaces, then the frames, Swig.cpp:100-150 and Swig.cpp:152-192. `frames` are those of all schemas for the code and those of the
    current one for the definitions. -/
def swigRun (e : SwigEnv) (n : Nat) (nss : List SNs) (frames : List SFrame) : Res (List SItem) := do
  let st ← swigCalls e (swigGlobal e n) (swigStepsAll e.out nss ++ frames.map .frame) {}
  pure st.out

end Commsdsl.Gen
