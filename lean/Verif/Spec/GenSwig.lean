import Verif.Model.GenSwig
import Verif.Spec.GenUse

/-!
What must come before what in the code for SWIG and its definitions.
-/

namespace Commsdsl.Spec

open Commsdsl.Gen

/-- The fields that the SWIG class of a field refers to: members, the element of a list, the target of a reference. Prefixes and suffixes have no class. -/
def swigInner : UField → List (USlot UField)
  | .plain _ | .string _ _ | .data _ _ => []
  | .bitfield _ ms | .bundle _ ms | .variant _ ms => ms.map .own
  | .list _ e _ _ _ _ => [e]
  | .ref _ r => [.ext r]
  | .optional _ f => [f]

/-- Following the indices of members from `f` leads to `x`. -/
inductive MemberAt : UField → List Nat → UField → Prop where
  | refl (f : UField) : MemberAt f [] f
  | step {f g x : UField} {i : Nat} {p : List Nat} : (swigInner f)[i]? = some (.own g) → MemberAt g p x → MemberAt f (i :: p) x

/-- The class `c` is that of the field `f`. -/
inductive ClassOf (find : Str → Option UField) (steps : List SStep) : SCls → UField → Prop where
  | global {r f p x} : find r = some f → MemberAt f p x → ClassOf find steps ⟨.global, r, p⟩ x
  | iface {h i f p x} : .iface h ∈ steps → h.fields[i]? = some f → MemberAt f p x → ClassOf find steps ⟨.iface, h.id, i :: p⟩ x
  | message {h m i f p x} : .message h m ∈ steps → h.fields[i]? = some f → MemberAt f p x → ClassOf find steps ⟨.message, h.id, i :: p⟩ x
  | layer {fr i f p x} : .frame fr ∈ steps → fr.layers[i]? = some (.own f) → MemberAt f p x → ClassOf find steps ⟨.frame, fr.id, i :: 0 :: p⟩ x

/-- What defines a class: its code; in the definitions the header of its element, and for a class inside an element the line with its new names. -/
def definition (o : SwigOut) (c : SCls) : SItem :=
  match o with
  | .code => .code c
  | .defs => if c.path = [] then .header c else .rename c

/-- The class of a global field. -/
def globalCls (r : Str) : SCls := { kind := .global, owner := r }

/-- The class `c` cannot be without the definition of the other class. -/
inductive NeedsCls (find : Str → Option UField) (steps : List SStep) (o : SwigOut) : SCls → SCls → Prop where
  | member {c f i g} : ClassOf find steps c f → (swigInner f)[i]? = some (.own g) → NeedsCls find steps o c (c.sub i)
  | refers {c f r} : ClassOf find steps c f → USlot.ext r ∈ swigInner f → NeedsCls find steps o c (globalCls r)
  | ofIface {h i f} : .iface h ∈ steps → h.fields[i]? = some f → NeedsCls find steps o ⟨.iface, h.id, []⟩ ⟨.iface, h.id, [i]⟩
  | ofMessage {h m i f} : .message h m ∈ steps → h.fields[i]? = some f → NeedsCls find steps o ⟨.message, h.id, []⟩ ⟨.message, h.id, [i]⟩
  | main {h m} : .message h (some m) ∈ steps → o = .code → NeedsCls find steps o ⟨.message, h.id, []⟩ ⟨.iface, m.id, []⟩
  | layer {fr : SFrame} {i : Nat} {s : USlot UField} : .frame fr ∈ steps → fr.layers[i]? = some s → o = .code → NeedsCls find steps o ⟨.frame, fr.id, []⟩ ⟨.frame, fr.id, [i]⟩
  | layerOwn {fr : SFrame} {i : Nat} {f : UField} : .frame fr ∈ steps → fr.layers[i]? = some (.own f) → NeedsCls find steps o ⟨.frame, fr.id, [i]⟩ ⟨.frame, fr.id, [i, 0]⟩
  | layerRef {fr : SFrame} {i : Nat} {r : Str} : .frame fr ∈ steps → fr.layers[i]? = some (.ext r) → NeedsCls find steps o ⟨.frame, fr.id, [i]⟩ (globalCls r)
  | frameOwn {fr : SFrame} {i : Nat} {f : UField} : .frame fr ∈ steps → fr.layers[i]? = some (.own f) → NeedsCls find steps o ⟨.frame, fr.id, []⟩ ⟨.frame, fr.id, [i, 0]⟩
  | frameRef {fr : SFrame} {i : Nat} {r : Str} : .frame fr ∈ steps → fr.layers[i]? = some (USlot.ext r) → NeedsCls find steps o ⟨.frame, fr.id, []⟩ (globalCls r)

/-- The same over any number of classes. -/
inductive NeedsDeep (find : Str → Option UField) (steps : List SStep) (o : SwigOut) : SCls → SCls → Prop where
  | one {c c'} : NeedsCls find steps o c c' → NeedsDeep find steps o c c'
  | more {c c' c''} : NeedsCls find steps o c c' → NeedsDeep find steps o c' c'' → NeedsDeep find steps o c c''

/-- The class an item of the list stands for. -/
def itemCls : SItem → SCls
  | .code c | .handler c | .vector c | .director c | .rename c | .header c => c

/-- The item comes with the definition of the class, not in front of it. -/
def defines : SItem → Bool
  | .vector _ | .director _ => false
  | _ => true

/-- Lists and optional fields have an inner field. -/
def Filled (f : UField) : Prop := ∀ x, Owns f x → USlot.none ∉ swigInner x

/-- The elements are as the preparation left them (C121): what is in use is found, has its inner fields, and uses only fields in use; elements have
    different references. -/
structure SwigOk (e : SwigEnv) (steps : List SStep) : Prop where
  found : ∀ r, e.used r = true → (e.find r).isSome = true
  filled : ∀ r f, e.find r = some f → Filled f
  closed : ∀ r f, e.used r = true → e.find r = some f → ∀ r', Uses f r' → e.used r' = true
  iface : ∀ h, .iface h ∈ steps → h.used = true → ∀ f ∈ h.fields, Filled f ∧ ∀ r, Uses f r → e.used r = true
  message : ∀ h m, .message h m ∈ steps → h.used = true → ∀ f ∈ h.fields, Filled f ∧ ∀ r, Uses f r → e.used r = true
  layerOwn : ∀ fr, .frame fr ∈ steps → fr.valid = true → ∀ f, USlot.own f ∈ fr.layers → Filled f ∧ ∀ r, Uses f r → e.used r = true
  layerRef : ∀ fr, .frame fr ∈ steps → fr.valid = true → ∀ r, USlot.ext r ∈ fr.layers → e.used r = true
  mainUsed : ∀ h m, .message h (some m) ∈ steps → m.used = true
  sameIface : ∀ h h', .iface h ∈ steps → .iface h' ∈ steps → h.id = h'.id → h = h'
  messages : (steps.filterMap (fun s => match s with | .message h _ => some h.id | _ => none)).Nodup
  frames : (steps.filterMap (fun s => match s with | .frame f => some f.id | _ => none)).Nodup

/-- The elements for which `swigRun` makes calls. -/
def elements (o : SwigOut) (nss : List SNs) (frames : List SFrame) : List SStep := swigStepsAll o nss ++ frames.map .frame

/-- The element must be in the list. -/
def Wanted (e : SwigEnv) (steps : List SStep) (c : SCls) : Prop :=
  (∃ r, .field r ∈ steps ∧ e.used r = true ∧ c = globalCls r) ∨ (∃ h, .iface h ∈ steps ∧ h.used = true ∧ c = ⟨.iface, h.id, []⟩) ∨
    (∃ h m, .message h m ∈ steps ∧ h.used = true ∧ c = ⟨.message, h.id, []⟩) ∨ ∃ f, .frame f ∈ steps ∧ f.valid = true ∧ c = ⟨.frame, f.id, []⟩

end Commsdsl.Spec
