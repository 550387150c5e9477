import Verif.Lemmas.Reuse
import Verif.Lemmas.SampleMsg
/-!
# C109: what an element has from the element it reuses
-/
namespace Commsdsl.Props
open Commsdsl Text Spec Fld Msg
open ReuseProofs

/-- The attributes of a message: each is what the message says, or else what the reused message has, or else the default. The name, the id and the versions are never inherited unless said so:
    the id must be given (C30), versions start again (C26). -/
theorem C109_message (env : MEnv) (node : Xml) (m : Message) (h : parseMessage env node = .ok m) :
    ∃ props x code, msgProps node = some props ∧ MessageReused env props x ∧
      Takes (props.find "name".toList) x.name (fun s r => r = s) m.name ∧
      Takes (props.find "displayName".toList) x.displayName (fun s r => stringValue env.fld s = some r) m.displayName ∧
      Takes (props.find "description".toList) x.description (fun s r => stringValue env.fld s = some r) m.description ∧
      Takes (props.find "order".toList) x.order (fun s r => strToUnsigned s = some r) m.order ∧
      Takes (props.find "sender".toList) x.sender SenderText m.sender ∧
      Takes (known env.dsl props "customizable".toList) x.customizable BoolText m.customizable ∧
      Takes (known env.dsl props "validateMinLength".toList) x.validateMinLength (fun s r => ∃ v, strToUnsigned s = some v ∧ r = castI32 v) m.validateMinLength ∧
      (∃ b, Takes (known env.dsl props "failOnInvalid".toList) x.failOnInvalid BoolText b ∧ m.failOnInvalid = (b && Dsl.isSupported env.dsl .failOnInvalidInMessage)) ∧
      Takes (known env.dsl props "copyCodeFrom".toList) code (fun s r => r = s) m.copyCodeFrom ∧
      ((x = {} ∧ code = []) ∨ CodeReused env.dsl props code) := by
  simp only [parseMessage, msgHead, Res.bind_eq_ok, Res.ofOption_eq_ok, Res.pure_eq] at h
  obtain ⟨props, h1, m0, h2, m1, ⟨name, a1, disp, a2, descr, a3, id, a4, order, a5, w, a6, pl, a7, cust, a8, sender, a9, ml, a10, foi, a11, hm1⟩, b, _, al, _, al2, _, _, _,
    code, h7, c, _, h⟩ := h
  cases hm1
  cases h
  have hf : ∀ cur b, msgFailOnInvalid env.dsl props cur = .ok b → ∃ b', Takes (known env.dsl props "failOnInvalid".toList) cur BoolText b' ∧
      b = (b' && Dsl.isSupported env.dsl .failOnInvalidInMessage) := by
    intro cur b hb
    unfold msgFailOnInvalid at hb
    simp only [Res.bind_eq_ok, Res.pure_eq] at hb
    obtain ⟨b', hb', e⟩ := hb
    cases e
    exact ⟨b', bool_takes hb', rfl⟩
  have tail : Takes (known env.dsl props "copyCodeFrom".toList) m0.copyCodeFrom (fun s r => r = s) code := msgCode_takes h7
  rcases msgReuse_ok h2 with ⟨rfl, hr⟩ | ⟨s, x, y, hs, hsup, hx, hy, rfl⟩
  · exact ⟨props, {}, [], h1, .inl ⟨rfl, hr⟩, name_takes a1, deref_takes a2, deref_takes a3, order_takes a5, sender_takes a9, bool_takes a8, msgMinLen_takes a10, hf _ _ a11,
      tail, .inl ⟨rfl, rfl⟩⟩
  · simp only [reuseExtras, Res.bind_eq_ok, Res.pure_eq] at hy
    obtain ⟨b1, _, b2, hb2, hy⟩ := hy
    cases hy
    exact ⟨props, x, _, h1, .inr ⟨s, hs, hsup, hx⟩, name_takes a1, deref_takes a2, deref_takes a3, order_takes a5, sender_takes a9, bool_takes a8, msgMinLen_takes a10, hf _ _ a11,
      tail, .inr (extras_code hs hb2)⟩

/-- The attributes of an interface. -/
theorem C109_interface (env : MEnv) (node : Xml) (i : Interface) (h : parseInterface env node = .ok i) :
    ∃ props x, childrenAsProps node ifaceProps (nodeProps node) = some props ∧ InterfaceReused env props x ∧
      Takes (props.find "name".toList) x.name (fun s r => r = s) i.name ∧
      Takes (props.find "description".toList) x.description (fun s r => r = s) i.description ∧
      ((x = {} ∧ i.copyCodeFrom = []) ∨ CodeReused env.dsl props i.copyCodeFrom) := by
  simp only [parseInterface, Res.bind_eq_ok, Res.ofOption_eq_ok, Res.pure_eq] at h
  obtain ⟨props, h1, i0, h2, n, h3, d, h4, src, _, fs, _, al, _, al2, _, h⟩ := h
  cases h
  rcases ifaceReuse_ok h2 with ⟨rfl, hr⟩ | ⟨s, x, y, hs, hsup, hx, hy, rfl⟩
  · exact ⟨props, {}, h1, .inl ⟨rfl, hr⟩, name_takes h3, str_takes h4, .inl ⟨rfl, rfl⟩⟩
  · simp only [reuseExtras, Res.bind_eq_ok, Res.pure_eq] at hy
    obtain ⟨b1, _, b2, hb2, hy⟩ := hy
    cases hy
    exact ⟨props, x, h1, .inr ⟨s, hs, hsup, hx⟩, name_takes h3, str_takes h4, .inr (extras_code hs hb2)⟩

/-- The common attributes of a field: each is what the field says, or else what the reused field has, or else the default. A `<ref>` that names its target takes what is then still empty
    from the target. -/
theorem C109_field (env : FEnv) (fuel : Nat) (parent : ParentInfo) (node : Xml) (g : Field) (h : parseField env fuel parent node = .ok g) :
    ∃ props x code name disp sem, collectProps g.kind node = some props ∧ FieldReused env props g.kind x ∧
      Takes (props.find "name".toList) x.name (fun s r => r = s) name ∧
      Takes (props.find "displayName".toList) x.displayName (fun s r => stringValue env s = some r) disp ∧
      Takes (props.find "semanticType".toList) x.sem SemText sem ∧
      ((g.name = name ∧ g.common.displayName = disp ∧ g.sem = sem) ∨
        ∃ s t, g.kind = .ref ∧ props.find "field".toList = some s ∧ env.findField s = some t ∧ g.name = (if name = [] then t.name else name) ∧
          g.common.displayName = (if disp = [] then t.common.displayName else disp) ∧
          g.sem = (if Dsl.isSupported env.dsl .semanticTypeRefInheritance = true ∧ sem = .none ∧ t.sem ≠ .messageId then t.sem else sem)) ∧
      Takes (props.find "description".toList) x.description (fun s r => stringValue env s = some r) g.common.description ∧
      Takes (known env.dsl props "pseudo".toList) x.pseudo BoolText g.common.pseudo ∧
      Takes (known env.dsl props "fixedValue".toList) x.fixedValue BoolText g.common.fixedValue ∧
      Takes (known env.dsl props "customizable".toList) x.customizable BoolText g.common.customizable ∧
      Takes (known env.dsl props "failOnInvalid".toList) x.failOnInvalid BoolText g.common.failOnInvalid ∧
      Takes (known env.dsl props "forceGen".toList) x.forceGen BoolText g.common.forceGen ∧
      Takes (if Dsl.isSupported env.dsl .validateMinLengthForFields = true then props.find "validateMinLength".toList else none) x.validateMinLength
        (fun s r => ∃ v, strToUnsigned s = some v ∧ r = castI32 v) g.common.validateMinLength ∧
      Takes (known env.dsl props "copyCodeFrom".toList) code (fun s r => r = s) g.common.copyCodeFrom ∧
      ((x = {} ∧ code = []) ∨ CodeReused env.dsl props code) := by
  obtain ⟨n, rfl, hs⟩ := parseField_ok h
  obtain ⟨b, c, props, f1, f2, pr⟩ := parseStep_prep hs
  have ht := common_taken pr.comm
  rw [(checkReplace_common pr.repl).1] at ht
  obtain ⟨x, code, hx, hf1, hcode⟩ := reused_common pr.reuse
  rw [hf1] at ht
  obtain ⟨t1, t2, t3, t4, t5, t6, t7, t8, t9, t10, t11⟩ := ht
  rcases final_common pr with e | ⟨s, t, hk, hs, ht, e⟩
  · refine ⟨props, x, code, c.name, c.displayName, c.sem, pr.coll, hx, t1, t2, t4, .inl ?_, ?_⟩
    · unfold Field.name Field.sem
      rw [e]
      exact ⟨rfl, rfl, rfl⟩
    · rw [e]
      exact ⟨t3, t5, t6, t7, t8, t9, t10, t11, hcode⟩
  · refine ⟨props, x, code, c.name, c.displayName, c.sem, pr.coll, hx, t1, t2, t4, .inr ⟨s, t, hk, hs, ht, ?_, ?_, ?_⟩, ?_⟩
    · unfold Field.name
      rw [e]
      show (if c.name.isEmpty = true then t.common.name else c.name) = _
      cases c.name <;> rfl
    · rw [e]
      show (if c.displayName.isEmpty = true then t.common.displayName else c.displayName) = _
      cases c.displayName <;> rfl
    · unfold Field.sem
      rw [e]
      show (if (Dsl.isSupported env.dsl .semanticTypeRefInheritance && c.sem == .none && t.common.sem != .messageId) = true then t.common.sem else c.sem) = _
      cases Dsl.isSupported env.dsl .semanticTypeRefInheritance <;> cases c.sem <;> cases t.common.sem <;> rfl
    · rw [e]
      exact ⟨t3, t5, t6, t7, t8, t9, t10, t11, hcode⟩

/-- A field that reuses another one and gives no other attributes than those all fields have: its content is that of the other field. Missing: the `endian` of floating point numbers,
    which is lost (`C109_float_endian`). -/
theorem C109_content_partial (env : FEnv) (fuel : Nat) (parent : ParentInfo) (name : Str) (attrs : List (Str × Str)) (s : Str) (f g : Field)
    (ha : ∀ a ∈ attrs, GeneralAttribute a.1) (hr : Props.find (nodeProps (.elem name attrs [])) "reuse".toList = some s) (hf : env.findField s = some f) (hacc : Spec.Accepted f)
    (hbits : f.common.inBitfield = false) (h : parseField env fuel parent (.elem name attrs []) = .ok g) : ContentReused env.dsl g.since f g := by
  obtain ⟨n, rfl, hs⟩ := parseField_ok h
  refine content hs ?_ ?_ hr hf hacc hbits
  · intro names skip
    rfl
  · intro x hx
    have : GeneralAttribute x.1 := by
      unfold nodeProps at hx
      obtain ⟨a, ha', rfl⟩ := List.mem_map.1 hx
      exact ha a ha'
    unfold GeneralAttribute at this
    simp only [List.map_cons, List.map_nil, List.mem_cons, List.not_mem_nil, or_false] at this
    rcases this with e | e | e | e | e | e | e | e | e | e | e | e | e | e | e | e | e | e | e | e | e | e | e | e | e <;> rw [e] <;> decide

/-- The `endian` of a reused floating point field is lost: the new field has that of the schema. -/
theorem C109_float_endian :
    ∃ env f g c st c' st', (∀ s x, env.findField s = some x → Spec.Accepted x) ∧ env.findField "g".toList = some f ∧
      parseField env 9 .top (Sample.el "float" [("name", "x"), ("reuse", "g")]) = .ok g ∧ f = .float c st ∧ g = .float c' st' ∧ st.endian = some .big ∧ st'.endian = some .little := by
  have hf : ∃ f, (Sample.withGlobal Sample.env0 "g" (Sample.el "float" [("name", "g"), ("type", "float"), ("endian", "big")])).findField "g".toList = some f ∧
      (match f with | .float _ st => decide (st.endian = some .big) | _ => false) = true := by
    have : (match (Sample.withGlobal Sample.env0 "g" (Sample.el "float" [("name", "g"), ("type", "float"), ("endian", "big")])).findField "g".toList with
      | some f => (match f with | .float _ st => decide (st.endian = some .big) | _ => false) | none => false) = true := by decide +kernel
    split at this
    · exact ⟨_, by assumption, this⟩
    · cases this
  have hg := Sample.okIs_spec (r := parseField (Sample.withGlobal Sample.env0 "g" (Sample.el "float" [("name", "g"), ("type", "float"), ("endian", "big")])) 9 .top
    (Sample.el "float" [("name", "x"), ("reuse", "g")])) (p := fun f => match f with | .float _ st => decide (st.endian = some .little) | _ => false) (by decide +kernel)
  obtain ⟨f, h1, h2⟩ := hf
  obtain ⟨g, h3, h4⟩ := hg
  cases f with
  | float c st =>
    cases g with
    | float c' st' => exact ⟨_, _, _, c, st, c', st', Sample.withGlobal_ok Sample.env0_ok _ _, h1, h3, rfl, rfl, of_decide_eq_true h2, of_decide_eq_true h4⟩
    | _ => cases h4
  | _ => cases h2

open Sample in
/-- A bundle reused in version 2, whose last member is removed in version 1: it has the other two and their alias. -/
example : ∃ env f g, env.findField "g".toList = some f ∧ Spec.Accepted f ∧ f.common.inBitfield = false ∧
    parseField env 9 (.message 2 4294967295) (.elem "bundle".toList [("name".toList, "x".toList), ("reuse".toList, " g".toList), ("description".toList, "d".toList)] []) = .ok g ∧
    ContentReused env.dsl g.since f g ∧ f.members.length = 3 ∧ g.members.length = 2 ∧ g.common.description = "d".toList := by
  have hf : ∃ f, (withGlobal env0 "g" (el "bundle" [("name", "g")] [el "int" [("name", "a"), ("type", "uint8")], el "int" [("name", "b"), ("type", "uint8")],
      el "int" [("name", "c"), ("type", "uint8"), ("deprecated", "1"), ("removed", "true")]])).findField "g".toList = some f ∧
      (!f.common.inBitfield && decide (f.members.length = 3)) = true := by
    have : (match (withGlobal env0 "g" (el "bundle" [("name", "g")] [el "int" [("name", "a"), ("type", "uint8")], el "int" [("name", "b"), ("type", "uint8")],
      el "int" [("name", "c"), ("type", "uint8"), ("deprecated", "1"), ("removed", "true")]])).findField "g".toList with
      | some f => (!f.common.inBitfield && decide (f.members.length = 3)) | none => false) = true := by decide +kernel
    split at this
    · exact ⟨_, by assumption, this⟩
    · cases this
  have hg := okIs_spec (r := parseField (withGlobal env0 "g" (el "bundle" [("name", "g")] [el "int" [("name", "a"), ("type", "uint8")], el "int" [("name", "b"), ("type", "uint8")],
      el "int" [("name", "c"), ("type", "uint8"), ("deprecated", "1"), ("removed", "true")]])) 9 (.message 2 4294967295)
    (.elem "bundle".toList [("name".toList, "x".toList), ("reuse".toList, " g".toList), ("description".toList, "d".toList)] []))
    (p := fun g => decide (g.members.length = 2) && decide (g.common.description = "d".toList)) (by decide +kernel)
  obtain ⟨f, h1, h2⟩ := hf
  obtain ⟨g, h3, h4⟩ := hg
  rw [Bool.and_eq_true, Bool.not_eq_true'] at h2
  rw [Bool.and_eq_true] at h4
  have hacc := withGlobal_ok env0_ok _ _ _ _ h1
  refine ⟨_, f, g, h1, hacc, h2.1, h3, ?_, of_decide_eq_true h2.2, of_decide_eq_true h4.1, of_decide_eq_true h4.2⟩
  refine C109_content_partial _ 9 _ _ _ "g".toList f g ?_ (by decide +kernel) h1 hacc h2.1 h3
  intro a ha
  simp only [List.mem_cons, List.not_mem_nil, or_false] at ha
  unfold GeneralAttribute
  rcases ha with rfl | rfl | rfl <;> decide

open Sample in
/-- A message that reuses another one with its code: the order and the sender are inherited, the display name is not. -/
example : okIs (parseMessage (withMsg menv0 "m" (el "message" [("name", "m"), ("id", "1"), ("order", "3"), ("sender", "client"), ("displayName", "M")]))
    (el "message" [("name", "n"), ("id", "2"), ("reuse", "m"), ("reuseCode", "true"), ("displayName", "N")]))
    (fun m => decide (m.order = 3) && decide (m.sender = .client) && decide (m.displayName = "N".toList) && decide (m.copyCodeFrom = "m".toList)) = true := by decide +kernel

end Commsdsl.Props
