import Verif.Props.MessageFields
import Verif.Props.FieldChecks
/-!
# Aliases of messages and interfaces: C42, C43
-/
namespace Commsdsl.Props
open Commsdsl Fld Msg Spec Text CheckProofs

/-- The path of every alias leads to one of the fields or to something inside. -/
def Resolvable (fields : List Field) (aliases : List Alias) : Prop :=
  ∀ a ∈ aliases, ∃ comps, a.fieldName = joinDots comps ∧ Resolves fields comps

/-- The name of every alias differs, even ignoring the case of the first letter, from the names of the fields and of the other aliases. -/
def Unambiguous (fields : List Field) (aliases : List Alias) : Prop :=
  (∀ a ∈ aliases, ∀ m ∈ fields, ¬ SameName a.name m.name) ∧ aliases.Pairwise fun a b => ¬ SameName b.name a.name

namespace MsgProofs

theorem resolves_clone {ms : List Field} {p : List Str} (h : Resolves ms p) : Resolves (cloneAll ms) p := by
  induction h with
  | @here ms m hm =>
    have : m.name = (clone m).name := by simp [Field.name, clone_common]
    rw [this]
    exact .here (by rw [cloneAll_eq]; exact List.mem_map.2 ⟨m, hm, rfl⟩)
  | @down ms m p hm _ ih =>
    have : m.name = (clone m).name := by simp [Field.name, clone_common]
    rw [this]
    refine .down (by rw [cloneAll_eq]; exact List.mem_map.2 ⟨m, hm, rfl⟩) ?_
    rw [clone_members, ← cloneAll_eq]
    exact ih

theorem resolves_append {ms ns : List Field} {p : List Str} (h : Resolves ms p) : Resolves (ms ++ ns) p := by
  cases h with
  | here hm => exact .here (by simp [hm])
  | down hm h => exact .down (by simp [hm]) h

theorem knownAliases_resolve (fs : List Field) (al : List Alias) : Resolvable fs (knownAliases fs al) := by
  intro a ha
  have := (List.mem_filter.1 ha).2
  rw [List.any_eq_true] at this
  obtain ⟨m, hm, he⟩ := this
  simp only [beq_iff_eq] at he
  exact ⟨[m.name], he, .here hm⟩

theorem addAliases_ok {env : FEnv} {node : Xml} {fs : List Field} {al al' : List Alias} (h : addAliases env node fs al = .ok al') :
    newAliases env fs (getChildren node ["alias".toList]) al = .ok al' := by
  unfold addAliases at h
  split at h
  · rename_i e; rw [e, newAliases]; exact h
  · rename_i n ns e
    split at h
    · simp at h
    · rw [e]; exact h

theorem addAliases_resolve {env : FEnv} {node : Xml} {fs : List Field} {al al' : List Alias} (h : addAliases env node fs al = .ok al')
    (h0 : Resolvable fs al) : Resolvable fs al' := by
  obtain ⟨new, rfl, h2, _⟩ := newAliases_ok (addAliases_ok h)
  intro a ha
  rcases List.mem_append.1 ha with ha | ha
  · exact h0 a ha
  · exact h2 a ha

theorem addAliases_unambiguous {env : FEnv} {node : Xml} {fs : List Field} {al : List Alias} (h : addAliases env node fs [] = .ok al) :
    Unambiguous fs al := by
  have h5 := addAliases_ok h
  obtain ⟨new, _, _, h6⟩ := newAliases_ok h5
  have h7 := newAliases_names h5 (by simp)
  have h6' : ∀ (i : Nat) (a : Alias), al[i]? = some a → verifyAlias (al.take i) fs a = true := fun i a ha => h6 i a (by simp) ha
  have chk : ∀ {l : List Alias} {a : Alias}, verifyAlias l fs a = true → a.name ≠ [] →
      (∀ m ∈ fs, ¬ SameName a.name m.name) ∧ ∀ x ∈ l, ¬ SameName a.name x.name := by
    intro l a hv ha
    unfold verifyAlias at hv
    split at hv
    · simp at hv
    · rename_i n1
      split at hv
      · simp at hv
      · rename_i n2
        constructor
        · intro m hm hs
          exact n1 (List.any_eq_true.2 ⟨m, hm, (sameAliasName_iff ha).2 hs⟩)
        · intro x hx hs
          exact n2 (List.any_eq_true.2 ⟨x, hx, (sameAliasName_iff ha).2 hs⟩)
  constructor
  · intro a ha
    obtain ⟨i, hi⟩ := List.getElem?_of_mem ha
    exact (chk (h6' i a hi) (h7 a ha)).1
  · rw [List.pairwise_iff_getElem]
    intro i j hi hj hij
    refine (chk (h6' j _ (List.getElem?_eq_getElem hj)) (h7 _ (List.getElem_mem _))).2 _ ?_
    rw [List.mem_take_iff_getElem]
    exact ⟨i, by omega, rfl⟩

theorem reuseExtras_aliases {dsl : Nat} {props : Props} {s : Str} {al : List Alias} {x : List Alias × Str}
    (h : reuseExtras dsl props s al = .ok x) : x.1 = al ∨ x.1 = [] := by
  simp only [reuseExtras, Res.bind_eq_ok, Res.pure_eq] at h
  obtain ⟨b, _, c, _, h⟩ := h
  cases h
  cases b <;> simp

theorem resolvable_nil {al : List Alias} (h : Resolvable [] al) : al = [] := by
  cases al with
  | nil => rfl
  | cons a al =>
    obtain ⟨comps, _, hr⟩ := h a (by simp)
    cases hr with
    | here hm => simp at hm
    | down hm _ => simp at hm

end MsgProofs
open MsgProofs

/-- C42 for interfaces, first half: the path of every alias leads to an existing field, in all accepted interfaces. -/
theorem C42_interface_resolvable (i : Interface) (h : AcceptedIface i) : Resolvable i.fields i.aliases := by
  induction h with
  | @parse env node i he hm hp ih =>
    obtain ⟨props, i0, src, al, r⟩ := parseInterface_run hp
    refine addAliases_resolve r.add ?_
    have h0 : Resolvable i0.fields i0.aliases := by
      rcases ifaceReuse_ok r.reuse with ⟨rfl, _⟩ | ⟨s, x, y, _, _, hx, hy, rfl⟩
      · intro a ha; simp at ha
      · rcases reuseExtras_aliases hy with e | e
        · intro a ha
          simp only [e] at ha
          obtain ⟨comps, h1, h2⟩ := ih s x hx a ha
          exact ⟨comps, h1, resolves_clone h2⟩
        · intro a ha; simp [e] at ha
    have h1 : Resolvable (ifaceCopied src i0.fields) i0.aliases := by
      cases src with
      | none => exact h0
      | some x =>
        have : i0.fields = [] := by
          rcases copySource_ok r.from_ with ⟨e, _⟩ | ⟨_, _, _, e, _⟩
          · cases e
          · exact e
        rw [this] at h0
        rw [resolvable_nil h0]
        intro a ha; simp at ha
    have h2 : Resolvable i.fields i0.aliases := by
      rcases ifaceFields_ok r.flds with ⟨e, _⟩ | ⟨ns, new, _, _, e, _⟩
      · rw [e]; exact h1
      · rw [e]
        intro a ha
        obtain ⟨comps, h3, h4⟩ := h1 a ha
        exact ⟨comps, h3, resolves_append h4⟩
    have hal := r.ali
    simp only [ifaceCopyAliases, Res.bind_eq_ok] at hal
    obtain ⟨w, _, hal⟩ := hal
    split at hal
    · split at hal
      · cases hal; exact h2
      · cases hal; exact knownAliases_resolve _ _
    · cases hal; exact h2

/-- C42 for messages, first half, partial: if the aliases of the messages that can be reused are resolvable, and the new message does not both
    replace a field and say `copyFieldsAliases`, its aliases are resolvable. In the missing case it is false, see `C42_message_dangling_witness`. -/
theorem C42_message_resolvable_partial (env : MEnv) (node : Xml) (m : Message) (h : parseMessage env node = .ok m) (props : Props)
    (hp : msgProps node = some props) (henv : ∀ s x, env.findMessage s = some x → Resolvable x.fields x.aliases)
    (hr : getChildren node ["replace".toList] = [] ∨
      (props.find "copyFieldsAliases".toList = none ∧ Dsl.isSupported env.dsl .fieldAlias = true)) :
    Resolvable m.fields m.aliases := by
  obtain ⟨props', m0, m1, src, fs, al, r⟩ := parseMessage_run h
  have e := r.coll
  rw [hp] at e
  cases e
  refine addAliases_resolve r.add ?_
  have hal := r.ali
  simp only [msgCopyAliases, Res.bind_eq_ok] at hal
  obtain ⟨w, hw, hal⟩ := hal
  split at hal
  · cases hal; exact knownAliases_resolve _ _
  · rename_i hwf
    cases hal
    have hr : getChildren node ["replace".toList] = [] := by
      rcases hr with hr | ⟨h1, h2⟩
      · exact hr
      · unfold wantAliases at hw
        rw [h1, h2] at hw
        split at hw
        · simp at hw
        · simp only [Res.ok.injEq] at hw
          exact absurd hw.symm hwf
    have h0 : Resolvable m0.fields m0.aliases := by
      rcases msgReuse_ok r.reuse with ⟨rfl, _⟩ | ⟨s, x, y, _, _, hx, hy, rfl⟩
      · intro a ha; simp at ha
      · rcases reuseExtras_aliases hy with e | e
        · intro a ha
          simp only [e] at ha
          obtain ⟨comps, h1, h2⟩ := henv s x hx a ha
          exact ⟨comps, h1, resolves_clone h2⟩
        · intro a ha; simp [e] at ha
    have h1 : Resolvable (msgCopied m.w.since src m0.fields) m0.aliases := by
      cases src with
      | none => exact h0
      | some x =>
        have : m0.fields = [] := by
          rcases copySource_ok r.from_ with ⟨e, _⟩ | ⟨_, _, _, e, _⟩
          · cases e
          · exact e
        rw [this] at h0
        rw [resolvable_nil h0]
        intro a ha; simp at ha
    have hfs : fs = msgCopied m.w.since src m0.fields := by
      rcases msgReplace_ok r.repl with e | ⟨_, _, _, e, _⟩
      · exact e
      · rw [hr] at e; cases e
    rcases msgFields_ok r.flds with ⟨e, _⟩ | ⟨ns, new, _, _, e, _⟩
    · rw [e, hfs]; exact h1
    · rw [e, hfs]
      intro a ha
      obtain ⟨comps, h3, h4⟩ := h1 a ha
      exact ⟨comps, h3, resolves_append h4⟩

theorem resolves_two {ms : List Field} {p : List Str} {a b : Str} {r : List Str} (h : Resolves ms p) (e : p = a :: b :: r) :
    ∃ x ∈ ms, Resolves x.members (b :: r) := by
  cases h with
  | here hm => simp at e
  | down hm hr =>
    rename_i x q
    simp only [List.cons.injEq] at e
    exact ⟨x, hm, e.2 ▸ hr⟩

theorem resolves_empty {p : List Str} (h : Resolves [] p) : False := by
  cases h with
  | here hm => simp at hm
  | down hm _ => simp at hm

open Sample in
/-- Refutation of the full first half: the reused message has an alias for b.c; b is replaced by a number, which has no c, and because of
    `copyFieldsAliases="false"` the aliases are not looked at. -/
theorem C42_message_dangling_witness : ∃ m a, AcceptedMsg m ∧ a ∈ m.aliases ∧ a.fieldName = "b.c".toList ∧
    (∀ f ∈ m.fields, f.kind = .int) ∧ ¬ Resolves m.fields ["b".toList, "c".toList] := by
  obtain ⟨m, _, h1, h2⟩ := acceptedMsg (withMsg_ok menv0_ok "M" (el "message" [("name", "M"), ("id", "1")] [el "fields" [] [
      el "bundle" [("name", "b")] [el "int" [("name", "c"), ("type", "uint8")]]], el "alias" [("name", "x"), ("field", "$b.c")]]))
    (x := el "message" [("name", "N"), ("id", "2"), ("reuse", "M"), ("copyFieldsAliases", "false")]
      [el "replace" [] [el "int" [("name", "b"), ("type", "uint8")]]])
    (p := fun m => (m.aliases.any fun a => decide (a.fieldName = "b.c".toList)) && m.fields.all fun f => decide (f.kind = .int))
    (by decide +kernel)
  simp only [Bool.and_eq_true, List.any_eq_true, List.all_eq_true, decide_eq_true_eq] at h2
  obtain ⟨⟨a, ha, e⟩, hk⟩ := h2
  refine ⟨m, a, h1, ha, e, hk, ?_⟩
  intro hr
  obtain ⟨x, hm, hr⟩ := resolves_two hr rfl
  have := hk x hm
  cases x <;> simp [Field.kind] at this
  simp only [Field.members] at hr
  exact resolves_empty hr

/-- C42 for messages, second half, partial: in a message without `reuse` and `copyFieldsFrom` the aliases are unambiguous. Missing: inherited
    aliases, which are not compared with new fields. -/
theorem C42_message_unambiguous_partial (env : MEnv) (node : Xml) (m : Message) (h : parseMessage env node = .ok m) (props : Props)
    (hp : msgProps node = some props) (hr : props.find "reuse".toList = none) (hc : props.find "copyFieldsFrom".toList = none) :
    Unambiguous m.fields m.aliases := by
  obtain ⟨props', m0, m1, src, fs, al, r⟩ := parseMessage_run h
  have e := r.coll
  rw [hp] at e
  cases e
  have h0 : m0 = {} := by
    rcases msgReuse_ok r.reuse with ⟨e, _⟩ | ⟨s, x, y, hs, _⟩
    · exact e
    · rw [hr] at hs; cases hs
  have hs : src = none := by
    rcases copySource_ok r.from_ with ⟨e, _⟩ | ⟨s, x, hs, _⟩
    · exact e
    · rw [hc] at hs; cases hs
  have hal : al = [] := by
    have hal := r.ali
    rw [h0, hs] at hal
    simp only [msgCopyAliases, Res.bind_eq_ok] at hal
    obtain ⟨w, _, hal⟩ := hal
    split at hal
    · cases hal; rfl
    · cases hal; rfl
  have := r.add
  rw [hal] at this
  exact addAliases_unambiguous this

/-- The same for interfaces. -/
theorem C42_interface_unambiguous_partial (env : MEnv) (node : Xml) (i : Interface) (h : parseInterface env node = .ok i) (props : Props)
    (hp : childrenAsProps node ifaceProps (nodeProps node) = some props) (hr : props.find "reuse".toList = none)
    (hc : props.find "copyFieldsFrom".toList = none) : Unambiguous i.fields i.aliases := by
  obtain ⟨props', i0, src, al, r⟩ := parseInterface_run h
  have e := r.coll
  rw [hp] at e
  cases e
  have h0 : i0 = {} := by
    rcases ifaceReuse_ok r.reuse with ⟨e, _⟩ | ⟨s, x, y, hs, _⟩
    · exact e
    · rw [hr] at hs; cases hs
  have hs : src = none := by
    rcases copySource_ok r.from_ with ⟨e, _⟩ | ⟨s, x, hs, _⟩
    · exact e
    · rw [hc] at hs; cases hs
  have hal : al = [] := by
    have hal := r.ali
    rw [h0, hs] at hal
    simp only [ifaceCopyAliases, Res.bind_eq_ok] at hal
    obtain ⟨w, _, hal⟩ := hal
    split at hal
    · cases hal; rfl
    · cases hal; rfl
  have := r.add
  rw [hal] at this
  exact addAliases_unambiguous this

open Sample in
/-- A message and an interface with two aliases each, one of them for a member of a field. -/
example : (∃ m, AcceptedMsg m ∧ m.aliases.map Alias.fieldName = ["a".toList, "b.c".toList]) ∧
    ∃ i, AcceptedIface i ∧ i.aliases.map Alias.fieldName = ["a".toList, "b.c".toList] := by
  let ch := [el "fields" [] [el "int" [("name", "a"), ("type", "uint8")], el "bundle" [("name", "b")] [el "int" [("name", "c"), ("type", "uint8")]]],
    el "alias" [("name", "x"), ("field", "$a")], el "alias" [("name", "y"), ("field", "$b.c")]]
  constructor
  · obtain ⟨m, _, h1, h2⟩ := acceptedMsg menv0_ok (x := el "message" [("name", "M"), ("id", "1")] ch)
      (p := fun m => decide (m.aliases.map Alias.fieldName = ["a".toList, "b.c".toList])) (by decide +kernel)
    exact ⟨m, h1, by simpa using h2⟩
  · obtain ⟨m, _, h1, h2⟩ := acceptedIface menv0_ok (x := el "interface" [("name", "M")] ch)
      (p := fun m => decide (m.aliases.map Alias.fieldName = ["a".toList, "b.c".toList])) (by decide +kernel)
    exact ⟨m, h1, by simpa using h2⟩

open Sample in
/-- Refutation of the full second half: the alias x is copied, a new field x defined. -/
theorem C42_message_ambiguous_witness : ∃ m a f, AcceptedMsg m ∧ a ∈ m.aliases ∧ f ∈ m.fields ∧ a.name = f.name := by
  obtain ⟨m, _, h1, h2⟩ := acceptedMsg (withMsg_ok menv0_ok "M" (el "message" [("name", "M"), ("id", "1")] [el "fields" [] [
      el "int" [("name", "a"), ("type", "uint8")]], el "alias" [("name", "x"), ("field", "$a")]]))
    (x := el "message" [("name", "N"), ("id", "2"), ("copyFieldsFrom", "M")] [el "int" [("name", "x"), ("type", "uint8")]])
    (p := fun m => m.aliases.any fun a => m.fields.any fun f => a.name == f.name)
    (by decide +kernel)
  simp only [List.any_eq_true, beq_iff_eq] at h2
  obtain ⟨a, ha, f, hf, e⟩ := h2
  exact ⟨m, a, f, h1, ha, hf, e⟩

/-! ## C43 -/

/-- C43 for messages, partial: a message that copies fields with their aliases (and does not reuse another message) starts with exactly those
    aliases, in the same order, that denote one of its fields; the others are newly defined. Missing: aliases of members of fields (paths with
    dots), which are never kept. -/
theorem C43_message_partial (env : MEnv) (node : Xml) (m : Message) (h : parseMessage env node = .ok m) (props : Props)
    (hp : msgProps node = some props) (hr : props.find "reuse".toList = none) (s : Str) (hs : props.find "copyFieldsFrom".toList = some s)
    (orig : Message) (ho : env.findMessage s = some orig)
    (hc : props.find "copyFieldsAliases".toList = none ∨ ∃ v, props.find "copyFieldsAliases".toList = some v ∧ strToBool v = some true)
    (hdsl : Dsl.isSupported env.dsl .fieldAlias = true) :
    ∃ new, m.aliases = (orig.aliases.filter fun a => decide (∃ f ∈ m.fields, f.name = a.fieldName)) ++ new ∧
      (getChildren node ["alias".toList] = [] → new = []) := by
  obtain ⟨props', m0, m1, src, fs, al, r⟩ := parseMessage_run h
  have e := r.coll
  rw [hp] at e
  cases e
  have h0 : m0 = {} := by
    rcases msgReuse_ok r.reuse with ⟨e, _⟩ | ⟨s, x, y, hs, _⟩
    · exact e
    · rw [hr] at hs; cases hs
  have hsrc : src = some (orig.fields, orig.aliases) := by
    rcases copySource_ok r.from_ with ⟨_, e⟩ | ⟨s', x, e, _, h1, h2⟩
    · rw [hs] at e; cases e
    · rw [hs] at e; cases e
      rw [ho] at h2
      rcases h2 with h2 | ⟨h2, _⟩
      · cases h2; exact h1
      · cases h2
  have hal := r.ali
  rw [h0, hsrc] at hal
  simp only [msgCopyAliases, Res.bind_eq_ok] at hal
  obtain ⟨w, hw, hal⟩ := hal
  have hwt : w = true := by
    unfold wantAliases at hw
    split at hw
    · simp at hw
    · rcases hc with hc | ⟨v, hc, hv⟩
      · rw [hc] at hw
        simpa [hdsl] using hw.symm
      · rw [hc] at hw
        simp only [hdsl, hv] at hw
        simpa using hw.symm
  rw [hwt] at hal
  simp only [if_true, Res.pure_eq, Res.ok.injEq] at hal
  have hal : al = orig.aliases.filter fun a => decide (∃ f ∈ m.fields, f.name = a.fieldName) := by
    rw [← hal]
    simp only [Option.map_some, Option.getD_some, List.nil_append, knownAliases]
    congr 1
    funext a
    rw [Bool.eq_iff_iff]
    simp only [List.any_eq_true, beq_iff_eq, decide_eq_true_eq]
    exact ⟨fun ⟨f, h1, h2⟩ => ⟨f, h1, h2.symm⟩, fun ⟨f, h1, h2⟩ => ⟨f, h1, h2.symm⟩⟩
  obtain ⟨new, h1, _⟩ := newAliases_ok (addAliases_ok r.add)
  refine ⟨new, by rw [h1, hal], ?_⟩
  intro hn
  have := addAliases_ok r.add
  rw [hn, newAliases] at this
  cases this
  simpa using h1

theorem newAliases_length {env : FEnv} {ms : List Field} {ns : List Xml} {acc al : List Alias} (h : newAliases env ms ns acc = .ok al) :
    al.length = acc.length + ns.length := by
  induction ns generalizing acc with
  | nil => cases h; simp
  | cons n ns ih =>
    simp only [newAliases, Res.bind_eq_ok] at h
    obtain ⟨a, _, _, _, h3⟩ := h
    rw [ih h3]
    simp only [List.length_append, List.length_cons, List.length_nil]
    omega

/-- C43 for messages, the other side: a message that says `copyFieldsAliases="false"` (and does not reuse another message), or copies no fields, has one
    alias for each of its own `<alias>` elements and no others. -/
theorem C43_message_declined (env : MEnv) (node : Xml) (m : Message) (h : parseMessage env node = .ok m) (props : Props)
    (hp : msgProps node = some props) (hr : props.find "reuse".toList = none)
    (hc : props.find "copyFieldsFrom".toList = none ∨ ∃ v, props.find "copyFieldsAliases".toList = some v ∧ strToBool v = some false) :
    m.aliases.length = (getChildren node ["alias".toList]).length := by
  obtain ⟨props', m0, m1, src, fs, al, r⟩ := parseMessage_run h
  have e := r.coll
  rw [hp] at e
  cases e
  have h0 : m0 = {} := by
    rcases msgReuse_ok r.reuse with ⟨e, _⟩ | ⟨s, x, y, hs, _⟩
    · exact e
    · rw [hr] at hs; cases hs
  have hal := r.ali
  rw [h0] at hal
  simp only [msgCopyAliases, Res.bind_eq_ok] at hal
  obtain ⟨w, hw, hal⟩ := hal
  have hnil : al = [] := by
    rcases hc with hc | ⟨v, hc, hv⟩
    · have hsrc : src = none := by
        rcases copySource_ok r.from_ with ⟨e, _⟩ | ⟨s', x, e, _, h1, h2⟩
        · exact e
        · rw [hc] at e; cases e
      rw [hsrc] at hal
      split at hal
      · cases hal; rfl
      · cases hal; rfl
    · unfold wantAliases at hw
      split at hw
      · simp at hw
      · rw [hc] at hw
        simp only [hv] at hw
        split at hw
        · simp at hw
        · simp at hw
          rw [hw] at hal
          cases hal; rfl
  have := newAliases_length (addAliases_ok r.add)
  rw [this, hnil]
  simp

open Sample in
/-- One of two aliases is kept, the other one, of a member of a field, is lost although the field is copied: refutation of the full C43. -/
theorem C43_message_dotted_witness : ∃ m orig, AcceptedMsg m ∧ AcceptedMsg orig ∧
    orig.aliases.map Alias.fieldName = ["a".toList, "b.c".toList] ∧ m.aliases.map Alias.fieldName = ["a".toList] ∧
    m.fields.map Field.name = orig.fields.map Field.name := by
  let M := el "message" [("name", "M"), ("id", "1")] [el "fields" [] [el "int" [("name", "a"), ("type", "uint8")],
      el "bundle" [("name", "b")] [el "int" [("name", "c"), ("type", "uint8")]]],
    el "alias" [("name", "x"), ("field", "$a")], el "alias" [("name", "y"), ("field", "$b.c")]]
  obtain ⟨o, _, h1, h2⟩ := acceptedMsg menv0_ok (x := M)
    (p := fun m => decide (m.aliases.map Alias.fieldName = ["a".toList, "b.c".toList] ∧ m.fields.map Field.name = ["a".toList, "b".toList]))
    (by decide +kernel)
  obtain ⟨m, _, h1', h2'⟩ := acceptedMsg (withMsg_ok menv0_ok "M" M)
    (x := el "message" [("name", "N"), ("id", "2"), ("copyFieldsFrom", "M")])
    (p := fun m => decide (m.aliases.map Alias.fieldName = ["a".toList] ∧ m.fields.map Field.name = ["a".toList, "b".toList]))
    (by decide +kernel)
  simp only [decide_eq_true_eq] at h2 h2'
  exact ⟨m, o, h1', h1, h2.1, h2'.1, by rw [h2.2, h2'.2]⟩

open Sample in
/-- The hypotheses of `C43_message_declined` are met: aliases of the message copied from are not taken. -/
example : ∃ m, parseMessage (withMsg menv0 "M" (el "message" [("name", "M"), ("id", "1")] [el "fields" [] [el "int" [("name", "a"), ("type", "uint8")]],
      el "alias" [("name", "x"), ("field", "$a")]]))
    (el "message" [("name", "N"), ("id", "2"), ("copyFieldsFrom", "M"), ("copyFieldsAliases", "false")] [el "alias" [("name", "y"), ("field", "$a")]]) = .ok m ∧
    m.aliases.map Alias.name = ["y".toList] ∧ m.fields.length = 1 := by
  obtain ⟨m, h0, _, h2⟩ := acceptedMsg (withMsg_ok menv0_ok "M" (el "message" [("name", "M"), ("id", "1")] [el "fields" [] [
      el "int" [("name", "a"), ("type", "uint8")]], el "alias" [("name", "x"), ("field", "$a")]]))
    (x := el "message" [("name", "N"), ("id", "2"), ("copyFieldsFrom", "M"), ("copyFieldsAliases", "false")] [el "alias" [("name", "y"), ("field", "$a")]])
    (p := fun m => decide (m.aliases.map Alias.name = ["y".toList] ∧ m.fields.length = 1))
    (by decide +kernel)
  exact ⟨m, h0, of_decide_eq_true h2⟩

end Commsdsl.Props
