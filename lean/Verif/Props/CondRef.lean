import Verif.Lemmas.CondRef
import Verif.Lemmas.FieldInv
import Verif.Lemmas.Message
import Verif.Lemmas.SampleMsg
import Verif.Props.FieldChecks
/-!
# Conditions and detached prefixes refer to what is there (C66, C70)
-/
namespace Commsdsl.Props
open Commsdsl Text Fld Msg Spec Fld.CondRef

namespace CondProofs

/-- The object before `parseImpl` without `reuse`. -/
theorem fresh {env : FEnv} {pc : ParentInfo → Xml → Res Field} {parent : ParentInfo} {node : Xml} {f f1 f2 : Field} {b : BCtx} {c : Common}
    {props : Props} (pr : Prep env pc parent node f b c props f1 f2) (hr : props.find "reuse".toList = none) :
    f2.members = [] ∧ f2.validCond = none := by
  have e1 : f1 = initField env f.kind { inBitfield := parent.isBitfield } := by
    rcases checkReuse_ok pr.reuse with ⟨_, e⟩ | ⟨s', _, _, e1, _⟩
    · exact e
    · rw [hr] at e1; cases e1
  have h1 : f1.members = [] ∧ f1.validCond = none := by rw [e1]; cases f.kind <;> exact ⟨rfl, rfl⟩
  rcases pr.replaced with e2 | ⟨r, rs, _, _, e2⟩
  · rw [e2]; exact h1
  · cases f1 <;> simp only [replaceImpl, Res.bind_eq_ok, Res.pure_eq] at e2
    all_goals try (cases e2; done)
    all_goals
      obtain ⟨ms, e3, e4⟩ := e2
      cases e4
      simp only [Field.members, Field.validCond] at h1 ⊢
      refine ⟨?_, h1.2⟩
      rw [h1.1] at e3
      have := replaceMembers_names e3
      simpa using this

theorem copy_ok {env : FEnv} {b : BCtx} {k : Kind} {ms : List Field} {r : Option CondM.Cond}
    (h : copyValidCond env b k ms none = .ok r) : ∀ c, r = some c → CondOk env ms c := by
  simp only [copyValidCond] at h
  intro c hc
  subst hc
  split at h
  · simp at h
  split at h
  · simp at h
  split at h
  · simp at h
  split at h
  · simp at h
  split at h
  · simp at h
  split at h
  · simp at h
  split at h
  · simp at h
  · obtain ⟨e, h⟩ := verified_ok h
    cases e
    exact h

theorem single_cond_ok {env : FEnv} {b : BCtx} {ms : List Field} {cur r : Option CondM.Cond} (h : singleValidCond env b ms cur = .ok r)
    (hcur : ∀ c, cur = some c → CondOk env ms c) : ∀ c, r = some c → CondOk env ms c := by
  simp only [singleValidCond] at h
  split at h
  · simp at h
  split at h
  · cases h; exact hcur
  split at h
  · cases h; exact hcur
  simp only [Res.bind_eq_ok] at h
  obtain ⟨e, _, _, _, h⟩ := h
  obtain ⟨e, h⟩ := verified_ok h
  rintro c hc
  rw [hc] at e
  cases e
  exact h

theorem multi_cond_ok {env : FEnv} {b : BCtx} {ms : List Field} {cur r : Option CondM.Cond} (h : multiValidCond env b ms cur = .ok r)
    (hcur : ∀ c, cur = some c → CondOk env ms c) : ∀ c, r = some c → CondOk env ms c := by
  simp only [multiValidCond] at h
  split at h
  · cases h; exact hcur
  split at h
  · cases h; exact hcur
  split at h
  · split at h
    · simp at h
    simp only [Res.bind_eq_ok] at h
    obtain ⟨e, _, _, _, h⟩ := h
    obtain ⟨e, h⟩ := verified_ok h
    rintro c hc
    rw [hc] at e
    cases e
    exact h
  · simp at h

theorem update_cond_ok {env : FEnv} {b : BCtx} {k : Kind} {ms : List Field} {r : Option CondM.Cond}
    (h : updateValidCond env b k ms none = .ok r) : ∀ c, r = some c → CondOk env ms c := by
  simp only [updateValidCond, Res.bind_eq_ok] at h
  obtain ⟨c1, h1, c2, h2, h3⟩ := h
  exact multi_cond_ok h3 (single_cond_ok h2 (copy_ok h1))

end CondProofs

open CondProofs

/-- C70, fields, partial: the validity condition of a bitfield or bundle defined without `reuse` only compares and checks things that are there:
    every `$` reference in it leads to a member, and sides that are compared are comparable. Missing: `reuse`, which keeps the condition while
    members go away (see the witness). -/
theorem C70_field_partial (env : FEnv) (fuel : Nat) (parent : ParentInfo) (node : Xml) (f : Field)
    (h : parseField env fuel parent node = .ok f) (props : Props) (hp : collectProps f.kind node = some props)
    (hr : props.find "reuse".toList = none) : ∀ c, f.validCond = some c → CondOk env f.members c := by
  obtain ⟨n, rfl, h⟩ := parseField_ok h
  obtain ⟨b, c', props', f1, f2, pr⟩ := parseStep_prep h
  have e := pr.coll
  rw [hp] at e
  cases e
  obtain ⟨_, hc⟩ := fresh pr hr
  have hb := pr.body
  have hk2 := pr.kind2
  intro c hcd
  cases f with
  | bitfield c1 e1 ms1 cd1 =>
    cases f2 <;> simp [Field.kind] at hk2
    simp only [Field.validCond] at hc
    subst hc
    simp only [Field.setCommon, parseBody, bitfieldImpl, Res.bind_eq_ok, Res.pure_eq] at hb
    obtain ⟨_, _, ms', _, cd', h3, h4⟩ := hb
    cases h4
    exact update_cond_ok h3 c hcd
  | bundle c1 ms1 al1 cd1 =>
    cases f2 <;> simp [Field.kind] at hk2
    simp only [Field.validCond] at hc
    subst hc
    simp only [Field.setCommon, parseBody, bundleImpl, Res.bind_eq_ok, Res.pure_eq] at hb
    obtain ⟨ms', _, _, _, cd', h3, h4⟩ := hb
    cases h4
    exact update_cond_ok h3 c hcd
  | _ => simp [Field.validCond] at hcd

/-- C66 and C70, members of bundles. -/
theorem CondProofs.bundle_siblings {env : FEnv} {fuel : Nat} {parent : ParentInfo} {node : Xml} {f : Field}
    (h : parseField env fuel parent node = .ok f) {props : Props} (hp : collectProps f.kind node = some props)
    (hr : props.find "reuse".toList = none) (hk : f.kind = .bundle) :
    ∀ (i : Nat) (m : Field), f.members[i]? = some m → SiblingsOk env (f.members.take i) m := by
  obtain ⟨n, rfl, h⟩ := parseField_ok h
  obtain ⟨b, c', props', f1, f2, pr⟩ := parseStep_prep h
  have e := pr.coll
  rw [hp] at e
  cases e
  obtain ⟨hm, _⟩ := fresh pr hr
  have hb := pr.body
  have hk2 := pr.kind2
  cases f <;> simp [Field.kind] at hk
  cases f2 <;> simp [Field.kind] at hk2
  simp only [Field.members] at hm
  subst hm
  simp only [Field.setCommon, parseBody, bundleImpl, Res.bind_eq_ok, Res.pure_eq] at hb
  obtain ⟨ms', h1, _, _, cd', h3, h4⟩ := hb
  cases h4
  intro i m hi
  rcases (bundleMembers_ok h1).1 with e | ⟨ns, h5, _⟩
  · rw [e] at hi; simp [keepMembers, Field.members] at hi
  · exact newMembers_siblings h5 i m (by simp [keepMembers]) hi

/-- C70, optional members, partial: the condition of an `<optional>` member of a bundle defined without `reuse` only refers to what comes
    before it in the bundle, and only to comparable things. Missing: `reuse`, `replace`. -/
theorem C70_member_partial (env : FEnv) (fuel : Nat) (parent : ParentInfo) (node : Xml) (f : Field)
    (h : parseField env fuel parent node = .ok f) (props : Props) (hp : collectProps f.kind node = some props)
    (hr : props.find "reuse".toList = none) (hk : f.kind = .bundle) :
    ∀ (i : Nat) (c : Common) (st : OptState) (s : Slot Field) (cd : CondM.Cond), f.members[i]? = some (.optional c st s (some cd)) →
      CondOk env (f.members.take i) cd :=
  fun i c st s cd hi => (bundle_siblings h hp hr hk i _ hi).2 c st s cd rfl

/-- C66, bundles, partial: a detached length, count or element length prefix of a member of a bundle defined without `reuse` is the path of a
    number that comes before the member. Missing: `reuse`, `replace`; detached termination suffixes, which are not checked at all. -/
theorem C66_member_partial (env : FEnv) (fuel : Nat) (parent : ParentInfo) (node : Xml) (f : Field)
    (h : parseField env fuel parent node = .ok f) (props : Props) (hp : collectProps f.kind node = some props)
    (hr : props.find "reuse".toList = none) (hk : f.kind = .bundle) :
    ∀ (i : Nat) (m : Field), f.members[i]? = some m → ∀ path ∈ detachedPaths m, path ≠ [] → ∃ p, path = joinDots p ∧ NumberAt (f.members.take i) p :=
  fun i m hi path hm hne => ((bundle_siblings h hp hr hk i m hi).1 path hm).resolve_left hne

/-! ## Messages -/

namespace CondProofs

theorem addFields_siblings {env : FEnv} {pc : Xml → Res Field} {ns : List Xml} {acc all : List Field}
    (h : addFields env pc ns acc = .ok all) :
    ∀ (i : Nat) (f : Field), acc.length ≤ i → all[i]? = some f → SiblingsOk env (all.take i) f := by
  induction ns generalizing acc with
  | nil =>
    cases h
    intro i f hi hf
    have := (List.getElem?_eq_some_iff.1 hf).1
    omega
  | cons n ns ih =>
    simp only [addFields, Res.bind_eq_ok] at h
    obtain ⟨f0, h1, ok, h2, _, h3, h4⟩ := h
    have h3 := Res.check_eq_ok.1 h3
    rw [h3] at h2
    obtain ⟨fs, rfl, _⟩ := addFields_mem h4
    intro i f hi hf
    by_cases he : i = acc.length
    · subst he
      rw [List.append_assoc, List.getElem?_append_right (Nat.le_refl _)] at hf
      simp only [Nat.sub_self, List.singleton_append, List.getElem?_cons_zero, Option.some.injEq] at hf
      subst hf
      rw [List.append_assoc, List.take_left']
      · exact siblings_ok h2
      · rfl
    · exact ih h4 i f (by simp; omega) hf

/-- Fields of a message that are not copied. -/
theorem message_siblings {env : MEnv} {node : Xml} {m : Message} (h : parseMessage env node = .ok m) {props : Props}
    (hp : msgProps node = some props) (hr : props.find "reuse".toList = none) (hc : props.find "copyFieldsFrom".toList = none) :
    ∀ (i : Nat) (f : Field), m.fields[i]? = some f → SiblingsOk env.fld (m.fields.take i) f := by
  obtain ⟨props', m0, m1, src, fs, al, run⟩ := parseMessage_run h
  have e := run.coll
  rw [hp] at e
  cases e
  have hm0 : m0.fields = [] := by
    rcases msgReuse_ok run.reuse with ⟨rfl, _⟩ | ⟨s, _, _, e, _⟩
    · rfl
    · rw [hr] at e; cases e
  have hfs : fs = [] := by
    have h1 := run.from_
    have h2 := run.repl
    have : src = none := by
      unfold copySource at h1
      rw [hc] at h1
      split at h1
      · simp at h1
      · exact (Res.ok.inj h1).symm
    subst this
    simp only [msgCopied, hm0] at h2
    rcases msgReplace_ok h2 with e | ⟨r, n, f, _, _, _, e⟩
    · exact e
    · simp [replaceFirst] at e
  subst hfs
  rcases msgFields_ok run.flds with ⟨e, _⟩ | ⟨ns, new, _, h3, _⟩
  · intro i f hi; rw [e] at hi; simp at hi
  · intro i f hi; exact addFields_siblings h3 i f (by simp) hi

end CondProofs

/-- C66, messages, partial: a detached length, count or element length prefix of a field of a message is the path of a number among the fields
    before it. Missing: fields taken over by `reuse` or `copyFieldsFrom`; detached termination suffixes. -/
theorem C66_message_partial (env : MEnv) (node : Xml) (m : Message) (h : parseMessage env node = .ok m) (props : Props)
    (hp : msgProps node = some props) (hr : props.find "reuse".toList = none) (hc : props.find "copyFieldsFrom".toList = none) :
    ∀ (i : Nat) (f : Field), m.fields[i]? = some f → ∀ path ∈ detachedPaths f, path ≠ [] → ∃ p, path = joinDots p ∧ NumberAt (m.fields.take i) p :=
  fun i f hi path hm hne => ((message_siblings h hp hr hc i f hi).1 path hm).resolve_left hne

/-- C70, optional fields of messages, partial (without `reuse` and `copyFieldsFrom`): the condition of an `<optional>` field only refers to what
    comes before it in the message. -/
theorem C70_message_member_partial (env : MEnv) (node : Xml) (m : Message) (h : parseMessage env node = .ok m) (props : Props)
    (hp : msgProps node = some props) (hr : props.find "reuse".toList = none) (hc : props.find "copyFieldsFrom".toList = none) :
    ∀ (i : Nat) (c : Common) (st : OptState) (s : Slot Field) (cd : CondM.Cond), m.fields[i]? = some (.optional c st s (some cd)) →
      CondOk env.fld (m.fields.take i) cd :=
  fun i c st s cd hi => (message_siblings h hp hr hc i _ hi).2 c st s cd rfl

namespace CondProofs

theorem msgHead_conds {env : MEnv} {props : Props} {m m1 : Message} (h : msgHead env props m = .ok m1) :
    m1.construct = m.construct ∧ m1.readCond = m.readCond ∧ m1.validCond = m.validCond := by
  simp only [msgHead, Res.bind_eq_ok, Res.ofOption_eq_ok, Res.pure_eq] at h
  obtain ⟨_, h1, _, _, _, _, _, h4, _, h5, _, h6, _, h7, _, _, _, _, _, h10, _, _, h⟩ := h
  cases h
  exact ⟨rfl, rfl, rfl⟩

theorem parseMessage_conds {env : MEnv} {node : Xml} {m : Message} (h : parseMessage env node = .ok m) :
    ∃ props m0, msgProps node = some props ∧ msgReuse env props = .ok m0 ∧
      msgConds env node props m.fields ⟨m0.construct, m0.readCond, m0.validCond⟩ = .ok ⟨m.construct, m.readCond, m.validCond⟩ := by
  simp only [parseMessage, Res.bind_eq_ok, Res.ofOption_eq_ok, Res.pure_eq] at h
  obtain ⟨props, h1, m0, h2, m1, h3, b, hb, al, h7, al2, h8, _, _, code, _, c, hc, h⟩ := h
  cases h
  obtain ⟨e1, e2, e3⟩ := msgHead_conds h3
  refine ⟨props, m0, h1, h2, ?_⟩
  rw [← e1, ← e2, ← e3]
  exact hc

theorem copyCond_ok {env : MEnv} {key : Str} {find : Str → Option (Option CondM.Cond)} {fs : List Field} {props : Props}
    {r : Option CondM.Cond} (h : copyCond env key find fs props none = .ok r) : ∀ c, r = some c → CondOk env.fld fs c := by
  unfold copyCond at h
  intro c hc
  subst hc
  split at h
  · simp at h
  split at h
  · simp at h
  split at h
  · simp at h
  split at h
  · obtain ⟨e, h⟩ := verified_ok h
    cases e
    exact h
  · simp at h

theorem singleCond_ok {env : MEnv} {key : Str} {fs : List Field} {props : Props} {cur r : Option CondM.Cond}
    (h : singleCond env key fs props cur = .ok r) (hcur : ∀ c, cur = some c → CondOk env.fld fs c) : ∀ c, r = some c → CondOk env.fld fs c := by
  unfold singleCond at h
  split at h
  · simp at h
  split at h
  · cases h; exact hcur
  split at h
  · cases h; exact hcur
  simp only [Res.bind_eq_ok] at h
  obtain ⟨e, _, h⟩ := h
  obtain ⟨e, h⟩ := verified_ok h
  rintro c hc
  rw [hc] at e
  cases e
  exact h

theorem multiCond_ok {env : MEnv} {key : Str} {node : Xml} {fs : List Field} {props : Props} {cur r : Option CondM.Cond}
    (h : multiCond env key node fs props cur = .ok r) (hcur : ∀ c, cur = some c → CondOk env.fld fs c) :
    ∀ c, r = some c → CondOk env.fld fs c := by
  unfold multiCond at h
  split at h
  · cases h; exact hcur
  split at h
  · cases h; exact hcur
  split at h
  · split at h
    · simp at h
    simp only [Res.bind_eq_ok] at h
    obtain ⟨e, _, h⟩ := h
    obtain ⟨e, h⟩ := verified_ok h
    rintro c hc
    rw [hc] at e
    cases e
    exact h
  · simp at h

theorem constructAs_ok {dsl : Nat} {key : Str} {props : Props} {src cur r : Option CondM.Cond} (h : constructAs dsl key props src cur = .ok r) :
    r = cur ∨ (r = src ∧ cur = none) := by
  unfold constructAs at h
  split at h
  · simp at h
  split at h
  · exact Or.inl (Res.ok.inj h).symm
  split at h
  · exact Or.inl (Res.ok.inj h).symm
  split at h
  · simp at h
  · exact Or.inl (Res.ok.inj h).symm
  · split at h
    · simp at h
    · rename_i hn
      refine Or.inr ⟨(Res.ok.inj h).symm, ?_⟩
      simp at hn
      exact hn.2

theorem means_nil {s : Str} {i : RefInfo} (h : Means (Leads []) s i) : False := by
  have hl : ∀ p f, ¬ Leads [] p f := by rintro p f ⟨n, q, m, _, h, _⟩; simp at h
  cases h with
  | field _ _ h => exact hl _ _ h
  | value _ h _ _ => exact hl _ _ h
  | size _ _ h _ _ => exact hl _ _ h
  | «exists» _ _ h _ => exact hl _ _ h

/-- A condition that makes sense without any fields makes sense among all fields. -/
theorem leaf_nil {env : FEnv} {fs : List Field} {e : CondM.Expr} (h : LeafOk env [] e) : LeafOk env fs e := by
  cases h with
  | check h _ => exact (means_nil h).elim
  | ifaceCheck h1 h2 h3 h4 h5 => exact .ifaceCheck h1 h2 h3 h4 h5
  | size h _ _ => exact (means_nil h).elim
  | value h _ _ _ _ => exact (means_nil h).elim
  | sibling h _ _ _ _ => exact (means_nil h).elim
  | siblingIface h _ _ _ _ _ => exact (means_nil h).elim
  | ifaceSize h1 h2 h3 h4 h5 => exact .ifaceSize h1 h2 h3 h4 h5
  | ifaceValue h1 h2 h3 h4 h5 h6 h7 => exact .ifaceValue h1 h2 h3 h4 h5 h6 h7
  | ifaceSibling _ _ _ _ h _ _ => exact (means_nil h).elim
  | ifaces h1 h2 h3 h4 h5 h6 h7 h8 => exact .ifaces h1 h2 h3 h4 h5 h6 h7 h8

end CondProofs

/-- C70, conditions of messages, partial: the validity condition of a message defined without `reuse` only refers to fields of the message and of
    the interfaces, the construct and read conditions only to fields of the interfaces, and all compare comparable things. Missing: `reuse`. -/
theorem C70_message_partial (env : MEnv) (node : Xml) (m : Message) (h : parseMessage env node = .ok m) (props : Props)
    (hp : msgProps node = some props) (hr : props.find "reuse".toList = none) :
    (∀ c, m.construct = some c → CondOk env.fld [] c) ∧ (∀ c, m.readCond = some c → CondOk env.fld [] c) ∧
    ∀ c, m.validCond = some c → CondOk env.fld m.fields c := by
  obtain ⟨props', m0, h1, h2, h3⟩ := parseMessage_conds h
  rw [hp] at h1
  cases h1
  have hm0 : m0 = {} := by
    rcases msgReuse_ok h2 with ⟨rfl, _⟩ | ⟨s, _, _, e, _⟩
    · rfl
    · rw [hr] at e; cases e
  subst hm0
  simp only [msgConds, Res.bind_eq_ok, Res.pure_eq] at h3
  obtain ⟨k1, a1, r1, b1, v1, c1, k2, a2, _, _, k3, a3, _, _, r2, b2, r3, b3, v2, c2, v3, c3, r4, b4, v4, c4, he⟩ := h3
  have he := Res.ok.inj he
  simp only [Conds.mk.injEq] at he
  obtain ⟨e1, e2, e3⟩ := he
  have hk := multiCond_ok a3 (singleCond_ok a2 (copyCond_ok a1))
  have hr3 := multiCond_ok b3 (singleCond_ok b2 (copyCond_ok b1))
  have hv3 := multiCond_ok c3 (singleCond_ok c2 (copyCond_ok c1))
  refine ⟨?_, ?_, ?_⟩
  · rw [← e1]; exact hk
  · rw [← e2]
    rcases constructAs_ok b4 with e | ⟨e, _⟩
    · rw [e]; exact hr3
    · rw [e]; exact hk
  · rw [← e3]
    rcases constructAs_ok c4 with e | ⟨e, _⟩
    · rw [e]; exact hv3
    · rw [e]; exact fun c hc x hx => leaf_nil (hk c hc x hx)

/-- C70, copied conditions: `copyValidCondFrom` names an accepted field of the same kind, and the condition is checked against the members of
    the new field. -/
theorem C70_copied (env : FEnv) (fuel : Nat) (parent : ParentInfo) (node : Xml) (f : Field) (h : parseField env fuel parent node = .ok f)
    (hk : f.kind = .bundle ∨ f.kind = .bitfield) (props : Props) (hp : collectProps f.kind node = some props) (s : Str)
    (hs : props.find "copyValidCondFrom".toList = some s) (hne : s ≠ []) (hd : Dsl.propertySupported env.dsl "copyValidCondFrom".toList = true) :
    ∃ g, env.findField s = some g ∧ g.kind = f.kind := by
  obtain ⟨n, rfl, h⟩ := parseField_ok h
  obtain ⟨b, c', props', f1, f2, pr⟩ := parseStep_prep h
  have e := pr.coll
  rw [hp] at e
  cases e
  have hb := pr.body
  have hk2 := pr.kind2
  have hctx : b.props = props := by rw [pr.ctx]; rfl
  have key : ∀ (k : Kind) (ms : List Field) (cd r : Option CondM.Cond), copyValidCond env b k ms cd = .ok r →
      ∃ g, env.findField s = some g ∧ g.kind = k := by
    intro k ms cd r h
    have hg : b.props.getStr "copyValidCondFrom".toList = s := by rw [hctx, Props.getStr, hs]; rfl
    simp only [copyValidCond, hg] at h
    split at h
    · simp at h
    split at h
    · rename_i e; exact absurd (by simpa using e) hne
    split at h
    · rename_i e; rw [hd] at e; simp at e
    split at h
    · simp at h
    · rename_i g hg
      split at h
      · simp at h
      · rename_i e
        exact ⟨g, hg, by simpa using e⟩
  rcases hk with hk | hk
  · cases f <;> simp [Field.kind] at hk
    cases f2 <;> simp [Field.kind] at hk2
    simp only [Field.setCommon, parseBody, bundleImpl, Res.bind_eq_ok, Res.pure_eq] at hb
    obtain ⟨ms', h1, _, _, cd', h3, h4⟩ := hb
    simp only [updateValidCond, Res.bind_eq_ok] at h3
    obtain ⟨_, h3, _⟩ := h3
    exact key _ _ _ _ h3
  · cases f <;> simp [Field.kind] at hk
    cases f2 <;> simp [Field.kind] at hk2
    simp only [Field.setCommon, parseBody, bitfieldImpl, Res.bind_eq_ok, Res.pure_eq] at hb
    obtain ⟨_, _, ms', h1, cd', h3, h4⟩ := hb
    simp only [updateValidCond, Res.bind_eq_ok] at h3
    obtain ⟨_, h3, _⟩ := h3
    exact key _ _ _ _ h3

/-! ## What is there can be referred to -/

namespace CondProofs

/-- A name without dots and marks. -/
def Plain (n : Str) : Prop := n ≠ [] ∧ '.' ∉ n ∧ '#' ∉ n ∧ '?' ∉ n

/-- A path with something behind. -/
def J : List Str → Str → Str
  | [], w => w
  | n :: q, w => match J q w with
    | [] => n
    | c :: cs => n ++ '.' :: c :: cs

theorem J_ne {n : Str} {q : List Str} {w : Str} (h : n ≠ []) : J (n :: q) w ≠ [] := by
  unfold J
  split
  · exact h
  · simp

theorem J_nil {p : List Str} (h : ∀ x ∈ p, Plain x) : J p [] = joinDots p := by
  induction p with
  | nil => rfl
  | cons n q ih =>
    have ih := ih (fun x hx => h x (by simp [hx]))
    cases q with
    | nil => rfl
    | cons a q =>
      have hne := J_ne (q := q) (w := []) (h a (by simp)).1
      rw [J]
      rw [ih] at hne ⊢
      split
      · exact absurd ‹_› hne
      · rename_i e; rw [← e]; rfl

theorem J_value {p : List Str} {v : Str} (hv : v ≠ []) (hp : p ≠ []) : J p v = joinDots p ++ '.' :: v := by
  induction p with
  | nil => exact absurd rfl hp
  | cons n q ih =>
    cases q with
    | nil =>
      simp only [J, joinDots]
      cases v with
      | nil => exact absurd rfl hv
      | cons a as => rfl
    | cons a q =>
      have ih := ih (by simp)
      rw [J, ih]
      split
      · rename_i e; simp at e
      · rename_i e; rw [← e]; simp [joinDots]

theorem dropMarks {n r : Str} (hn : Plain n) : (n ++ r).takeWhile isMark = [] ∧ (n ++ r).dropWhile isMark = n ++ r := by
  obtain ⟨h1, _, h3, h4⟩ := hn
  cases n with
  | nil => exact absurd rfl h1
  | cons a as =>
    have ha : ¬ isMark a = true := by
      simp only [isMark, Bool.or_eq_true, beq_iff_eq, not_or]
      exact ⟨fun e => h3 (by simp [e]), fun e => h4 (by simp [e])⟩
    exact ⟨by rw [List.cons_append, List.takeWhile_cons_of_neg ha], by rw [List.cons_append, List.dropWhile_cons_of_neg ha]⟩

theorem J_split {n : Str} {q : List Str} {w : Str} (hn : Plain n) :
    beforeDot (J (n :: q) w) = n ∧ afterDot (J (n :: q) w) = J q w ∧ ∃ r, J (n :: q) w = n ++ r := by
  rw [J]
  split
  · rename_i e
    refine ⟨CheckProofs.beforeDot_self hn.2.1, ?_, [], by simp⟩
    rw [e]
    rcases (dot_split n).2 with ⟨_, h⟩ | h
    · exact h
    · exact absurd (by rw [h]; simp) hn.2.1
  · rename_i c cs e
    rw [e]
    exact ⟨(CheckProofs.beforeDot_append hn.2.1).1, (CheckProofs.beforeDot_append hn.2.1).2, _, rfl⟩

theorem sibling_step {ms : List Field} {m : Field} {n w : Str} {q : List Str} (hn : Plain n) (hf : ms.find? (fun x => x.name == n) = some m) :
    siblingWith (findRef ms) (J (n :: q) w) = innerRef m (J q w) := by
  obtain ⟨h1, h2, r, h3⟩ := J_split (q := q) (w := w) hn
  unfold siblingWith
  have hm := dropMarks (r := r) hn
  rw [← h3] at hm
  simp only [hm.1, hm.2, h1, h2]
  rw [if_neg (by simpa using hn.1), findRef_eq, hf]
  simp only [applyMarks]
  cases innerRef m (J q w) <;> rfl

theorem inner_eq {m g : Field} {q : List Str} (h : Inside m q g) (hq : ∀ x ∈ q, Plain x) (w : Str) : innerRef m (J q w) = innerRef g w := by
  induction h with
  | self => rfl
  | @member f m g n p hf hi ih =>
    have hn := hq n (by simp)
    have ih := ih (fun x hx => hq x (by simp [hx]))
    have hne : (J (n :: p) w).isEmpty = false := by simpa using J_ne (q := p) (w := w) hn.1
    rw [← ih, ← sibling_step (w := w) hn hf]
    cases f with
    | bitfield | bundle | variant => simp only [innerRef, hne]; rfl
    | _ => simp [Field.members] at hf
  | @target c b s t g p hp ht hi ih =>
    rw [← ih hq]
    have hne : (J p w).isEmpty = false := by
      cases p with
      | nil => exact absurd rfl hp
      | cons n q => simpa using J_ne (q := q) (w := w) (hq n (by simp)).1
    cases s <;> simp [Slot.toList] at ht <;> subst ht <;> simp [innerRef, hne, targetRef]
  | @optional c st m g cd p hi ih =>
    have hn := hq m.name (by simp)
    rw [← ih (fun x hx => hq x (by simp [hx]))]
    obtain ⟨h1, h2, _⟩ := J_split (q := p) (w := w) hn
    have hne : (J (m.name :: p) w).isEmpty = false := by simpa using J_ne (q := p) (w := w) hn.1
    simp [innerRef, hne, optRef, h1, h2]

theorem inner_nil (f : Field) : innerRef f [] = .ok (some ⟨f, .field, []⟩) := by cases f <;> simp [innerRef]

theorem names_find {α : Type} {l : List (Str × α)} {s : Str} (h : s ∈ l.map Prod.fst) :
    ((l.find? fun p => p.1 == s).map Prod.snd).isSome = true := by
  obtain ⟨x, h1, rfl⟩ := List.mem_map.1 h
  simp only [Option.isSome_map, List.find?_isSome]
  exact ⟨x, h1, by simp⟩

theorem inner_val {f g : Field} {v : Str} (h : Follows f g) (hv : v ∈ valueNames g) (hne : v ≠ []) :
    innerRef f v = .ok (some ⟨g, .innerValue, v⟩) := by
  have he : v.isEmpty = false := by simpa using hne
  induction h with
  | @self f hk =>
    cases f with
    | int c st => simp [innerRef, he, innerValue, IntF.findSpecial, names_find (l := st.specials) hv]
    | enum c st => simp [innerRef, he, innerValue, IntF.findSpecial, names_find (l := st.values) hv]
    | set c st => simp [innerRef, he, innerValue, SetF.findBit, names_find (l := st.bits) hv]
    | float c st => simp [innerRef, he, innerValue, FloatF.findSpecial, names_find (l := st.specials) hv]
    | _ => simp [valueNames] at hv
  | @ref c b s t g ht _ ih =>
    rw [← ih hv]
    cases s <;> simp [Slot.toList] at ht <;> subst ht <;> simp [innerRef, he, targetRef]

theorem size_valid {f g : Field} (h : Follows f g) (hk : g.kind = .string ∨ g.kind = .data ∨ g.kind = .list) :
    refTypeImpl f .size = .ok true := by
  induction h with
  | self => rename_i f hr; cases f <;> simp [Field.kind] at hk <;> simp [refTypeImpl]
  | @ref c b s t g ht _ ih =>
    cases s <;> simp [Slot.toList] at ht <;> subst ht <;> simp [refTypeImpl, refTypeSlot, generalRefType, ih hk]

theorem exists_valid {f : Field} (h : CanBeMissing f) : isValidRefType f .exists = .ok true := by
  induction h with
  | added h => simp [isValidRefType, generalRefType, h]
  | deprecated h => simp [isValidRefType, generalRefType, h]
  | optional => unfold isValidRefType; split <;> simp [refTypeImpl]
  | @ref c b s t ht _ ih =>
    unfold isValidRefType at ih ⊢
    split
    · rfl
    · cases s <;> simp [Slot.toList] at ht <;> subst ht <;> simp only [refTypeImpl, refTypeSlot] <;> exact ih

theorem sibling_J {fs : List Field} {p : List Str} {f : Field} (hp : ∀ x ∈ p, Plain x) (h : Leads fs p f) (w : Str) :
    siblingRef fs (J p w) = innerRef f w := by
  obtain ⟨n, q, m, rfl, hf, hi⟩ := h
  unfold siblingRef
  rw [sibling_step (hp n (by simp)) hf, inner_eq hi (fun x hx => hp x (by simp [hx]))]

theorem marked {fs : List Field} {s : Str} {i : RefInfo} {ch : Char} (hc : ch = '#' ∨ ch = '?') (h : siblingRef fs s = .ok (some i))
    (hnm : s.takeWhile isMark = []) : siblingRef fs (ch :: s) = applyMark ch (some i) := by
  have hm : isMark ch = true := by rcases hc with rfl | rfl <;> rfl
  have hd : s.dropWhile isMark = s := by
    have := List.takeWhile_append_dropWhile (p := isMark) (l := s)
    rw [hnm] at this
    simpa using this
  unfold siblingRef siblingWith at h ⊢
  simp only [List.takeWhile_cons_of_pos hm, List.dropWhile_cons_of_pos hm]
  simp only [hnm, hd, applyMarks] at h ⊢
  split at h
  · simp at h
  · rename_i hb
    rw [if_neg hb]
    simp only [Res.bind_eq_ok] at h
    obtain ⟨r, h1, h2⟩ := h
    rw [h1]
    cases Res.ok.inj h2
    rfl

end CondProofs

/-- C70, nothing that makes sense is refused: with names that are plain (no dots and marks, as all names are), the path of a field refers to the
    field, the path of a field and a value name to that value, `#` and a path to the size of a string, data or list, `?` and a path to the existence
    of a field that may be missing. -/
theorem C70_resolves (fs : List Field) (p : List Str) (f : Field)
    (hp : ∀ n ∈ p, n ≠ [] ∧ '.' ∉ n ∧ '#' ∉ n ∧ '?' ∉ n) (h : Leads fs p f) :
    siblingRef fs (joinDots p) = .ok (some ⟨f, .field, []⟩) ∧
    (∀ g v, Follows f g → v ∈ valueNames g → v ≠ [] → siblingRef fs (joinDots p ++ '.' :: v) = .ok (some ⟨g, .innerValue, v⟩)) ∧
    (∀ g, Follows f g → (g.kind = .string ∨ g.kind = .data ∨ g.kind = .list) →
      siblingRef fs ('#' :: joinDots p) = .ok (some ⟨f, .size, []⟩)) ∧
    (CanBeMissing f → siblingRef fs ('?' :: joinDots p) = .ok (some ⟨f, .exists, []⟩)) := by
  have hne : p ≠ [] := by obtain ⟨_, _, _, rfl, _⟩ := h; simp
  have h0 : siblingRef fs (joinDots p) = .ok (some ⟨f, .field, []⟩) := by
    rw [← J_nil hp, sibling_J hp h, inner_nil]
  have hm : (joinDots p).takeWhile isMark = [] := by
    rw [← J_nil hp]
    cases p with
    | nil => exact absurd rfl hne
    | cons n q =>
      obtain ⟨_, _, r, e⟩ := J_split (q := q) (w := []) (hp n (by simp))
      rw [e]
      exact (dropMarks (hp n (by simp))).1
  refine ⟨h0, ?_, ?_, ?_⟩
  · intro g v hg hv hv0
    rw [← J_value hv0 hne, sibling_J hp h, inner_val hg hv hv0]
  · intro g hg hk
    rw [marked (Or.inl rfl) h0 hm]
    have : isValidRefType f .size = .ok true := by
      unfold isValidRefType
      rw [if_neg (by simp [generalRefType]), size_valid hg hk]
    simp [applyMark, this]
  · intro hc
    rw [marked (Or.inr rfl) h0 hm]
    simp [applyMark, exists_valid hc]

/-- C70, nothing comparable is refused: two fields named by plain paths can be compared if they are of the same kind or an `<int>` and an
    `<enum>`. -/
theorem C70_comparable (env : FEnv) (fs : List Field) (p q : List Str) (f g : Field) (op : Str)
    (hp : ∀ n ∈ p, n ≠ [] ∧ '.' ∉ n ∧ '#' ∉ n ∧ '?' ∉ n) (hq : ∀ n ∈ q, n ≠ [] ∧ '.' ∉ n ∧ '#' ∉ n ∧ '?' ∉ n)
    (h1 : Leads fs p f) (h2 : Leads fs q g) (h : Comparable f g) :
    verifyCond env fs (.expr ⟨'$' :: joinDots p, op, '$' :: joinDots q⟩) = .ok true := by
  have thr : ∀ {a b : Field}, Follows a b → throughRefs a = some b := by
    intro a b h
    induction h with
    | @self f hk => cases f <;> simp [Field.kind] at hk <;> rfl
    | @ref c b s t g ht _ ih => cases s <;> simp [Slot.toList] at ht <;> subst ht <;> simp [throughRefs, throughSlot, ih]
  obtain ⟨a, b, ha, hb, hk⟩ := h
  have hc : comparableToField f g = .ok true := by
    unfold comparableToField
    rw [thr ha, thr hb]
    simp only [Res.ok.injEq, comparableKinds, Bool.or_eq_true, beq_iff_eq]
    rcases hk with hk | ⟨hk, hk'⟩ | ⟨hk, hk'⟩
    · exact Or.inl hk
    · rw [hk, hk']; right; rfl
    · rw [hk, hk']; right; rfl
  simp [verifyCond, verifyExpr, verifySiblingComp, (C70_resolves fs p f hp h1).1, (C70_resolves fs q g hq h2).1, hc]

/-! ## Examples and findings -/

section
open Sample

/-- A bundle with a condition on its members: a number equal to an enum behind a reference, a string not longer than 5. -/
def condBundle : Xml := el "bundle" [("name", "b")] [el "members" [] [
  el "int" [("name", "i"), ("type", "uint8")],
  el "enum" [("name", "e"), ("type", "uint8")] [el "validValue" [("name", "V1"), ("val", "0")]],
  el "string" [("name", "s"), ("lengthPrefix", "$i")],
  el "optional" [("name", "o"), ("cond", "$i = $e")] [el "int" [("name", "x"), ("type", "uint8")]]],
  el "validCond" [] [el "or" [] [el "validCond" [("value", "$i = $e")], el "validCond" [("value", "$#s <= 5")], el "validCond" [("value", "$?o")]]]]

/-- The hypotheses of `C70_field_partial`, `C70_member_partial` and `C66_member_partial` are met. -/
example : ∃ f c, parseField env0 9 .top condBundle = .ok f ∧ f.kind = .bundle ∧ f.validCond = some c ∧
    (∃ m, f.members[2]? = some m ∧ detachedPaths m = ["i".toList]) ∧
    (∃ props, collectProps .bundle condBundle = some props ∧ props.find "reuse".toList = none) := by
  have key : Sample.okWith (parseField env0 9 .top condBundle) (fun f => f.kind == .bundle && f.validCond.isSome &&
      (match f.members[2]? with | some m => detachedPaths m == ["i".toList] | none => false)) = true := by decide +kernel
  unfold Sample.okWith at key
  split at key
  · rename_i f hf
    simp only [Bool.and_eq_true, beq_iff_eq] at key
    obtain ⟨⟨h1, h2⟩, h3⟩ := key
    obtain ⟨c, hc⟩ := Option.isSome_iff_exists.1 h2
    refine ⟨f, c, hf, h1, hc, ?_, _, rfl, by decide +kernel⟩
    split at h3
    · rename_i m hm; exact ⟨m, hm, by simpa using h3⟩
    · simp at h3
  · simp at key

/-- A path through a bundle and a reference. -/
example : ∃ fs f, Leads fs ["b".toList, "i".toList] f ∧ f.kind = .int := by
  let g : Field := .bundle { name := "x".toList } [.int { name := "i".toList } (IntF.initState env0.int)] [] none
  refine ⟨[.ref { name := "b".toList } 0 (.ext g)], .int { name := "i".toList } (IntF.initState env0.int),
    ⟨"b".toList, ["i".toList], _, rfl, rfl, .target (t := g) (by simp) (by simp [Slot.toList]) (.member rfl .self)⟩, rfl⟩

/-- C66 is false for termination suffixes: a list may end with a field that does not exist. -/
theorem C66_term_witness : ∃ f m, Accepted f ∧ m ∈ f.members ∧
    (∃ c st a b d e t, m = .list c st a b d e t ∧ st.detachedTerm = "nosuch".toList) ∧ ∀ x ∈ f.members, x.name ≠ "nosuch".toList := by
  obtain ⟨f, h1, h2⟩ := accepted env0_ok (parent := .top) (x := el "bundle" [("name", "b")] [
      el "list" [("name", "l"), ("termSuffix", "$nosuch")] [el "element" [] [el "int" [("name", "i"), ("type", "uint8")]]]])
    (p := fun f => (f.members.any fun m => match m with | .list _ st _ _ _ _ _ => st.detachedTerm == "nosuch".toList | _ => false) &&
      f.members.all fun x => decide (x.name ≠ "nosuch".toList)) (by decide +kernel)
  simp only [Bool.and_eq_true, List.any_eq_true, List.all_eq_true, decide_eq_true_eq] at h2
  obtain ⟨⟨m, hm, h3⟩, h4⟩ := h2
  refine ⟨f, m, h1, hm, ?_, h4⟩
  split at h3
  · exact ⟨_, _, _, _, _, _, _, rfl, by simpa using h3⟩
  · simp at h3

/-- Finding: the size of a field is compared with a text that only begins with a number; the rest (`x`) is ignored. -/
theorem C70_number_witness : ∃ f op, Accepted f ∧ f.validCond = some (.expr ⟨"$#s".toList, op, "5x".toList⟩) := by
  obtain ⟨f, h1, h2⟩ := accepted env0_ok (parent := .top) (x := el "bundle" [("name", "b"), ("validCond", "$#s = 5x")] [
      el "string" [("name", "s")]])
    (p := fun f => match f.validCond with | some (.expr e) => e.left == "$#s".toList && e.right == "5x".toList | _ => false) (by decide +kernel)
  split at h2
  · rename_i e he
    simp only [Bool.and_eq_true, beq_iff_eq] at h2
    obtain ⟨l, op, r⟩ := e
    dsimp only at h2
    rw [h2.1, h2.2] at he
    exact ⟨f, op, h1, he⟩
  · simp at h2

/-- C70 is false with reuse: the condition of the reused bundle is kept although the member it is about has been removed. -/
theorem C70_reuse_witness : ∃ f op r, Accepted f ∧ f.validCond = some (.expr ⟨"$b".toList, op, r⟩) ∧ ∀ m ∈ f.members, m.name ≠ "b".toList := by
  obtain ⟨f, h1, h2⟩ := accepted (withGlobal_ok env0_ok "g" (el "bundle" [("name", "g"), ("validCond", "$b = 1")] [
      el "int" [("name", "a"), ("type", "uint8")],
      el "int" [("name", "b"), ("type", "uint8"), ("deprecated", "2"), ("removed", "true")]])) (parent := .message 3 4294967295)
    (x := el "bundle" [("name", "x"), ("reuse", "g")])
    (p := fun f => (match f.validCond with | some (.expr e) => e.left == "$b".toList | _ => false) &&
      f.members.all fun m => decide (m.name ≠ "b".toList)) (by decide +kernel)
  simp only [Bool.and_eq_true, List.all_eq_true, decide_eq_true_eq] at h2
  obtain ⟨h3, h4⟩ := h2
  split at h3
  · rename_i e he
    obtain ⟨l, op, r⟩ := e
    have : l = "$b".toList := by simpa using h3
    rw [this] at he
    exact ⟨f, op, r, h1, he, h4⟩
  · simp at h3

/-- Finding: a condition that refers into an `<optional>` whose field is given by reference makes the parser follow a null pointer. -/
theorem C70_null_witness : ∃ env x, EnvOk env ∧ parseField env 9 .top x = .ub :=
  ⟨_, el "bundle" [("name", "b"), ("validCond", "$o.g = 1")] [el "optional" [("name", "o"), ("field", "g")]],
    withGlobal_ok env0_ok "g" (el "int" [("name", "g"), ("type", "uint8")]), isUb_spec (by decide +kernel)⟩

end

end Commsdsl.Props
