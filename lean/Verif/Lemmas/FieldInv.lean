import Verif.Lemmas.FieldBody
/-!
# Accepted fields, inversion of the parser by kind
-/
namespace Commsdsl.Fld
open Commsdsl Text

/-- What precedes `parseImpl`: the object (new, or with the state of a reused field, maybe with members replaced), and its context. -/
structure Prep (env : FEnv) (pc : ParentInfo → Xml → Res Field) (parent : ParentInfo) (node : Xml) (f : Field) (b : BCtx) (c : Common)
    (props : Props) (f1 f2 : Field) : Prop where
  kind : kindOf node.name = some f.kind
  coll : collectProps f.kind node = some props
  reuse : checkReuse env f.kind props { inBitfield := parent.isBitfield } = .ok f1
  repl : checkReplace env pc node f1 = .ok f2
  comm : updateCommon env parent props f2.common = .ok c
  ctx : b = bodyCtx pc parent node props f.kind c
  body : parseBody env b (f2.setCommon c) = .ok f
  verif : verifyField env f = .ok ()
  kind1 : f1.kind = f.kind
  kind2 : f2.kind = f.kind

theorem parseStep_prep {env : FEnv} {pc : ParentInfo → Xml → Res Field} {parent : ParentInfo} {node : Xml} {f : Field}
    (h : parseStep env pc parent node = .ok f) : ∃ b c props f1 f2, Prep env pc parent node f b c props f1 f2 := by
  obtain ⟨k, props, f1, f2, c, hk, hp, h1, h2, hc, h3, hv⟩ := parseStep_ok h
  have k1 := checkReuse_kind h1
  have k2 := (checkReplace_common h2).2
  have k3 := parseBody_kind h3
  rw [setCommon_kind, k2, k1] at k3
  subst k3
  exact ⟨_, c, props, f1, f2, ⟨hk, hp, h1, h2, hc, rfl, h3, hv, k1, k2.trans k1⟩⟩

/-- The object before replacement: new, or a copy of a global field. -/
theorem Prep.base {env : FEnv} {pc : ParentInfo → Xml → Res Field} {parent : ParentInfo} {node : Xml} {f f1 f2 : Field} {b : BCtx} {c : Common}
    {props : Props} (h : Prep env pc parent node f b c props f1 f2) :
    f1 = initField env f.kind { inBitfield := parent.isBitfield } ∨
    ∃ s g c', env.findField s = some g ∧ g.kind = f.kind ∧ reuseImpl env props c' g = .ok f1 ∧ c'.w = g.common.w := by
  rcases checkReuse_ok h.reuse with ⟨_, h1⟩ | ⟨s, g, code, _, hg, hk, _, hr⟩
  · exact Or.inl h1
  · exact Or.inr ⟨s, g, _, hg, hk, hr, rfl⟩

/-- Replacement of members: only in bitfields, bundles and variants. -/
theorem Prep.replaced {env : FEnv} {pc : ParentInfo → Xml → Res Field} {parent : ParentInfo} {node : Xml} {f f1 f2 : Field} {b : BCtx}
    {c : Common} {props : Props} (h : Prep env pc parent node f b c props f1 f2) :
    f2 = f1 ∨ ∃ r rs, getChildren node ["replace".toList] = [r] ∧
      parseAll (pc (.field f1.kind f1.since f1.depr)) (getChildren r) = .ok rs ∧ replaceImpl rs f1 = .ok f2 :=
  checkReplace_ok h.repl

section
variable {env : FEnv} {pc : ParentInfo → Xml → Res Field} {parent : ParentInfo} {node : Xml}

theorem int_inv {c : Common} {st : IntF.State} (h : parseStep env pc parent node = .ok (.int c st)) :
    ∃ ic st0, (st0 = IntF.initState env.int ∨ ∃ s c0, env.findField s = some (.int c0 st0)) ∧ IntF.parseImpl env.int ic st0 = .ok st := by
  obtain ⟨b, c', props, f1, f2, hp⟩ := parseStep_prep h
  have e2 : f2 = f1 := by
    rcases hp.replaced with h | ⟨r, rs, _, _, h⟩
    · exact h
    · have := hp.kind1
      cases f1 <;> simp [Field.kind] at this; simp [replaceImpl] at h
  subst e2
  have hk := hp.kind2
  cases f2 <;> simp [Field.kind] at hk
  rename_i c2 st0
  have hb := hp.body
  simp only [Field.setCommon, parseBody, Res.bind_eq_ok, Res.pure_eq] at hb
  obtain ⟨st', h1, h2⟩ := hb
  cases h2
  refine ⟨b.ic, st0, ?_, h1⟩
  rcases hp.base with h | ⟨s, g, c'', hg, hk, hr, _⟩
  · simp only [Field.kind, initField] at h
    cases h; exact Or.inl rfl
  · cases g <;> simp [Field.kind] at hk
    simp only [reuseImpl] at hr
    cases hr
    exact Or.inr ⟨s, _, hg⟩

theorem enum_inv {c : Common} {st : EnumF.State} (h : parseStep env pc parent node = .ok (.enum c st)) :
    ∃ ic st0, (st0 = {} ∨ ∃ s c0, env.findField s = some (.enum c0 st0)) ∧ EnumF.parseImpl env.int ic st0 = .ok st := by
  obtain ⟨b, c', props, f1, f2, hp⟩ := parseStep_prep h
  have e2 : f2 = f1 := by
    rcases hp.replaced with h | ⟨r, rs, _, _, h⟩
    · exact h
    · have := hp.kind1
      cases f1 <;> simp [Field.kind] at this; simp [replaceImpl] at h
  subst e2
  have hk := hp.kind2
  cases f2 <;> simp [Field.kind] at hk
  rename_i c2 st0
  have hb := hp.body
  simp only [Field.setCommon, parseBody, Res.bind_eq_ok, Res.pure_eq] at hb
  obtain ⟨st', h1, h2⟩ := hb
  cases h2
  refine ⟨b.ic, st0, ?_, h1⟩
  rcases hp.base with h | ⟨s, g, c'', hg, hk, hr, _⟩
  · simp only [Field.kind, initField] at h
    cases h; exact Or.inl rfl
  · cases g <;> simp [Field.kind] at hk
    simp only [reuseImpl] at hr
    cases hr
    exact Or.inr ⟨s, _, hg⟩

theorem set_inv {c : Common} {st : SetF.State} (h : parseStep env pc parent node = .ok (.set c st)) :
    ∃ ic st0, (st0 = {} ∨ ∃ s c0, env.findField s = some (.set c0 st0)) ∧ SetF.parseImpl env.int ic st0 = .ok st := by
  obtain ⟨b, c', props, f1, f2, hp⟩ := parseStep_prep h
  have e2 : f2 = f1 := by
    rcases hp.replaced with h | ⟨r, rs, _, _, h⟩
    · exact h
    · have := hp.kind1
      cases f1 <;> simp [Field.kind] at this; simp [replaceImpl] at h
  subst e2
  have hk := hp.kind2
  cases f2 <;> simp [Field.kind] at hk
  rename_i c2 st0
  have hb := hp.body
  simp only [Field.setCommon, parseBody, Res.bind_eq_ok, Res.pure_eq] at hb
  obtain ⟨st', h1, h2⟩ := hb
  cases h2
  refine ⟨b.ic, st0, ?_, h1⟩
  rcases hp.base with h | ⟨s, g, c'', hg, hk, hr, _⟩
  · simp only [Field.kind, initField] at h
    cases h; exact Or.inl rfl
  · cases g <;> simp [Field.kind] at hk
    simp only [reuseImpl] at hr
    cases hr
    exact Or.inr ⟨s, _, hg⟩

theorem float_inv {c : Common} {st : FloatState} (h : parseStep env pc parent node = .ok (.float c st)) :
    ∃ ic st0, (st0 = FloatF.initState env.int ∨ ∃ s c0, env.findField s = some (.float c0 st0)) ∧ FloatF.parseImpl env.int env.fp ic st0 = .ok st := by
  obtain ⟨b, c', props, f1, f2, hp⟩ := parseStep_prep h
  have e2 : f2 = f1 := by
    rcases hp.replaced with h | ⟨r, rs, _, _, h⟩
    · exact h
    · have := hp.kind1
      cases f1 <;> simp [Field.kind] at this; simp [replaceImpl] at h
  subst e2
  have hk := hp.kind2
  cases f2 <;> simp [Field.kind] at hk
  rename_i c2 st0
  have hb := hp.body
  simp only [Field.setCommon, parseBody, Res.bind_eq_ok, Res.pure_eq] at hb
  obtain ⟨st', h1, h2⟩ := hb
  cases h2
  refine ⟨b.ic, st0, ?_, h1⟩
  rcases hp.base with h | ⟨s, g, c'', hg, hk, hr, _⟩
  · simp only [Field.kind, initField] at h
    cases h; exact Or.inl rfl
  · cases g <;> simp [Field.kind] at hk
    simp only [reuseImpl] at hr
    cases hr
    exact Or.inr ⟨s, _, hg⟩

theorem string_inv {c : Common} {st : SeqState Char} {p : Slot Field} (h : parseStep env pc parent node = .ok (.string c st p)) :
    ∃ (b : BCtx) (st0 : SeqState Char) (p0 : Slot Field), (st0 = {} ∧ p0 = .none ∨
      ∃ s c0 p1, env.findField s = some (.string c0 st0 p1) ∧ p0 = cloneSlot p1) ∧ stringImpl env b st0 p0 = .ok (st, p) := by
  obtain ⟨b, c', props, f1, f2, hp⟩ := parseStep_prep h
  have e2 : f2 = f1 := by
    rcases hp.replaced with h | ⟨r, rs, _, _, h⟩
    · exact h
    · have := hp.kind1
      cases f1 <;> simp [Field.kind] at this; simp [replaceImpl] at h
  subst e2
  have hk := hp.kind2
  cases f2 <;> simp [Field.kind] at hk
  rename_i c2 st0 p0
  have hb := hp.body
  simp only [Field.setCommon, parseBody, Res.bind_eq_ok, Res.pure_eq] at hb
  obtain ⟨x, h1, h2⟩ := hb
  cases h2
  refine ⟨b, st0, p0, ?_, h1⟩
  rcases hp.base with h | ⟨s, g, c'', hg, hk, hr, _⟩
  · simp only [Field.kind, initField] at h
    cases h; exact Or.inl ⟨rfl, rfl⟩
  · cases g <;> simp [Field.kind] at hk
    simp only [reuseImpl] at hr
    cases hr
    exact Or.inr ⟨s, _, _, hg, rfl⟩

theorem data_inv {c : Common} {st : SeqState Nat} {p : Slot Field} (h : parseStep env pc parent node = .ok (.data c st p)) :
    ∃ (b : BCtx) (st0 : SeqState Nat) (p0 : Slot Field), (st0 = {} ∧ p0 = .none ∨
      ∃ s c0 p1, env.findField s = some (.data c0 st0 p1) ∧ p0 = cloneSlot p1) ∧ dataImpl env b st0 p0 = .ok (st, p) := by
  obtain ⟨b, c', props, f1, f2, hp⟩ := parseStep_prep h
  have e2 : f2 = f1 := by
    rcases hp.replaced with h | ⟨r, rs, _, _, h⟩
    · exact h
    · have := hp.kind1
      cases f1 <;> simp [Field.kind] at this; simp [replaceImpl] at h
  subst e2
  have hk := hp.kind2
  cases f2 <;> simp [Field.kind] at hk
  rename_i c2 st0 p0
  have hb := hp.body
  simp only [Field.setCommon, parseBody, Res.bind_eq_ok, Res.pure_eq] at hb
  obtain ⟨x, h1, h2⟩ := hb
  cases h2
  refine ⟨b, st0, p0, ?_, h1⟩
  rcases hp.base with h | ⟨s, g, c'', hg, hk, hr, _⟩
  · simp only [Field.kind, initField] at h
    cases h; exact Or.inl ⟨rfl, rfl⟩
  · cases g <;> simp [Field.kind] at hk
    simp only [reuseImpl] at hr
    cases hr
    exact Or.inr ⟨s, _, _, hg, rfl⟩

theorem list_inv {c : Common} {st : ListState} {e cn l el t : Slot Field} (h : parseStep env pc parent node = .ok (.list c st e cn l el t)) :
    ∃ (b : BCtx) (st0 : ListState) (sl : ListSlots), (st0 = {} ∧ sl = {} ∨
      ∃ s c0 e1 cn1 l1 el1 t1, env.findField s = some (.list c0 st0 e1 cn1 l1 el1 t1) ∧
        sl = ⟨cloneSlot e1, cloneSlot cn1, cloneSlot l1, cloneSlot el1, cloneSlot t1⟩) ∧
      listImpl env b st0 sl = .ok (st, ⟨e, cn, l, el, t⟩) := by
  obtain ⟨b, c', props, f1, f2, hp⟩ := parseStep_prep h
  have e2 : f2 = f1 := by
    rcases hp.replaced with h | ⟨r, rs, _, _, h⟩
    · exact h
    · have := hp.kind1
      cases f1 <;> simp [Field.kind] at this; simp [replaceImpl] at h
  subst e2
  have hk := hp.kind2
  cases f2 <;> simp [Field.kind] at hk
  rename_i c2 st0 e0 cn0 l0 el0 t0
  have hb := hp.body
  simp only [Field.setCommon, parseBody, Res.bind_eq_ok, Res.pure_eq] at hb
  obtain ⟨x, h1, h2⟩ := hb
  cases h2
  refine ⟨b, st0, ⟨e0, cn0, l0, el0, t0⟩, ?_, h1⟩
  rcases hp.base with h | ⟨s, g, c'', hg, hk, hr, _⟩
  · simp only [Field.kind, initField] at h
    cases h; exact Or.inl ⟨rfl, rfl⟩
  · cases g <;> simp [Field.kind] at hk
    simp only [reuseImpl] at hr
    cases hr
    exact Or.inr ⟨s, _, _, _, _, _, _, hg, rfl⟩

theorem ref_inv {c : Common} {bl : Nat} {t : Slot Field} (h : parseStep env pc parent node = .ok (.ref c bl t)) :
    ∃ (b : BCtx) (c0 : Common) (bl0 : Nat) (t0 : Slot Field), (bl0 = 0 ∧ t0 = .none ∨
      ∃ s c1, env.findField s = some (.ref c1 bl0 t0)) ∧ refImpl env b c0 bl0 t0 = .ok (.ref c bl t) := by
  obtain ⟨b, c', props, f1, f2, hp⟩ := parseStep_prep h
  have e2 : f2 = f1 := by
    rcases hp.replaced with h | ⟨r, rs, _, _, h⟩
    · exact h
    · have := hp.kind1
      cases f1 <;> simp [Field.kind] at this; simp [replaceImpl] at h
  subst e2
  have hk := hp.kind2
  cases f2 <;> simp [Field.kind] at hk
  rename_i c2 bl0 t0
  have hb := hp.body
  simp only [Field.setCommon, parseBody] at hb
  refine ⟨b, c', bl0, t0, ?_, hb⟩
  rcases hp.base with h | ⟨s, g, c'', hg, hk, hr, _⟩
  · simp only [Field.kind, initField] at h
    cases h; exact Or.inl ⟨rfl, rfl⟩
  · cases g <;> simp [Field.kind] at hk
    simp only [reuseImpl] at hr
    cases hr
    exact Or.inr ⟨s, _, hg⟩

theorem optional_inv {c : Common} {st : OptState} {fs : Slot Field} {cd : Option CondM.Cond}
    (h : parseStep env pc parent node = .ok (.optional c st fs cd)) :
    ∃ (b : BCtx) (st0 : OptState) (f0 : Slot Field) (cd0 : Option CondM.Cond), (st0 = {} ∧ f0 = .none ∧ cd0 = none ∨
      ∃ s c1 f1, env.findField s = some (.optional c1 st0 f1 cd0) ∧ f0 = cloneSlot f1) ∧
      optionalImpl env b c st0 f0 cd0 = .ok (.optional c st fs cd) := by
  obtain ⟨b, c', props, f1, f2, hp⟩ := parseStep_prep h
  have e2 : f2 = f1 := by
    rcases hp.replaced with h | ⟨r, rs, _, _, h⟩
    · exact h
    · have := hp.kind1
      cases f1 <;> simp [Field.kind] at this; simp [replaceImpl] at h
  subst e2
  have hk := hp.kind2
  cases f2 <;> simp [Field.kind] at hk
  rename_i c2 st0 f0 cd0
  have hb := hp.body
  simp only [Field.setCommon, parseBody] at hb
  have hc := (parseBody_common hp.body).2.2.2 (by simp [Field.setCommon, Field.kind])
  simp only [Field.setCommon, Field.common] at hc
  subst hc
  refine ⟨b, st0, f0, cd0, ?_, hb⟩
  rcases hp.base with h | ⟨s, g, c'', hg, hk, hr, _⟩
  · simp only [Field.kind, initField] at h
    cases h; exact Or.inl ⟨rfl, rfl, rfl⟩
  · cases g <;> simp [Field.kind] at hk
    simp only [reuseImpl] at hr
    cases hr
    exact Or.inr ⟨s, _, _, hg, rfl⟩

/-- Members of a field with members before `parseImpl`: copies of those of the reused field (none for a new one), some of them replaced. -/
def Before (env : FEnv) (pc : ParentInfo → Xml → Res Field) (k : Kind) (ms : List Field) : Prop :=
  ∃ ms0, (ms0 = [] ∨ ∃ s g, env.findField s = some g ∧ g.kind = k ∧ ms0 = cloneAll g.members) ∧
    (ms = ms0 ∨ ∃ p ns rs chk, parseAll (pc p) ns = .ok rs ∧ replaceMembers chk rs ms0 = .ok ms)

theorem Prep.before {f f1 f2 : Field} {b : BCtx} {c : Common} {props : Props} (h : Prep env pc parent node f b c props f1 f2) :
    Before env pc f.kind f2.members := by
  refine ⟨f1.members, ?_, ?_⟩
  · rcases h.base with h1 | ⟨s, g, c', hg, hk, hr, _⟩
    · left; rw [h1]; cases f.kind <;> rfl
    · right
      refine ⟨s, g, hg, hk, ?_⟩
      cases g with
      | bundle c'' ms al cd =>
        simp only [reuseImpl, Res.bind_eq_ok, Res.pure_eq] at hr
        obtain ⟨al', _, hr⟩ := hr
        cases hr; rfl
      | _ => simp only [reuseImpl] at hr; cases hr; rfl
  · rcases h.replaced with h1 | ⟨r, rs, _, hrs, hr⟩
    · left; rw [h1]
    · obtain ⟨_, _, _, _, chk, h2⟩ := replaceImpl_ok hr
      exact Or.inr ⟨_, _, rs, chk, hrs, h2⟩

theorem bundle_inv {c : Common} {ms : List Field} {al : List Alias} {cd : Option CondM.Cond}
    (h : parseStep env pc parent node = .ok (.bundle c ms al cd)) :
    ∃ (b : BCtx) (ms0 : List Field) (al0 : List Alias) (cd0 : Option CondM.Cond), Before env pc .bundle ms0 ∧ b.ic.since = c.w.since ∧
      b.ic.depr = c.w.depr ∧ (∀ n g, b.child n = .ok g → pc (.field .bundle c.w.since c.w.depr) n = .ok g) ∧
      (al0 = [] ∨ ∃ s c1 ms1 cd1, env.findField s = some (.bundle c1 ms1 al0 cd1)) ∧
      bundleMembers env b ms0 = .ok ms ∧ bundleAliases env b ms al0 = .ok al ∧ updateValidCond env b .bundle ms cd0 = .ok cd := by
  obtain ⟨b, c', props, f1, f2, hp⟩ := parseStep_prep h
  have hbf := hp.before
  have hk := hp.kind2
  cases f2 <;> simp [Field.kind] at hk
  rename_i c2 ms0 al0 cd0
  have hc := (parseBody_common hp.body).2.2.2 (by simp [Field.setCommon, Field.kind])
  simp only [Field.setCommon, Field.common] at hc
  subst hc
  have hb := hp.body
  simp only [Field.setCommon, parseBody, bundleImpl, Res.bind_eq_ok, Res.pure_eq] at hb
  obtain ⟨ms', h1, al', h2, cd', h3, h4⟩ := hb
  cases h4
  have hctx := hp.ctx
  refine ⟨b, ms0, al0, cd0, hbf, by rw [hctx]; rfl, by rw [hctx]; rfl, ?_, ?_, h1, h2, h3⟩
  · intro n g; rw [hctx]; exact fun h => h
  have e2 : ∃ c3 ms3, f1 = .bundle c3 ms3 al0 cd0 := by
    rcases hp.replaced with h | ⟨r, rs, _, _, h⟩
    · exact ⟨_, _, h.symm⟩
    · have := hp.kind1
      cases f1 <;> simp [Field.kind] at this
      simp only [replaceImpl, Res.bind_eq_ok, Res.pure_eq] at h
      obtain ⟨_, _, h⟩ := h
      cases h
      exact ⟨_, _, rfl⟩
  obtain ⟨c3, ms3, rfl⟩ := e2
  rcases hp.base with h | ⟨s, g, c'', hg, hk, hr, _⟩
  · simp only [Field.kind, initField] at h
    cases h; exact Or.inl rfl
  · cases g <;> simp [Field.kind] at hk
    rename_i c5 ms5 al5 cd5
    simp only [reuseImpl, Res.bind_eq_ok, Res.pure_eq] at hr
    obtain ⟨al6, h6, hr⟩ := hr
    cases hr
    unfold reusedAliases at h6
    split at h6
    · cases h6; exact Or.inl rfl
    · simp only [Res.bind_eq_ok, Res.pure_eq] at h6
      obtain ⟨bb, _, h6⟩ := h6
      cases h6
      cases bb
      · exact Or.inl rfl
      · exact Or.inr ⟨s, _, _, _, hg⟩

theorem bitfield_inv {c : Common} {e : Option IntF.Endian} {ms : List Field} {cd : Option CondM.Cond}
    (h : parseStep env pc parent node = .ok (.bitfield c e ms cd)) :
    ∃ (b : BCtx) (ms0 : List Field) (cd0 : Option CondM.Cond), Before env pc .bitfield ms0 ∧ b.ic.since = c.w.since ∧
      b.ic.depr = c.w.depr ∧ (∀ n g, b.child n = .ok g → pc (.field .bitfield c.w.since c.w.depr) n = .ok g) ∧
      bitfieldMembers b ms0 = .ok ms ∧ updateValidCond env b .bitfield ms cd0 = .ok cd := by
  obtain ⟨b, c', props, f1, f2, hp⟩ := parseStep_prep h
  have hbf := hp.before
  have hk := hp.kind2
  cases f2 <;> simp [Field.kind] at hk
  rename_i c2 e0 ms0 cd0
  have hc := (parseBody_common hp.body).2.2.2 (by simp [Field.setCommon, Field.kind])
  simp only [Field.setCommon, Field.common] at hc
  subst hc
  have hb := hp.body
  simp only [Field.setCommon, parseBody, bitfieldImpl, Res.bind_eq_ok, Res.pure_eq] at hb
  obtain ⟨_, _, ms', h1, cd', h3, h4⟩ := hb
  cases h4
  have hctx := hp.ctx
  refine ⟨b, ms0, cd0, hbf, by rw [hctx]; rfl, by rw [hctx]; rfl, ?_, h1, h3⟩
  intro n g; rw [hctx]; exact fun h => h

theorem variant_inv {c : Common} {d : Nat} {ms : List Field}
    (h : parseStep env pc parent node = .ok (.variant c d ms)) :
    ∃ (b : BCtx) (ms0 : List Field) (d0 : Nat), Before env pc .variant ms0 ∧ b.ic.since = c.w.since ∧
      b.ic.depr = c.w.depr ∧ (∀ n g, b.child n = .ok g → pc (.field .variant c.w.since c.w.depr) n = .ok g) ∧
      (d0 = noDefault ∨ ∃ s c1 ms1, env.findField s = some (.variant c1 d0 ms1)) ∧
      variantMembers b ms0 = .ok ms ∧ variantDefault env b ms d0 = .ok d := by
  obtain ⟨b, c', props, f1, f2, hp⟩ := parseStep_prep h
  have hbf := hp.before
  have hk := hp.kind2
  cases f2 <;> simp [Field.kind] at hk
  rename_i c2 d0 ms0
  have hc := (parseBody_common hp.body).2.2.2 (by simp [Field.setCommon, Field.kind])
  simp only [Field.setCommon, Field.common] at hc
  subst hc
  have hb := hp.body
  simp only [Field.setCommon, parseBody, variantImpl, Res.bind_eq_ok, Res.pure_eq] at hb
  obtain ⟨ms', h1, d', h3, h4⟩ := hb
  cases h4
  have hctx := hp.ctx
  refine ⟨b, ms0, d0, hbf, by rw [hctx]; rfl, by rw [hctx]; rfl, ?_, ?_, h1, h3⟩
  · intro n g; rw [hctx]; exact fun h => h
  have e2 : ∃ c3 ms3, f1 = .variant c3 d0 ms3 := by
    rcases hp.replaced with h | ⟨r, rs, _, _, h⟩
    · exact ⟨_, _, h.symm⟩
    · have := hp.kind1
      cases f1 <;> simp [Field.kind] at this
      simp only [replaceImpl, Res.bind_eq_ok, Res.pure_eq] at h
      obtain ⟨_, _, h⟩ := h
      cases h
      exact ⟨_, _, rfl⟩
  obtain ⟨c3, ms3, rfl⟩ := e2
  rcases hp.base with h | ⟨s, g, c'', hg, hk, hr, _⟩
  · simp only [Field.kind, initField] at h
    cases h; exact Or.inl rfl
  · cases g <;> simp [Field.kind] at hk
    simp only [reuseImpl] at hr
    cases hr
    exact Or.inr ⟨s, _, _, hg⟩

end

/-! ## Accepted fields -/

/-- `P` holds of the field and of everything inside. -/
inductive Hered (P : Field → Prop) : Field → Prop where
  | mk {f : Field} : P f → (∀ g ∈ f.subs, Hered P g) → Hered P f

theorem Hered.self {P : Field → Prop} {f : Field} (h : Hered P f) : P f := by cases h; assumption

theorem Hered.subs {P : Field → Prop} {f : Field} (h : Hered P f) : ∀ g ∈ f.subs, Hered P g := by cases h; assumption

theorem Hered.mono {P Q : Field → Prop} (h : ∀ f, P f → Q f) {f : Field} (hf : Hered P f) : Hered Q f := by
  induction hf with
  | mk h1 _ ih => exact .mk (h _ h1) ih

theorem Hered.and {P Q : Field → Prop} {f : Field} (h1 : Hered P f) (h2 : Hered Q f) : Hered (fun f => P f ∧ Q f) f := by
  induction h1 with
  | mk hp _ ih =>
    cases h2 with
    | mk hq hs => exact .mk ⟨hp, hq⟩ fun g hg => ih g hg (hs g hg)

theorem liftSince_subs (s : Nat) (f : Field) : (liftSince s f).subs = f.subs := setCommon_subs _ _

theorem liftSince_kind (s : Nat) (f : Field) : (liftSince s f).kind = f.kind := setCommon_kind _ _

theorem liftSince_name (s : Nat) (f : Field) : (liftSince s f).name = f.name := by
  simp [Field.name, liftSince, Field.setSince, setCommon_common]

theorem Hered.clone {P : Field → Prop} (hc : ∀ f, Hered P f → P (clone f)) {f : Field} (h : Hered P f) : Hered P (clone f) := by
  induction h with
  | mk hp hs ih =>
    refine .mk (hc _ (.mk hp hs)) ?_
    intro g hg
    obtain ⟨m, hm, rfl | rfl⟩ := clone_subs hg
    · exact hs g hm
    · exact ih m hm

theorem Hered.lift {P : Field → Prop} (hl : ∀ s f, P f → P (liftSince s f)) {f : Field} (h : Hered P f) (s : Nat) :
    Hered P (liftSince s f) :=
  .mk (hl s f h.self) (by rw [liftSince_subs]; exact h.subs)

end Commsdsl.Fld
