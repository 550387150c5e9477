import Verif.Spec.Message
import Verif.Lemmas.Members
import Verif.Props.FieldMembers
/-!
# Inversion of the parser of messages and interfaces
-/
namespace Commsdsl.Msg
open Commsdsl Text Fld Spec

/-- How a message came about. -/
structure MsgRun (env : MEnv) (node : Xml) (m : Message) (props : Props) (m0 m1 : Message) (src : Option Source) (fs : List Field)
    (al : List Alias) : Prop where
  coll : msgProps node = some props
  reuse : msgReuse env props = .ok m0
  head : msgHead env props m0 = .ok m1
  from_ : copySource env.fld (fun s => (env.findMessage s).map fun x => (x.fields, x.aliases)) props m0.fields = .ok src
  repl : msgReplace env.fld (fieldOf env.fld (.message m.w.since m.w.depr)) node (msgCopied m.w.since src m0.fields) = .ok fs
  flds : msgFields env.fld (fieldOf env.fld (.message m.w.since m.w.depr)) node m1 fs = .ok m.fields
  ali : msgCopyAliases env.dsl props src m.fields m0.aliases = .ok al
  add : addAliases env.fld node m.fields al = .ok m.aliases
  w : m1.w = m.w
  name : m.name = m1.name
  id : m.id = m1.id
  order : m.order = m1.order
  platforms : m.platforms = m1.platforms
  minLen : m.validateMinLength = m1.validateMinLength

theorem msgHead_ok {env : MEnv} {props : Props} {m m1 : Message} (h : msgHead env props m = .ok m1) :
    m1.fields = m.fields ∧ m1.aliases = m.aliases ∧ nameProp props m.name = .ok m1.name ∧ msgId env props = .ok m1.id ∧
    msgOrder props m.order = .ok m1.order ∧ Versions.messageVersions env.fld.int.schemaVersion props = some m1.w ∧
    msgPlatforms env.platforms props m.platforms = .ok m1.platforms ∧
    msgMinLen env.dsl props m.validateMinLength = .ok m1.validateMinLength := by
  simp only [msgHead, Res.bind_eq_ok, Res.ofOption_eq_ok, Res.pure_eq] at h
  obtain ⟨_, h1, _, _, _, _, _, h4, _, h5, _, h6, _, h7, _, _, _, _, _, h10, _, _, h⟩ := h
  cases h
  exact ⟨rfl, rfl, h1, h4, h5, h6, h7, h10⟩

theorem parseMessage_run {env : MEnv} {node : Xml} {m : Message} (h : parseMessage env node = .ok m) :
    ∃ props m0 m1 src fs al, MsgRun env node m props m0 m1 src fs al := by
  simp only [parseMessage, msgBody, Res.bind_eq_ok, Res.ofOption_eq_ok, Res.pure_eq] at h
  obtain ⟨props, h1, m0, h2, m1, h3, b, ⟨src, h4, fs, h5, fs2, h6, hb⟩, al, h7, al2, h8, _, _, code, _, c, _, h⟩ := h
  cases hb
  cases h
  have hh := msgHead_ok h3
  rw [hh.1] at h4 h5
  rw [hh.2.1] at h7
  exact ⟨props, m0, m1, src, fs, al, h1, h2, h3, h4, h5, h6, h7, h8, rfl, rfl, rfl, rfl, rfl, rfl⟩

theorem msgReuse_ok {env : MEnv} {props : Props} {m0 : Message} (h : msgReuse env props = .ok m0) :
    (m0 = {} ∧ (props.find "reuse".toList = none ∨ Dsl.isSupported env.dsl .messageReuse = false)) ∨
    ∃ s m x, props.find "reuse".toList = some s ∧ Dsl.isSupported env.dsl .messageReuse = true ∧ env.findMessage s = some m ∧
      reuseExtras env.dsl props s m.aliases = .ok x ∧
      m0 = { m with fields := cloneAll m.fields, aliases := x.1, copyCodeFrom := x.2 } := by
  unfold msgReuse at h
  split at h
  · simp at h
  split at h
  · cases h; rename_i e; exact Or.inl ⟨rfl, Or.inl e⟩
  split at h
  · cases h; rename_i e; exact Or.inl ⟨rfl, Or.inr (by simpa using e)⟩
  rename_i s hs hd
  split at h
  · simp at h
  · rename_i m hm
    simp only [Res.bind_eq_ok, Res.pure_eq] at h
    obtain ⟨x, hx, h⟩ := h
    cases h
    exact Or.inr ⟨s, m, x, hs, by simpa using hd, hm, hx, rfl⟩

theorem copySource_ok {env : FEnv} {find : Str → Option Source} {props : Props} {cur : List Field} {src : Option Source}
    (h : copySource env find props cur = .ok src) :
    (src = none ∧ props.find "copyFieldsFrom".toList = none) ∨
    ∃ s x, props.find "copyFieldsFrom".toList = some s ∧ cur = [] ∧ src = some x ∧
      (find s = some x ∨ (find s = none ∧ ∃ c cd, env.findField s = some (.bundle c x.1 x.2 cd))) := by
  unfold copySource at h
  split at h
  · simp at h
  split at h
  · cases h; rename_i e; exact Or.inl ⟨rfl, e⟩
  rename_i s hs
  split at h
  · simp at h
  rename_i hc
  have hc : cur = [] := by simpa using hc
  split at h
  · rename_i x hx
    cases h
    exact Or.inr ⟨s, x, hs, hc, rfl, Or.inl hx⟩
  · rename_i hx
    split at h
    · unfold bundleSource at h
      split at h
      · rename_i c ms al cd hf
        cases h
        exact Or.inr ⟨s, _, hs, hc, rfl, Or.inr ⟨hx, c, cd, hf⟩⟩
      · simp at h
    · simp at h

theorem msgReplace_ok {env : FEnv} {pc : Xml → Res Field} {node : Xml} {fs fs' : List Field} (h : msgReplace env pc node fs = .ok fs') :
    fs' = fs ∨ ∃ r n f, getChildren node ["replace".toList] = [r] ∧ getChildren r fieldTypes = [n] ∧ pc n = .ok f ∧
      replaceFirst f fs = some fs' := by
  unfold msgReplace at h
  split at h
  · cases h; exact Or.inl rfl
  · rename_i r hr
    split at h
    · cases h; exact Or.inl rfl
    · split at h
      · rename_i n hn
        simp only [Res.bind_eq_ok, Res.ofOption_eq_ok] at h
        obtain ⟨f, h1, _, _, _, _, h4⟩ := h
        exact Or.inr ⟨r, n, f, hr, hn, h1, h4⟩
      · simp at h
  · simp at h

theorem addFields_ok {env : FEnv} {pc : Xml → Res Field} {ns : List Xml} {acc all : List Field} (h : addFields env pc ns acc = .ok all) :
    ∃ new, all = acc ++ new ∧ new.length = ns.length ∧ ∀ (i : Nat) (f : Field), new[i]? = some f → ∃ n, ns[i]? = some n ∧ pc n = .ok f := by
  induction ns generalizing acc with
  | nil => cases h; exact ⟨[], by simp, rfl, by simp⟩
  | cons n ns ih =>
    simp only [addFields, Res.bind_eq_ok] at h
    obtain ⟨f, h1, _, _, _, _, h4⟩ := h
    obtain ⟨new, rfl, h5, h6⟩ := ih h4
    refine ⟨f :: new, by simp, by simp [h5], ?_⟩
    intro i g hg
    cases i with
    | zero => simp at hg; subst hg; exact ⟨n, rfl, h1⟩
    | succ i => simpa using h6 i g (by simpa using hg)

theorem addFields_mem {env : FEnv} {pc : Xml → Res Field} {ns : List Xml} {acc all : List Field} (h : addFields env pc ns acc = .ok all) :
    ∃ new, all = acc ++ new ∧ ∀ f ∈ new, ∃ n ∈ ns, pc n = .ok f := by
  obtain ⟨new, h1, _, h3⟩ := addFields_ok h
  refine ⟨new, h1, ?_⟩
  intro f hf
  obtain ⟨i, hi⟩ := List.getElem?_of_mem hf
  obtain ⟨n, hn, hp⟩ := h3 i f hi
  exact ⟨n, List.mem_of_getElem? hn, hp⟩

theorem msgFields_ok {env : FEnv} {pc : Xml → Res Field} {node : Xml} {m : Message} {fs all : List Field}
    (h : msgFields env pc node m fs = .ok all) :
    (all = fs ∧ fieldNodes node = .ok none) ∨
    ∃ ns new, fieldNodes node = .ok (some ns) ∧ addFields env pc ns fs = .ok all ∧ all = fs ++ new ∧ (∀ f ∈ new, ∃ n ∈ ns, pc n = .ok f) ∧
      validateNames [] all = true ∧ checkMinLen m.w.since m.validateMinLength all = .ok () := by
  simp only [msgFields, Res.bind_eq_ok] at h
  obtain ⟨ns, h1, h⟩ := h
  cases ns with
  | none => cases h; exact Or.inl ⟨rfl, h1⟩
  | some ns =>
    simp only [Res.bind_eq_ok, Res.pure_eq] at h
    obtain ⟨all', h2, _, h3, _, h4, h⟩ := h
    cases h
    obtain ⟨new, h5, h6⟩ := addFields_mem h2
    exact Or.inr ⟨ns, new, h1, h2, h5, h6, Res.check_ok h3, h4⟩

theorem ifaceFields_ok {env : FEnv} {node : Xml} {fs all : List Field} (h : ifaceFields env node fs = .ok all) :
    (all = fs ∧ fieldNodes node = .ok none) ∨
    ∃ ns new, fieldNodes node = .ok (some ns) ∧ addFields env (fieldOf env (.other 0 Versions.notYet)) ns fs = .ok all ∧ all = fs ++ new ∧
      (∀ f ∈ new, ∃ n ∈ ns, fieldOf env (.other 0 Versions.notYet) n = .ok f) ∧ validateNames [] all = true := by
  simp only [ifaceFields, Res.bind_eq_ok] at h
  obtain ⟨ns, h1, h⟩ := h
  cases ns with
  | none => cases h; exact Or.inl ⟨rfl, h1⟩
  | some ns =>
    simp only [Res.bind_eq_ok, Res.pure_eq] at h
    obtain ⟨all', h2, _, h3, h⟩ := h
    cases h
    obtain ⟨new, h5, h6⟩ := addFields_mem h2
    exact Or.inr ⟨ns, new, h1, h2, h5, h6, Res.check_ok h3⟩

/-- How an interface came about. -/
structure IfaceRun (env : MEnv) (node : Xml) (i : Interface) (props : Props) (i0 : Interface) (src : Option Source) (al : List Alias) :
    Prop where
  coll : childrenAsProps node ifaceProps (nodeProps node) = some props
  reuse : ifaceReuse env props = .ok i0
  name : nameProp props i0.name = .ok i.name
  from_ : copySource env.fld (fun s => (env.findInterface s).map fun x => (x.fields, x.aliases)) props i0.fields = .ok src
  flds : ifaceFields env.fld node (ifaceCopied src i0.fields) = .ok i.fields
  ali : ifaceCopyAliases env.dsl props src i.fields i0.aliases = .ok al
  add : addAliases env.fld node i.fields al = .ok i.aliases

theorem parseInterface_run {env : MEnv} {node : Xml} {i : Interface} (h : parseInterface env node = .ok i) :
    ∃ props i0 src al, IfaceRun env node i props i0 src al := by
  simp only [parseInterface, Res.bind_eq_ok, Res.ofOption_eq_ok, Res.pure_eq] at h
  obtain ⟨props, h1, i0, h2, n, h3, d, _, src, h4, fs, h5, al, h6, al2, h7, h⟩ := h
  cases h
  exact ⟨props, i0, src, al, h1, h2, h3, h4, h5, h6, h7⟩

theorem ifaceReuse_ok {env : MEnv} {props : Props} {m0 : Interface} (h : ifaceReuse env props = .ok m0) :
    (m0 = {} ∧ (props.find "reuse".toList = none ∨ Dsl.isSupported env.dsl .interfaceReuse = false)) ∨
    ∃ s m x, props.find "reuse".toList = some s ∧ Dsl.isSupported env.dsl .interfaceReuse = true ∧ env.findInterface s = some m ∧
      reuseExtras env.dsl props s m.aliases = .ok x ∧
      m0 = { m with fields := cloneAll m.fields, aliases := x.1, copyCodeFrom := x.2 } := by
  unfold ifaceReuse at h
  split at h
  · simp at h
  split at h
  · cases h; rename_i e; exact Or.inl ⟨rfl, Or.inl e⟩
  split at h
  · cases h; rename_i e; exact Or.inl ⟨rfl, Or.inr (by simpa using e)⟩
  rename_i s hs hd
  split at h
  · simp at h
  · rename_i m hm
    simp only [Res.bind_eq_ok, Res.pure_eq] at h
    obtain ⟨x, hx, h⟩ := h
    cases h
    exact Or.inr ⟨s, m, x, hs, by simpa using hd, hm, hx, rfl⟩

/-! ## Fields of messages and interfaces are field objects -/

theorem fieldOf_accepted {env : FEnv} (he : ∀ s g, env.findField s = some g → Accepted g) {p : ParentInfo} {n : Xml} {f : Field}
    (h : fieldOf env p n = .ok f) : Accepted f := .parse he h

theorem replaceFirst_mem {r : Field} {ms ms' : List Field} (h : replaceFirst r ms = some ms') : ∀ x ∈ ms', x = r ∨ x ∈ ms := by
  induction ms generalizing ms' with
  | nil => simp [replaceFirst] at h
  | cons m ms ih =>
    unfold replaceFirst at h
    split at h
    · cases h
      intro x hx
      rcases List.mem_cons.1 hx with rfl | hx
      · exact Or.inl rfl
      · exact Or.inr (by simp [hx])
    · simp only [Option.map_eq_some_iff] at h
      obtain ⟨y, hy, rfl⟩ := h
      intro x hx
      rcases List.mem_cons.1 hx with rfl | hx
      · exact Or.inr (by simp)
      · rcases ih hy x hx with h | h
        · exact Or.inl h
        · exact Or.inr (by simp [h])

theorem cloneAll_obj {ms : List Field} (h : ∀ m ∈ ms, Obj m) : ∀ m ∈ cloneAll ms, Obj m := by
  rw [cloneAll_eq]
  intro m hm
  obtain ⟨x, hx, rfl⟩ := List.mem_map.1 hm
  exact .copy (h x hx)

theorem keepMembers_obj {s : Nat} {ms : List Field} (h : ∀ m ∈ ms, Obj m) : ∀ m ∈ keepMembers s ms, Obj m := by
  intro m hm
  obtain ⟨x, hx, rfl⟩ := List.mem_map.1 hm
  exact .lift s (h x (List.mem_filter.1 hx).1)

theorem source_obj {env : FEnv} {find : Str → Option Source} {props : Props} {cur : List Field} {src : Option Source}
    (h : copySource env find props cur = .ok src) (he : ∀ s g, env.findField s = some g → Accepted g)
    (hf : ∀ s x, find s = some x → ∀ f ∈ x.1, Obj f) : ∀ x, src = some x → ∀ f ∈ x.1, Obj f := by
  intro x hx f hfx
  rcases copySource_ok h with ⟨rfl, _⟩ | ⟨s, y, _, _, rfl, h1 | ⟨_, c, cd, h1⟩⟩
  · cases hx
  · cases hx; exact hf s _ h1 f hfx
  · cases hx; exact .inner (.acc (he s _ h1)) (by simpa [Field.subs] using hfx)

theorem msg_fields_obj {m : Message} (h : AcceptedMsg m) : ∀ f ∈ m.fields, Obj f := by
  induction h with
  | @parse env node m he hm hp ih =>
    obtain ⟨props, m0, m1, src, fs, al, r⟩ := parseMessage_run hp
    have h0 : ∀ f ∈ m0.fields, Obj f := by
      rcases msgReuse_ok r.reuse with ⟨rfl, _⟩ | ⟨s, x, y, _, _, hx, _, rfl⟩
      · simp
      · exact cloneAll_obj (ih s x hx)
    have h1 : ∀ f ∈ msgCopied m.w.since src m0.fields, Obj f := by
      have hs := source_obj r.from_ he (by
        intro s x hx
        obtain ⟨y, hy, rfl⟩ := Option.map_eq_some_iff.1 hx
        exact ih s y hy)
      cases src with
      | none => exact h0
      | some x => exact keepMembers_obj (cloneAll_obj (hs x rfl))
    have h2 : ∀ f ∈ fs, Obj f := by
      rcases msgReplace_ok r.repl with rfl | ⟨_, n, g, _, _, hg, hr⟩
      · exact h1
      · intro f hf
        rcases replaceFirst_mem hr f hf with rfl | hf
        · exact .acc (fieldOf_accepted he hg)
        · exact h1 f hf
    rcases msgFields_ok r.flds with ⟨e, _⟩ | ⟨ns, new, _, _, e, hn, _⟩
    · rw [e]; exact h2
    · rw [e]
      intro f hf
      rcases List.mem_append.1 hf with hf | hf
      · exact h2 f hf
      · obtain ⟨n, _, hn⟩ := hn f hf
        exact .acc (fieldOf_accepted he hn)

theorem iface_fields_obj {m : Interface} (h : AcceptedIface m) : ∀ f ∈ m.fields, Obj f := by
  induction h with
  | @parse env node m he hm hp ih =>
    obtain ⟨props, m0, src, al, r⟩ := parseInterface_run hp
    have h0 : ∀ f ∈ m0.fields, Obj f := by
      rcases ifaceReuse_ok r.reuse with ⟨rfl, _⟩ | ⟨s, x, y, _, _, hx, _, rfl⟩
      · simp
      · exact cloneAll_obj (ih s x hx)
    have h1 : ∀ f ∈ ifaceCopied src m0.fields, Obj f := by
      have hs := source_obj r.from_ he (by
        intro s x hx
        obtain ⟨y, hy, rfl⟩ := Option.map_eq_some_iff.1 hx
        exact ih s y hy)
      cases src with
      | none => exact h0
      | some x => exact cloneAll_obj (hs x rfl)
    rcases ifaceFields_ok r.flds with ⟨e, _⟩ | ⟨ns, new, _, _, e, hn, _⟩
    · rw [e]; exact h1
    · rw [e]
      intro f hf
      rcases List.mem_append.1 hf with hf | hf
      · exact h1 f hf
      · obtain ⟨n, _, hn⟩ := hn f hf
        exact .acc (fieldOf_accepted he hn)

/-! ## Names -/

theorem cloneAll_names (ms : List Field) : (cloneAll ms).map Field.name = ms.map Field.name := by
  rw [cloneAll_eq, List.map_map]
  exact List.map_congr_left fun m _ => by simp [Field.name, clone_common]

theorem source_names {env : FEnv} {find : Str → Option Source} {props : Props} {cur : List Field} {src : Option Source}
    (h : copySource env find props cur = .ok src) (he : ∀ s g, env.findField s = some g → Accepted g)
    (hf : ∀ s x, find s = some x → (x.1.map Field.name).Nodup) : ∀ x, src = some x → (x.1.map Field.name).Nodup := by
  intro x hx
  rcases copySource_ok h with ⟨rfl, _⟩ | ⟨s, y, _, _, rfl, h1 | ⟨_, c, cd, h1⟩⟩
  · cases hx
  · cases hx; exact hf s _ h1
  · cases hx; exact Props.C48_field_members_unique _ (.acc (he s _ h1))

end Commsdsl.Msg
