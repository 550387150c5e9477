import Verif.Lemmas.FieldParse
/-!
# Where the parts of a parsed field come from
-/
namespace Commsdsl.Fld
open Commsdsl Text

theorem _root_.Commsdsl.Res.check_ok {b : Bool} {u : Unit} (h : Res.check b = .ok u) : b = true := Res.check_eq_ok.1 (by cases u; exact h)

/-! ## Slots -/

/-- The origin of a field in a slot: it was there before, it is global, or it was parsed as a child. -/
def From (env : FEnv) (b : BCtx) (old : List Field) (g : Field) : Prop :=
  g ∈ old ∨ (∃ s, env.findField s = some g) ∨ (∃ n, b.child n = .ok g)

theorem prefixFromRef_from {env : FEnv} {b : BCtx} {key : Str} {cur p : Pfx} (h : prefixFromRef env b key cur = .ok p) {g : Field}
    (hg : g ∈ p.slot.toList) : From env b cur.slot.toList g := by
  unfold prefixFromRef at h
  split at h
  · simp at h
  · split at h
    · cases h; exact Or.inl hg
    · simp at h
    · split at h
      · split at h
        · simp at h
        · split at h
          · simp at h
          · cases h; simp [Slot.toList] at hg
      · split at h
        · simp at h
        · rename_i f hf
          split at h
          · cases h
            simp only [Slot.toList, List.mem_singleton] at hg
            exact Or.inr (Or.inl ⟨_, hg ▸ hf⟩)
          · simp at h

theorem prefixAsChild_from {env : FEnv} {b : BCtx} {key : Str} {cur p : Pfx} (h : prefixAsChild b key cur = .ok p) {g : Field}
    (hg : g ∈ p.slot.toList) : From env b cur.slot.toList g := by
  unfold prefixAsChild at h
  split at h
  · cases h; exact Or.inl hg
  · split at h
    · split at h
      · cases h; exact Or.inl hg
      · simp at h
    · split at h
      · simp at h
      · simp only [Res.bind_eq_ok] at h
        obtain ⟨f, hf, h⟩ := h
        split at h
        · cases h
          simp only [Slot.toList, List.mem_singleton] at hg
          exact Or.inr (Or.inr ⟨_, hg ▸ hf⟩)
        · simp at h
    · simp at h
  · simp at h

theorem From.trans {env : FEnv} {b : BCtx} {old mid : List Field} (h : ∀ g ∈ mid, From env b old g) {g : Field}
    (hg : From env b mid g) : From env b old g := by
  rcases hg with hg | hg | hg
  · exact h g hg
  · exact Or.inr (Or.inl hg)
  · exact Or.inr (Or.inr hg)

theorem From.mono {env : FEnv} {b : BCtx} {old old' : List Field} (h : ∀ g ∈ old, g ∈ old') {g : Field} (hg : From env b old g) :
    From env b old' g := by
  rcases hg with hg | hg
  · exact Or.inl (h g hg)
  · exact Or.inr hg

theorem updatePfx_from {env : FEnv} {b : BCtx} {key : Str} {cur p : Pfx} (h : updatePfx env b key cur = .ok p) {g : Field}
    (hg : g ∈ p.slot.toList) : From env b cur.slot.toList g := by
  simp only [updatePfx, Res.bind_eq_ok] at h
  obtain ⟨q, h1, h2⟩ := h
  exact From.trans (fun g hg => prefixFromRef_from h1 hg) (prefixAsChild_from h2 hg)

theorem seqUpdatePrefix_from {α : Type} {env : FEnv} {b : BCtx} {st st' : SeqState α} {p p' : Slot Field}
    (h : seqUpdatePrefix env b st p = .ok (st', p')) {g : Field} (hg : g ∈ p'.toList) : From env b p.toList g := by
  simp only [seqUpdatePrefix, Res.bind_eq_ok, Res.pure_eq] at h
  obtain ⟨q, h1, _, _, _, _, h2⟩ := h
  cases h2
  exact updatePfx_from (cur := ⟨st.detached, p⟩) h1 hg

theorem stringImpl_from {env : FEnv} {b : BCtx} {st : SeqState Char} {p : Slot Field} {x : SeqState Char × Slot Field}
    (h : stringImpl env b st p = .ok x) {g : Field} (hg : g ∈ x.2.toList) : From env b p.toList g := by
  simp only [stringImpl, Res.bind_eq_ok, Res.pure_eq] at h
  obtain ⟨st1, _, st2, _, ⟨st3, p3⟩, h3, st4, _, st5, _, st6, _, st7, _, h⟩ := h
  cases h
  exact seqUpdatePrefix_from h3 hg

theorem dataImpl_from {env : FEnv} {b : BCtx} {st : SeqState Nat} {p : Slot Field} {x : SeqState Nat × Slot Field}
    (h : dataImpl env b st p = .ok x) {g : Field} (hg : g ∈ x.2.toList) : From env b p.toList g := by
  simp only [dataImpl, Res.bind_eq_ok, Res.pure_eq] at h
  obtain ⟨st2, _, ⟨st3, p3⟩, h3, st5, _, st6, _, st7, _, h⟩ := h
  cases h
  exact seqUpdatePrefix_from h3 hg

/-! ## Lists -/

theorem updateElement_from {env : FEnv} {b : BCtx} {cur e : Slot Field} (h : updateElement env b cur = .ok e) {g : Field}
    (hg : g ∈ e.toList) : From env b cur.toList g := by
  simp only [updateElement, Res.bind_eq_ok, Res.pure_eq] at h
  obtain ⟨e1, h1, e2, h2, _, _, h3⟩ := h
  cases h3
  have h1' : ∀ g ∈ e1.toList, From env b cur.toList g := by
    intro g hg
    unfold elementFromRef at h1
    split at h1
    · simp at h1
    · split at h1
      · cases h1; exact Or.inl hg
      · split at h1
        · simp at h1
        · rename_i f hf
          cases h1
          simp only [Slot.toList, List.mem_singleton] at hg
          exact Or.inr (Or.inl ⟨_, hg ▸ hf⟩)
  refine From.trans h1' ?_
  simp only [elementAsChild, Res.bind_eq_ok] at h2
  obtain ⟨n, _, h2⟩ := h2
  split at h2
  · cases h2; exact Or.inl hg
  · simp only [Res.bind_eq_ok, Res.pure_eq] at h2
    obtain ⟨f, hf, h2⟩ := h2
    cases h2
    simp only [Slot.toList, List.mem_singleton] at hg
    exact Or.inr (Or.inr ⟨_, hg ▸ hf⟩)

/-- All fields of a list. -/
def ListSlots.all (sl : ListSlots) : List Field :=
  sl.elem.toList ++ (sl.cnt.toList ++ (sl.len.toList ++ (sl.elemLen.toList ++ sl.term.toList)))

theorem updateElement_has {env : FEnv} {b : BCtx} {cur e : Slot Field} (h : updateElement env b cur = .ok e) : e.has = true := by
  simp only [updateElement, Res.bind_eq_ok, Res.pure_eq] at h
  obtain ⟨e1, h1, e2, h2, _, h4, h3⟩ := h
  cases h3
  exact Res.check_ok h4

/-- The steps of `listImpl`. -/
theorem listImpl_ok {env : FEnv} {b : BCtx} {st : ListState} {sl : ListSlots} {x : ListState × ListSlots}
    (h : listImpl env b st sl = .ok x) :
    ∃ e st1 x2 x3 st4 x5, updateElement env b sl.elem = .ok e ∧ updateCount b { sl with elem := e } st = .ok st1 ∧
      updateCountPrefix env b (st1, { sl with elem := e }) = .ok x2 ∧ updateLengthPrefix env b x2 = .ok x3 ∧
      updateElemFixed b x3.2.elem x3.1 = .ok st4 ∧ updateElemLenPrefix env b (st4, x3.2) = .ok x5 ∧ updateTermSuffix env b x5 = .ok x := by
  simp only [listImpl, Res.bind_eq_ok] at h
  obtain ⟨e, h1, st1, h2, x2, h3, x3, h4, st4, h5, x5, h6, h7⟩ := h
  exact ⟨e, st1, x2, x3, st4, x5, h1, h2, h3, h4, h5, h6, h7⟩

theorem updateCountPrefix_ok {env : FEnv} {b : BCtx} {x y : ListState × ListSlots} (h : updateCountPrefix env b x = .ok y) :
    ∃ p, updatePfx env b "countPrefix".toList ⟨x.1.detachedCount, x.2.cnt⟩ = .ok p ∧
      y = ({ x.1 with detachedCount := p.detached }, { x.2 with cnt := p.slot }) := by
  simp only [updateCountPrefix, Res.bind_eq_ok, Res.pure_eq] at h
  obtain ⟨p, h1, _, _, h2⟩ := h
  cases h2
  exact ⟨p, h1, rfl⟩

theorem updateLengthPrefix_ok {env : FEnv} {b : BCtx} {x y : ListState × ListSlots} (h : updateLengthPrefix env b x = .ok y) :
    ∃ p, updatePfx env b "lengthPrefix".toList ⟨x.1.detachedLen, x.2.len⟩ = .ok p ∧
      y = ({ x.1 with detachedLen := p.detached }, { x.2 with len := p.slot }) := by
  simp only [updateLengthPrefix, Res.bind_eq_ok, Res.pure_eq] at h
  obtain ⟨p, h1, _, _, h2⟩ := h
  cases h2
  exact ⟨p, h1, rfl⟩

theorem updateElemLenPrefix_ok {env : FEnv} {b : BCtx} {x y : ListState × ListSlots} (h : updateElemLenPrefix env b x = .ok y) :
    ∃ p, updatePfx env b "elemLengthPrefix".toList ⟨x.1.detachedElemLen, x.2.elemLen⟩ = .ok p ∧
      y = ({ x.1 with detachedElemLen := p.detached }, { x.2 with elemLen := p.slot }) := by
  simp only [updateElemLenPrefix, Res.bind_eq_ok, Res.pure_eq] at h
  obtain ⟨p, h1, _, _, h2⟩ := h
  cases h2
  exact ⟨p, h1, rfl⟩

theorem updateTermSuffix_ok {env : FEnv} {b : BCtx} {x y : ListState × ListSlots} (h : updateTermSuffix env b x = .ok y) :
    ∃ p, updatePfx env b "termSuffix".toList ⟨x.1.detachedTerm, x.2.term⟩ = .ok p ∧
      (y = ({ x.1 with detachedTerm := [] }, { x.2 with term := .none }) ∨
       y = ({ x.1 with detachedTerm := p.detached }, { x.2 with term := p.slot })) := by
  simp only [updateTermSuffix, Res.bind_eq_ok] at h
  obtain ⟨p, h1, h⟩ := h
  refine ⟨p, h1, ?_⟩
  split at h
  · cases h; exact Or.inl rfl
  · simp only [Res.bind_eq_ok, Res.pure_eq] at h
    obtain ⟨_, _, h⟩ := h
    cases h; exact Or.inr rfl

theorem listImpl_from {env : FEnv} {b : BCtx} {st : ListState} {sl : ListSlots} {x : ListState × ListSlots}
    (h : listImpl env b st sl = .ok x) {g : Field} (hg : g ∈ x.2.all) : From env b sl.all g := by
  obtain ⟨e, st1, x2, x3, st4, x5, h1, h2, h3, h4, h5, h6, h7⟩ := listImpl_ok h
  obtain ⟨p2, q2, rfl⟩ := updateCountPrefix_ok h3
  obtain ⟨p3, q3, rfl⟩ := updateLengthPrefix_ok h4
  obtain ⟨p5, q5, rfl⟩ := updateElemLenPrefix_ok h6
  obtain ⟨p7, q7, h8⟩ := updateTermSuffix_ok h7
  have he := fun g hg => updateElement_from (g := g) h1 hg
  have hc := fun g hg => updatePfx_from (g := g) q2 hg
  have hl := fun g hg => updatePfx_from (g := g) q3 hg
  have hel := fun g hg => updatePfx_from (g := g) q5 hg
  have ht := fun g hg => updatePfx_from (g := g) q7 hg
  simp only at he hc hl hel ht
  have m1 : ∀ g ∈ sl.elem.toList, g ∈ sl.all := by intro g hg; simp [ListSlots.all, hg]
  have m2 : ∀ g ∈ sl.cnt.toList, g ∈ sl.all := by intro g hg; simp [ListSlots.all, hg]
  have m3 : ∀ g ∈ sl.len.toList, g ∈ sl.all := by intro g hg; simp [ListSlots.all, hg]
  have m4 : ∀ g ∈ sl.elemLen.toList, g ∈ sl.all := by intro g hg; simp [ListSlots.all, hg]
  have m5 : ∀ g ∈ sl.term.toList, g ∈ sl.all := by intro g hg; simp [ListSlots.all, hg]
  rcases h8 with rfl | rfl
  all_goals
    simp only [ListSlots.all, List.mem_append] at hg
    rcases hg with hg | hg | hg | hg | hg
    · exact (he g hg).mono m1
    · exact (hc g hg).mono m2
    · exact (hl g hg).mono m3
    · exact (hel g hg).mono m4
    · first
      | (simp only [Slot.toList] at hg; simp at hg; done)
      | exact (ht g hg).mono m5

/-! ## Members -/

theorem newMembers_mem {b : BCtx} {chk : List Field → Field → Res Bool} {ns : List Xml} {acc ms : List Field}
    (h : newMembers b chk ns acc = .ok ms) {g : Field} (hg : g ∈ ms) : g ∈ acc ∨ ∃ n, b.child n = .ok g := by
  induction ns generalizing acc with
  | nil => cases h; exact Or.inl hg
  | cons n ns ih =>
    simp only [newMembers, Res.bind_eq_ok] at h
    obtain ⟨f, h1, ok, _, _, _, h3⟩ := h
    rcases ih h3 with h4 | h4
    · rcases List.mem_append.1 h4 with h5 | h5
      · exact Or.inl h5
      · simp only [List.mem_singleton] at h5
        exact Or.inr ⟨n, h5 ▸ h1⟩
    · exact Or.inr h4

theorem newMembers_prefix {b : BCtx} {chk : List Field → Field → Res Bool} {ns : List Xml} {acc ms : List Field}
    (h : newMembers b chk ns acc = .ok ms) : ∃ fs, ms = acc ++ fs ∧ ∀ g ∈ fs, ∃ n ∈ ns, b.child n = .ok g := by
  induction ns generalizing acc with
  | nil => cases h; exact ⟨[], by simp⟩
  | cons n ns ih =>
    simp only [newMembers, Res.bind_eq_ok] at h
    obtain ⟨f, h1, ok, _, _, _, h3⟩ := h
    obtain ⟨fs, rfl, h4⟩ := ih h3
    refine ⟨f :: fs, by simp, ?_⟩
    intro g hg
    rcases List.mem_cons.1 hg with rfl | hg
    · exact ⟨n, by simp, h1⟩
    · obtain ⟨n', hn, h5⟩ := h4 g hg
      exact ⟨n', by simp [hn], h5⟩

theorem bitfieldMembers_ok {b : BCtx} {ms ms' : List Field} (h : bitfieldMembers b ms = .ok ms') :
    (ms' = ms.map (liftSince b.ic.since) ∧ ms ≠ []) ∨ (∃ ns, memberNodes b bitfieldTypes (ms.map (liftSince b.ic.since)) = .ok (some ns) ∧ ms = [] ∧
      newMembers b (fun _ f => .ok (sameVersions b f)) ns [] = .ok ms' ∧ validateNames [] ms' = true ∧ totalBits ms' % 8 = 0 ∧
      totalBits ms' ≤ 64) := by
  simp only [bitfieldMembers, Res.bind_eq_ok] at h
  obtain ⟨nodes, h1, h2⟩ := h
  split at h2
  · cases h2
    refine Or.inl ⟨rfl, ?_⟩
    rintro rfl
    unfold memberNodes at h1
    simp only [List.map_nil] at h1
    split at h1 <;> try simp at h1
    split at h1 <;> try simp at h1
    split at h1
    · split at h1
      · simp at h1
      · split at h1 <;> simp at h1
    · split at h1 <;> simp at h1
  · rename_i ns
    simp only [bitfieldNew, Res.bind_eq_ok, Res.pure_eq] at h2
    obtain ⟨_, h3, ms2, h4, _, h5, _, h6, _, h7, h8⟩ := h2
    cases h8
    have : ms = [] := by simpa using Res.check_ok h3
    subst this
    exact Or.inr ⟨ns, h1, rfl, h4, Res.check_ok h5, by simpa using Res.check_ok h6, by simpa using Res.check_ok h7⟩

theorem bundleMembers_ok {env : FEnv} {b : BCtx} {ms ms' : List Field} (h : bundleMembers env b ms = .ok ms') :
    (ms' = keepMembers b.ic.since ms ∨ ∃ ns, newMembers b (fun acc f => verifySiblings env acc f) ns (keepMembers b.ic.since ms) = .ok ms' ∧
      validateNames [] ms' = true) ∧ hasSameVersion b ms' = true ∧ ms'.countP (fun m => m.sem == .length) ≤ 1 := by
  simp only [bundleMembers, Res.bind_eq_ok, Res.pure_eq] at h
  obtain ⟨nodes, h1, all, h2, _, h3, _, h4, h5⟩ := h
  cases h5
  refine ⟨?_, Res.check_ok h3, by simpa using Res.check_ok h4⟩
  cases nodes with
  | none => cases h2; exact Or.inl rfl
  | some ns =>
    simp only [bundleAll, bundleNew, Res.bind_eq_ok, Res.pure_eq] at h2
    obtain ⟨m, h6, _, h7, h8⟩ := h2
    cases h8
    exact Or.inr ⟨ns, h6, Res.check_ok h7⟩

theorem variantMembers_ok {b : BCtx} {ms ms' : List Field} (h : variantMembers b ms = .ok ms') :
    (ms' = keepMembers b.ic.since ms ∨ ∃ ns, newMembers b (fun _ _ => .ok true) ns (keepMembers b.ic.since ms) = .ok ms' ∧
      validateNames [] ms' = true) ∧ hasSameVersion b ms' = true := by
  simp only [variantMembers, Res.bind_eq_ok, Res.pure_eq] at h
  obtain ⟨nodes, h1, all, h2, _, h3, h5⟩ := h
  cases h5
  refine ⟨?_, Res.check_ok h3⟩
  cases nodes with
  | none => cases h2; exact Or.inl rfl
  | some ns =>
    simp only [variantAll, variantNew, Res.bind_eq_ok, Res.pure_eq] at h2
    obtain ⟨m, h6, _, h7, h8⟩ := h2
    cases h8
    exact Or.inr ⟨ns, h6, Res.check_ok h7⟩

theorem mem_keepMembers {s : Nat} {ms : List Field} {g : Field} (h : g ∈ keepMembers s ms) :
    ∃ m ∈ ms, g = liftSince s m ∧ ¬ (m.removed = true ∧ m.depr ≤ s) := by
  simp only [keepMembers, List.mem_map, List.mem_filter] at h
  obtain ⟨m, ⟨hm, hr⟩, rfl⟩ := h
  exact ⟨m, hm, rfl, by
    rintro ⟨h1, h2⟩
    have h3 : m.removed = true := h1
    have h4 : m.depr ≤ s := h2
    simp [h3, h4] at hr⟩

/-! ## Everything -/

/-- The origin of a field inside a parsed one. -/
def Origin (env : FEnv) (b : BCtx) (old : List Field) (g : Field) : Prop :=
  From env b old g ∨ ∃ m ∈ old, ∃ s, g = liftSince s m

theorem optField_from {env : FEnv} {b : BCtx} {cur e : Slot Field} (h : optField env b cur = .ok e) {g : Field}
    (hg : g ∈ e.toList) : From env b cur.toList g := by
  simp only [optField, Res.bind_eq_ok, Res.pure_eq] at h
  obtain ⟨e1, h1, e2, h2, _, _, h3⟩ := h
  cases h3
  have h1' : ∀ g ∈ e1.toList, From env b cur.toList g := by
    intro g hg
    unfold optFromRef at h1
    split at h1
    · simp at h1
    · split at h1
      · cases h1; exact Or.inl hg
      · split at h1
        · simp at h1
        · rename_i f hf
          cases h1
          simp only [Slot.toList, List.mem_singleton] at hg
          exact Or.inr (Or.inl ⟨_, hg ▸ hf⟩)
  refine From.trans h1' ?_
  simp only [optAsChild, Res.bind_eq_ok] at h2
  obtain ⟨n, _, h2⟩ := h2
  split at h2
  · cases h2; exact Or.inl hg
  · simp only [Res.bind_eq_ok, Res.pure_eq] at h2
    obtain ⟨f, hf, h2⟩ := h2
    cases h2
    simp only [Slot.toList, List.mem_singleton] at hg
    exact Or.inr (Or.inr ⟨_, hg ▸ hf⟩)

theorem optField_has {env : FEnv} {b : BCtx} {cur e : Slot Field} (h : optField env b cur = .ok e) : e.has = true := by
  simp only [optField, Res.bind_eq_ok, Res.pure_eq] at h
  obtain ⟨e1, h1, e2, h2, _, h4, h3⟩ := h
  cases h3
  exact Res.check_ok h4

theorem refImpl_ok {env : FEnv} {b : BCtx} {c : Common} {bl : Nat} {cur : Slot Field} {f : Field}
    (h : refImpl env b c bl cur = .ok f) :
    (f = .ref c bl cur ∧ cur.has = true) ∨
    (∃ s t bl', env.findField s = some t ∧ refBitLength b t bl = .ok bl' ∧ f = .ref (refCommon env.dsl c t.common) bl' (.ext t)) := by
  unfold refImpl at h
  split at h
  · simp at h
  · rename_i hv
    split at h
    · rename_i hn
      cases h
      refine Or.inl ⟨rfl, ?_⟩
      cases hc : cur.has with
      | true => rfl
      | false =>
        exfalso
        apply hv
        have h0 : b.props.count "field".toList = 0 := by
          simp only [Props.find, Option.map_eq_none_iff, List.find?_eq_none] at hn
          simp only [Props.count, List.countP_eq_zero]
          exact hn
        simp [Props.validateSingle, hc]
        exact Or.inr h0
    · rename_i s hs
      split at h
      · simp at h
      · rename_i t ht
        simp only [Res.bind_eq_ok, Res.pure_eq] at h
        obtain ⟨bl', h1, h2⟩ := h
        cases h2
        exact Or.inr ⟨s, t, bl', ht, h1, rfl⟩

theorem parseBody_kind {env : FEnv} {b : BCtx} {f0 f : Field} (h : parseBody env b f0 = .ok f) : f.kind = f0.kind := by
  cases f0 with
  | ref c bl t =>
    rcases refImpl_ok (by simpa [parseBody] using h) with ⟨rfl, _⟩ | ⟨_, _, _, _, _, rfl⟩ <;> rfl
  | bitfield =>
    simp only [parseBody, bitfieldImpl, Res.bind_eq_ok, Res.pure_eq] at h
    obtain ⟨_, _, _, _, _, _, h⟩ := h
    cases h; rfl
  | bundle =>
    simp only [parseBody, bundleImpl, Res.bind_eq_ok, Res.pure_eq] at h
    obtain ⟨_, _, _, _, _, _, h⟩ := h
    cases h; rfl
  | variant =>
    simp only [parseBody, variantImpl, Res.bind_eq_ok, Res.pure_eq] at h
    obtain ⟨_, _, _, _, h⟩ := h
    cases h; rfl
  | optional =>
    simp only [parseBody, optionalImpl, Res.bind_eq_ok, Res.pure_eq] at h
    obtain ⟨_, _, _, _, _, _, _, _, _, _, _, _, h⟩ := h
    cases h; rfl
  | int | enum | set | float | string | data | list =>
    simp only [parseBody, Res.bind_eq_ok, Res.pure_eq] at h
    obtain ⟨_, _, h⟩ := h
    cases h; rfl

/-- Only references change the common state: the name, the display name and the semantic type. -/
theorem parseBody_common {env : FEnv} {b : BCtx} {f0 f : Field} (h : parseBody env b f0 = .ok f) :
    f.common.w = f0.common.w ∧ f.common.inBitfield = f0.common.inBitfield ∧ f.common.pseudo = f0.common.pseudo ∧
      (f0.kind ≠ .ref → f.common = f0.common) := by
  cases f0 with
  | ref c bl t =>
    rcases refImpl_ok (by simpa [parseBody] using h) with ⟨rfl, _⟩ | ⟨_, _, _, _, _, rfl⟩ <;>
      simp [Field.common, refCommon, Field.kind]
  | bitfield =>
    simp only [parseBody, bitfieldImpl, Res.bind_eq_ok, Res.pure_eq] at h
    obtain ⟨_, _, _, _, _, _, h⟩ := h
    cases h; simp [Field.common]
  | bundle =>
    simp only [parseBody, bundleImpl, Res.bind_eq_ok, Res.pure_eq] at h
    obtain ⟨_, _, _, _, _, _, h⟩ := h
    cases h; simp [Field.common]
  | variant =>
    simp only [parseBody, variantImpl, Res.bind_eq_ok, Res.pure_eq] at h
    obtain ⟨_, _, _, _, h⟩ := h
    cases h; simp [Field.common]
  | optional =>
    simp only [parseBody, optionalImpl, Res.bind_eq_ok, Res.pure_eq] at h
    obtain ⟨_, _, _, _, _, _, _, _, _, _, _, _, h⟩ := h
    cases h; simp [Field.common]
  | int | enum | set | float | string | data | list =>
    simp only [parseBody, Res.bind_eq_ok, Res.pure_eq] at h
    obtain ⟨_, _, h⟩ := h
    cases h; simp [Field.common]

theorem parseBody_subs {env : FEnv} {b : BCtx} {f0 f : Field} (h : parseBody env b f0 = .ok f) {g : Field} (hg : g ∈ f.subs) :
    Origin env b f0.subs g := by
  have keep : ∀ {ms ms' : List Field} {chk : List Field → Field → Res Bool},
      (ms' = keepMembers b.ic.since ms ∨ ∃ ns, newMembers b chk ns (keepMembers b.ic.since ms) = .ok ms' ∧
      validateNames [] ms' = true) → g ∈ ms' → Origin env b ms g := by
    intro ms ms' chk h1 hg
    have : g ∈ keepMembers b.ic.since ms ∨ ∃ n, b.child n = .ok g := by
      rcases h1 with rfl | ⟨ns, h1, _⟩
      · exact Or.inl hg
      · exact newMembers_mem h1 hg
    rcases this with h2 | h2
    · obtain ⟨m, hm, rfl, _⟩ := mem_keepMembers h2
      exact Or.inr ⟨m, hm, _, rfl⟩
    · exact Or.inl (Or.inr (Or.inr h2))
  cases f0 with
  | int | enum | set | float =>
    simp only [parseBody, Res.bind_eq_ok, Res.pure_eq] at h
    obtain ⟨_, _, h⟩ := h
    cases h; simp [Field.subs] at hg
  | string c st p =>
    simp only [parseBody, Res.bind_eq_ok, Res.pure_eq] at h
    obtain ⟨x, hx, h⟩ := h
    cases h; exact Or.inl (stringImpl_from hx hg)
  | data c st p =>
    simp only [parseBody, Res.bind_eq_ok, Res.pure_eq] at h
    obtain ⟨x, hx, h⟩ := h
    cases h; exact Or.inl (dataImpl_from hx hg)
  | list c st e cn l el t =>
    simp only [parseBody, Res.bind_eq_ok, Res.pure_eq] at h
    obtain ⟨x, hx, h⟩ := h
    cases h; exact Or.inl (listImpl_from hx hg)
  | ref c bl t =>
    rcases refImpl_ok (by simpa [parseBody] using h) with ⟨rfl, _⟩ | ⟨s, t', _, ht, _, rfl⟩
    · exact Or.inl (Or.inl hg)
    · simp only [Field.subs, Slot.toList, List.mem_singleton] at hg
      exact Or.inl (Or.inr (Or.inl ⟨s, hg ▸ ht⟩))
  | optional c st fs cd =>
    simp only [parseBody, optionalImpl, Res.bind_eq_ok, Res.pure_eq] at h
    obtain ⟨_, _, _, _, _, _, fs', hf, _, _, _, _, h⟩ := h
    cases h; exact Or.inl (optField_from hf hg)
  | bundle c ms al cd =>
    simp only [parseBody, bundleImpl, Res.bind_eq_ok, Res.pure_eq] at h
    obtain ⟨ms', h1, _, _, _, _, h⟩ := h
    cases h
    exact keep (bundleMembers_ok h1).1 hg
  | variant c d ms =>
    simp only [parseBody, variantImpl, Res.bind_eq_ok, Res.pure_eq] at h
    obtain ⟨ms', h1, _, _, h⟩ := h
    cases h
    exact keep (variantMembers_ok h1).1 hg
  | bitfield c e ms cd =>
    simp only [parseBody, bitfieldImpl, Res.bind_eq_ok, Res.pure_eq] at h
    obtain ⟨_, _, ms', h1, _, _, h⟩ := h
    cases h
    rcases bitfieldMembers_ok h1 with ⟨rfl, _⟩ | ⟨ns, _, _, h2, _⟩
    · simp only [Field.subs, List.mem_map] at hg
      obtain ⟨m, hm, rfl⟩ := hg
      exact Or.inr ⟨m, hm, _, rfl⟩
    · rcases newMembers_mem h2 hg with h3 | h3
      · simp at h3
      · exact Or.inl (Or.inr (Or.inr h3))

theorem reuseImpl_subs {env : FEnv} {props : Props} {c : Common} {g f : Field} (h : reuseImpl env props c g = .ok f) {x : Field}
    (hx : x ∈ f.subs) : x ∈ (clone g).subs := by
  cases g with
  | bundle c' ms al cd =>
    simp only [reuseImpl, Res.bind_eq_ok, Res.pure_eq] at h
    obtain ⟨al', _, h⟩ := h
    cases h
    exact hx
  | _ =>
    simp only [reuseImpl] at h
    cases h
    exact hx

/-- A property of fields that holds of all global fields and of everything parsed inside, is passed on by copies and lifted versions, and goes
    from a field to its parts, holds of all parts of a parsed field. -/
theorem parseStep_subs {env : FEnv} {pc : ParentInfo → Xml → Res Field} {parent : ParentInfo} {node : Xml} {f : Field}
    (h : parseStep env pc parent node = .ok f) {H : Field → Prop}
    (hpc : ∀ p n g, pc p n = .ok g → H g) (henv : ∀ s g, env.findField s = some g → H g)
    (hclone : ∀ g, H g → H (clone g)) (hlift : ∀ s g, H g → H (liftSince s g)) (hsub : ∀ g, H g → ∀ x ∈ g.subs, H x) :
    ∀ g ∈ f.subs, H g := by
  obtain ⟨k, props, f1, f2, c, hk, hp, h1, h2, hc, h3, hv⟩ := parseStep_ok h
  have H1 : ∀ g ∈ f1.subs, H g := by
    intro g hg
    rcases checkReuse_ok h1 with ⟨_, rfl⟩ | ⟨s, g0, code, _, hg0, _, _, hr⟩
    · rw [initField_subs] at hg; simp at hg
    · exact hsub _ (hclone _ (henv _ _ hg0)) _ (reuseImpl_subs hr hg)
  have H2 : ∀ g ∈ f2.subs, H g := by
    intro g hg
    rcases checkReplace_ok h2 with rfl | ⟨r, rs, _, hrs, hri⟩
    · exact H1 g hg
    · obtain ⟨_, _, e1, e2, chk, hr⟩ := replaceImpl_ok hri
      rw [e2] at hg
      rcases replaceMembers_mem hr hg with h4 | h4
      · obtain ⟨n, _, hn⟩ := parseAll_mem hrs h4
        exact hpc _ _ _ hn
      · exact H1 g (e1 ▸ h4)
  intro g hg
  have := parseBody_subs h3 hg
  rw [setCommon_subs] at this
  rcases this with (h4 | ⟨s, h4⟩ | ⟨n, h4⟩) | ⟨m, hm, s, rfl⟩
  · exact H2 g h4
  · exact henv _ _ h4
  · exact hpc _ _ _ h4
  · exact hlift _ _ (H2 m hm)

end Commsdsl.Fld
