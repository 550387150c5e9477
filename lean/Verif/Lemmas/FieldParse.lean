import Verif.Model.FieldParse
/-!
# Inversion and induction for the field parser
-/
namespace Commsdsl.Fld
open Commsdsl Text

/-! ## Generic -/

theorem cloneAll_eq_map (ms : List Field) : cloneAll ms = ms.map clone := by
  induction ms with
  | nil => rfl
  | cons m ms ih => simp [cloneAll, ih]

theorem clone_common (f : Field) : (clone f).common = f.common := by cases f <;> rfl

theorem clone_kind (f : Field) : (clone f).kind = f.kind := by cases f <;> rfl

theorem setCommon_common (c : Common) (f : Field) : (f.setCommon c).common = c := by cases f <;> rfl

theorem setCommon_kind (c : Common) (f : Field) : (f.setCommon c).kind = f.kind := by cases f <;> rfl

theorem setCommon_subs (c : Common) (f : Field) : (f.setCommon c).subs = f.subs := by cases f <;> rfl

theorem setCommon_members (c : Common) (f : Field) : (f.setCommon c).members = f.members := by cases f <;> rfl

theorem members_subs {f g : Field} (h : g ∈ f.members) : g ∈ f.subs := by
  cases f <;> first | exact h | (simp [Field.members] at h)

/-- Membership in a cloned slot. -/
theorem mem_cloneSlot {s : Slot Field} {g : Field} (h : g ∈ (cloneSlot s).toList) : ∃ m ∈ s.toList, g = m ∨ g = clone m := by
  cases s with
  | none => simp [cloneSlot, Slot.toList] at h
  | ext a => exact ⟨a, by simp [Slot.toList], Or.inl (by simpa [cloneSlot, Slot.toList] using h)⟩
  | own a => exact ⟨a, by simp [Slot.toList], Or.inr (by simpa [cloneSlot, Slot.toList] using h)⟩

/-- What is inside a clone is what is inside the original, or a clone of it. -/
theorem clone_subs {f g : Field} (h : g ∈ (clone f).subs) : ∃ m ∈ f.subs, g = m ∨ g = clone m := by
  cases f with
  | int | enum | set | float => simp [clone, Field.subs] at h
  | bitfield c e ms cd =>
    simp only [clone, Field.subs, cloneAll_eq_map, List.mem_map] at h
    obtain ⟨m, hm, rfl⟩ := h
    exact ⟨m, hm, Or.inr rfl⟩
  | bundle c ms al cd =>
    simp only [clone, Field.subs, cloneAll_eq_map, List.mem_map] at h
    obtain ⟨m, hm, rfl⟩ := h
    exact ⟨m, hm, Or.inr rfl⟩
  | variant c d ms =>
    simp only [clone, Field.subs, cloneAll_eq_map, List.mem_map] at h
    obtain ⟨m, hm, rfl⟩ := h
    exact ⟨m, hm, Or.inr rfl⟩
  | string c st p => exact mem_cloneSlot h
  | data c st p => exact mem_cloneSlot h
  | optional c st p cd => exact mem_cloneSlot h
  | ref c b t => exact ⟨g, h, Or.inl rfl⟩
  | list c st e cn l el t =>
    simp only [clone, Field.subs, List.mem_append] at h ⊢
    rcases h with h | h | h | h | h
    all_goals
      obtain ⟨m, hm, h⟩ := mem_cloneSlot h
      exact ⟨m, by simp [hm], h⟩

/-- Induction over the fields a field consists of. -/
theorem Field.induction {P : Field → Prop} (h : ∀ f, (∀ g ∈ f.subs, P g) → P f) (f : Field) : P f := by
  have slot : ∀ {s : Slot Field}, (∀ a, s = .ext a → P a) → (∀ a, s = .own a → P a) → ∀ g ∈ s.toList, P g := by
    intro s h1 h2 g hg
    cases s with
    | none => simp [Slot.toList] at hg
    | ext a =>
      simp only [Slot.toList, List.mem_singleton] at hg
      exact hg ▸ h1 a rfl
    | own a =>
      simp only [Slot.toList, List.mem_singleton] at hg
      exact hg ▸ h2 a rfl
  refine Field.rec (motive_1 := P) (motive_2 := fun l => ∀ g ∈ l, P g) (motive_3 := fun s => ∀ g ∈ s.toList, P g)
    ?_ ?_ ?_ ?_ ?_ ?_ ?_ ?_ ?_ ?_ ?_ ?_ ?_ ?_ ?_ ?_ ?_ f
  · intro c st; exact h _ (by simp [Field.subs])
  · intro c st; exact h _ (by simp [Field.subs])
  · intro c st; exact h _ (by simp [Field.subs])
  · intro c st; exact h _ (by simp [Field.subs])
  · intro c e ms cd ih; exact h _ ih
  · intro c ms al cd ih; exact h _ ih
  · intro c st p ih; exact h _ ih
  · intro c st p ih; exact h _ ih
  · intro c st a b d e t h1 h2 h3 h4 h5
    refine h _ ?_
    intro g hg
    simp only [Field.subs, List.mem_append] at hg
    rcases hg with hg | hg | hg | hg | hg
    · exact h1 g hg
    · exact h2 g hg
    · exact h3 g hg
    · exact h4 g hg
    · exact h5 g hg
  · intro c b t ih; exact h _ ih
  · intro c st f cd ih; exact h _ ih
  · intro c d ms ih; exact h _ ih
  · simp
  · intro m ms hm ih g hg
    rcases List.mem_cons.1 hg with rfl | hg
    · exact hm
    · exact ih g hg
  · simp [Slot.toList]
  · intro a ha g hg; simp only [Slot.toList, List.mem_singleton] at hg; exact hg ▸ ha
  · intro a ha g hg; simp only [Slot.toList, List.mem_singleton] at hg; exact hg ▸ ha

/-! ## Inversion of the pipeline -/

theorem parseStep_ok {env : FEnv} {pc : ParentInfo → Xml → Res Field} {parent : ParentInfo} {node : Xml} {f : Field}
    (h : parseStep env pc parent node = .ok f) :
    ∃ k props f1 f2 c, kindOf node.name = some k ∧ collectProps k node = some props ∧
      checkReuse env k props { inBitfield := parent.isBitfield } = .ok f1 ∧ checkReplace env pc node f1 = .ok f2 ∧
      updateCommon env parent props f2.common = .ok c ∧
      parseBody env (bodyCtx pc parent node props k c) (f2.setCommon c) = .ok f ∧ verifyField env f = .ok () := by
  unfold parseStep at h
  split at h
  · simp at h
  · rename_i k hk
    simp only [Res.bind_eq_ok, Res.ofOption_eq_ok, Res.pure_eq] at h
    obtain ⟨props, hp, f1, h1, f2, h2, c, hc, f3, h3, u, hv, hf⟩ := h
    cases hf
    exact ⟨k, props, f1, f2, c, hk, hp, h1, h2, hc, h3, hv⟩

theorem parseField_ok {env : FEnv} {fuel : Nat} {parent : ParentInfo} {node : Xml} {f : Field}
    (h : parseField env fuel parent node = .ok f) :
    ∃ n, fuel = n + 1 ∧ parseStep env (parseField env n) parent node = .ok f := by
  cases fuel with
  | zero => simp [parseField] at h
  | succ n => exact ⟨n, rfl, h⟩

/-- Induction over the depth of the document. -/
theorem parseField_induction {env : FEnv} {P : Field → Prop}
    (hstep : ∀ pc : ParentInfo → Xml → Res Field, (∀ parent node f, pc parent node = .ok f → P f) →
      ∀ parent node f, parseStep env pc parent node = .ok f → P f) :
    ∀ fuel parent node f, parseField env fuel parent node = .ok f → P f := by
  intro fuel
  induction fuel with
  | zero => intro parent node f h; simp [parseField] at h
  | succ n ih => intro parent node f h; exact hstep _ ih parent node f h

/-! ## Kinds and common state -/

theorem reuseImpl_ok {env : FEnv} {props : Props} {c : Common} {g f : Field} (h : reuseImpl env props c g = .ok f) :
    f.common = c ∧ f.kind = g.kind := by
  cases g with
  | bundle c' ms al cd =>
    simp only [reuseImpl, Res.bind_eq_ok, Res.pure_eq] at h
    obtain ⟨al', _, h⟩ := h
    cases h
    exact ⟨rfl, rfl⟩
  | _ =>
    simp only [reuseImpl] at h
    cases h
    exact ⟨rfl, rfl⟩

theorem initField_kind (env : FEnv) (k : Kind) (c : Common) : (initField env k c).kind = k := by cases k <;> rfl

theorem initField_common (env : FEnv) (k : Kind) (c : Common) : (initField env k c).common = c := by cases k <;> rfl

theorem initField_subs (env : FEnv) (k : Kind) (c : Common) : (initField env k c).subs = [] := by cases k <;> rfl

/-- The two outcomes of `parseCheckReuse`. -/
theorem checkReuse_ok {env : FEnv} {k : Kind} {props : Props} {c0 : Common} {f : Field} (h : checkReuse env k props c0 = .ok f) :
    (props.find "reuse".toList = none ∧ f = initField env k c0) ∨
    (∃ s g code, props.find "reuse".toList = some s ∧ env.findField s = some g ∧ g.kind = k ∧ reuseCode env props s = .ok code ∧
      reuseImpl env props { g.common with copyCodeFrom := code, inBitfield := c0.inBitfield } g = .ok f) := by
  unfold checkReuse at h
  split at h
  · simp at h
  · split at h
    · rename_i hn
      cases h
      exact Or.inl ⟨hn, rfl⟩
    · rename_i s hs
      split at h
      · simp at h
      · rename_i g hg
        split at h
        · simp at h
        · rename_i hk
          simp only [Res.bind_eq_ok] at h
          obtain ⟨code, hcode, h⟩ := h
          exact Or.inr ⟨s, g, code, hs, hg, by simpa using hk, hcode, h⟩

theorem checkReuse_kind {env : FEnv} {k : Kind} {props : Props} {c0 : Common} {f : Field} (h : checkReuse env k props c0 = .ok f) :
    f.kind = k := by
  rcases checkReuse_ok h with ⟨_, rfl⟩ | ⟨s, g, code, _, _, hk, _, hr⟩
  · exact initField_kind ..
  · rw [(reuseImpl_ok hr).2, hk]

/-- The outcomes of `parseCheckReplace`: nothing to do, or some members replaced. -/
theorem checkReplace_ok {env : FEnv} {pc : ParentInfo → Xml → Res Field} {node : Xml} {f0 f : Field}
    (h : checkReplace env pc node f0 = .ok f) :
    f = f0 ∨ ∃ r rs, getChildren node ["replace".toList] = [r] ∧ parseAll (pc (.field f0.kind f0.since f0.depr)) (getChildren r) = .ok rs ∧
      replaceImpl rs f0 = .ok f := by
  unfold checkReplace at h
  split at h
  · cases h; exact Or.inl rfl
  · rename_i r hr
    split at h
    · cases h; exact Or.inl rfl
    · split at h
      · simp at h
      · simp only [Res.bind_eq_ok] at h
        obtain ⟨rs, h1, h2⟩ := h
        exact Or.inr ⟨r, rs, hr, h1, h2⟩
  · simp at h

theorem replaceImpl_ok {rs : List Field} {f0 f : Field} (h : replaceImpl rs f0 = .ok f) :
    f.common = f0.common ∧ f.kind = f0.kind ∧ f0.subs = f0.members ∧ f.subs = f.members ∧
      ∃ chk, replaceMembers chk rs f0.members = .ok f.members := by
  cases f0 with
  | bitfield c e ms cd =>
    simp only [replaceImpl, Res.bind_eq_ok, Res.pure_eq] at h
    obtain ⟨ms', h1, h⟩ := h
    cases h
    exact ⟨rfl, rfl, rfl, rfl, _, h1⟩
  | bundle c ms al cd =>
    simp only [replaceImpl, Res.bind_eq_ok, Res.pure_eq] at h
    obtain ⟨ms', h1, h⟩ := h
    cases h
    exact ⟨rfl, rfl, rfl, rfl, _, h1⟩
  | variant c d ms =>
    simp only [replaceImpl, Res.bind_eq_ok, Res.pure_eq] at h
    obtain ⟨ms', h1, h⟩ := h
    cases h
    exact ⟨rfl, rfl, rfl, rfl, _, h1⟩
  | _ => simp [replaceImpl] at h

theorem checkReplace_common {env : FEnv} {pc : ParentInfo → Xml → Res Field} {node : Xml} {f0 f : Field}
    (h : checkReplace env pc node f0 = .ok f) : f.common = f0.common ∧ f.kind = f0.kind := by
  rcases checkReplace_ok h with rfl | ⟨r, rs, _, _, hr⟩
  · exact ⟨rfl, rfl⟩
  · exact ⟨(replaceImpl_ok hr).1, (replaceImpl_ok hr).2.1⟩

theorem replaceFirst_mem {r : Field} {ms ms' : List Field} (h : replaceFirst r ms = some ms') {g : Field} (hg : g ∈ ms') :
    g = r ∨ g ∈ ms := by
  induction ms generalizing ms' with
  | nil => simp [replaceFirst] at h
  | cons m ms ih =>
    simp only [replaceFirst] at h
    split at h
    · cases h
      rcases List.mem_cons.1 hg with h1 | h1
      · exact Or.inl h1
      · exact Or.inr (List.mem_cons_of_mem _ h1)
    · simp only [Option.map_eq_some_iff] at h
      obtain ⟨l, hl, rfl⟩ := h
      rcases List.mem_cons.1 hg with h1 | h1
      · exact Or.inr (by simp [h1])
      · rcases ih hl h1 with h2 | h2
        · exact Or.inl h2
        · exact Or.inr (List.mem_cons_of_mem _ h2)

theorem replaceMembers_mem {chk : Field → Bool} {rs ms ms' : List Field} (h : replaceMembers chk rs ms = .ok ms') {g : Field}
    (hg : g ∈ ms') : g ∈ rs ∨ g ∈ ms := by
  induction rs generalizing ms with
  | nil => cases h; exact Or.inr hg
  | cons r rs ih =>
    simp only [replaceMembers] at h
    split at h
    · simp at h
    · rename_i l hl
      split at h
      · rcases ih h with h1 | h1
        · exact Or.inl (List.mem_cons_of_mem _ h1)
        · rcases replaceFirst_mem hl h1 with h2 | h2
          · exact Or.inl (by simp [h2])
          · exact Or.inr h2
      · simp at h

theorem parseAll_mem {pc : Xml → Res Field} {ns : List Xml} {fs : List Field} (h : parseAll pc ns = .ok fs) {g : Field} (hg : g ∈ fs) :
    ∃ n ∈ ns, pc n = .ok g := by
  induction ns generalizing fs with
  | nil => cases h; simp at hg
  | cons n ns ih =>
    simp only [parseAll, Res.bind_eq_ok, Res.pure_eq] at h
    obtain ⟨f, h1, fs', h2, h⟩ := h
    cases h
    rcases List.mem_cons.1 hg with rfl | hg
    · exact ⟨n, by simp, h1⟩
    · obtain ⟨n', hn, h3⟩ := ih h2 hg
      exact ⟨n', List.mem_cons_of_mem _ hn, h3⟩

end Commsdsl.Fld
