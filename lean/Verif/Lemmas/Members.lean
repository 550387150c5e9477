import Verif.Lemmas.FieldObj
/-!
# Member lists
-/
namespace Commsdsl.Fld
open Commsdsl Text

theorem cloneAll_eq (ms : List Field) : cloneAll ms = ms.map clone := by
  induction ms with
  | nil => simp [cloneAll]
  | cons m ms ih => simp [cloneAll, ih]

theorem clone_members (f : Field) : (clone f).members = f.members.map clone := by
  cases f <;> simp [clone, Field.members, cloneAll_eq]

theorem liftSince_members (s : Nat) (f : Field) : (liftSince s f).members = f.members := by cases f <;> rfl

theorem validateNames_spec {used : List Str} {ms : List Field} (h : validateNames used ms = true) :
    (ms.map Field.name).Nodup ∧ ∀ m ∈ ms, m.name ∉ used := by
  induction ms generalizing used with
  | nil => simp
  | cons m ms ih =>
    unfold validateNames at h
    split at h
    · simp at h
    · rename_i hu
      obtain ⟨h1, h2⟩ := ih h
      have hu : m.name ∉ used := by simpa using hu
      refine ⟨?_, ?_⟩
      · rw [List.map_cons, List.nodup_cons]
        refine ⟨?_, h1⟩
        intro hm
        obtain ⟨x, hx, he⟩ := List.mem_map.1 hm
        exact h2 x hx (by simp [he])
      · intro x hx
        rcases List.mem_cons.1 hx with rfl | hx
        · exact hu
        · exact fun hxu => h2 x hx (by simp [hxu])

theorem validateNames_complete {used : List Str} {ms : List Field} (h1 : (ms.map Field.name).Nodup) (h2 : ∀ m ∈ ms, m.name ∉ used) :
    validateNames used ms = true := by
  induction ms generalizing used with
  | nil => rfl
  | cons m ms ih =>
    rw [List.map_cons, List.nodup_cons] at h1
    unfold validateNames
    rw [if_neg (by simpa using h2 m (by simp))]
    refine ih h1.2 ?_
    intro x hx hu
    rcases List.mem_cons.1 hu with hu | hu
    · exact h1.1 (List.mem_map.2 ⟨x, hx, hu⟩)
    · exact h2 x (by simp [hx]) hu

theorem replaceFirst_names {r : Field} {ms ms' : List Field} (h : replaceFirst r ms = some ms') :
    ms'.map Field.name = ms.map Field.name ∧ r.name ∈ ms.map Field.name := by
  induction ms generalizing ms' with
  | nil => simp [replaceFirst] at h
  | cons m ms ih =>
    unfold replaceFirst at h
    split at h
    · rename_i e
      cases h
      simp [e]
    · simp only [Option.map_eq_some_iff] at h
      obtain ⟨x, hx, rfl⟩ := h
      obtain ⟨h1, h2⟩ := ih hx
      exact ⟨by simp [h1], by simp only [List.map_cons, List.mem_cons]; exact Or.inr h2⟩

theorem replaceMembers_names {chk : Field → Bool} {rs ms ms' : List Field} (h : replaceMembers chk rs ms = .ok ms') :
    ms'.map Field.name = ms.map Field.name := by
  induction rs generalizing ms with
  | nil => cases h; rfl
  | cons r rs ih =>
    unfold replaceMembers at h
    split at h
    · simp at h
    · rename_i x hx
      split at h
      · rw [ih h]; exact (replaceFirst_names hx).1
      · simp at h

theorem keepMembers_names (s : Nat) (ms : List Field) : ((keepMembers s ms).map Field.name).Sublist (ms.map Field.name) := by
  unfold keepMembers
  rw [List.map_map]
  have : (Field.name ∘ liftSince s) = Field.name := by funext f; exact liftSince_name s f
  rw [this]
  exact List.Sublist.map _ List.filter_sublist

theorem before_names {env : FEnv} {pc : ParentInfo → Xml → Res Field} {k : Kind} {ms : List Field} (h : Before env pc k ms)
    (henv : ∀ s g, env.findField s = some g → (g.members.map Field.name).Nodup) : (ms.map Field.name).Nodup := by
  obtain ⟨ms0, h1, h2⟩ := h
  have h0 : (ms0.map Field.name).Nodup := by
    rcases h1 with rfl | ⟨s, g, hg, _, rfl⟩
    · simp
    · rw [cloneAll_eq, List.map_map]
      have : (Field.name ∘ clone) = Field.name := by funext f; simp [Field.name, clone_common]
      rw [this]; exact henv s g hg
  rcases h2 with rfl | ⟨p, ns, rs, chk, _, h2⟩
  · exact h0
  · rw [replaceMembers_names h2]; exact h0

end Commsdsl.Fld
