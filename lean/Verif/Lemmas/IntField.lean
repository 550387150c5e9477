import Verif.Model.IntField
/-! Decomposition of `parseImpl` of `<int>` fields and frame facts of its steps. -/
namespace Commsdsl.IntF
open Commsdsl Text

/-- The intermediate states of a successful `parseImpl`. -/
structure Steps (env : Env) (c : Ctx) (st0 st : State) where
  t : IntType
  s1 : State
  s2 : State
  s3 : State
  s4 : State
  s5 : State
  s6 : State
  s7 : State
  s8 : State
  s9 : State
  s10 : State
  s11 : State
  s12 : State
  s13 : State
  s14 : State
  s15 : State
  s16 : State
  s17 : State
  h1 : updateType c st0 = .ok s1
  ht : s1.type = some t
  h2 : updateEndian env c s1 = .ok s2
  h3 : updateLength c t s2 = .ok s3
  h4 : updateBitLength c t s3 = .ok s4
  h5 : updateScaling c s4 = .ok s5
  h6 : updateSerOffset c s5 = .ok s6
  h7 : updateMinMax t s6 = .ok s7
  h8 : updateNonUnique env c s7 = .ok s8
  h9 : updateSpecials env c t s8 = .ok s9
  h10 : updateDefault env c t s9 = .ok s10
  h11 : updateDefaultValid env c t s10 = .ok s11
  h12 : updateValidCheckVersion env c s11 = .ok s12
  h13 : updateValidRanges env c t s12 = .ok s13
  h14 : updateUnits c s13 = .ok s14
  h15 : updateDisplayDecimals c s14 = .ok s15
  h16 : updateDisplayOffset c s15 = .ok s16
  h17 : updateSignExt env c s16 = .ok s17
  h18 : updateAvailableLengthLimit env c s17 = .ok st

theorem steps_of_ok {env : Env} {c : Ctx} {st0 st : State} (h : parseImpl env c st0 = .ok st) : Nonempty (Steps env c st0 st) := by
  unfold parseImpl at h
  rw [Res.bind_eq_ok] at h
  obtain ⟨s1, h1, h⟩ := h
  split at h
  · simp at h
  · rename_i t ht
    simp only [Res.bind_eq_ok] at h
    obtain ⟨s2, h2, s3, h3, s4, h4, s5, h5, s6, h6, s7, h7, s8, h8, s9, h9, s10, h10, s11, h11, s12, h12, s13, h13, s14, h14,
      s15, h15, s16, h16, s17, h17, h18⟩ := h
    exact ⟨⟨t, s1, s2, s3, s4, s5, s6, s7, s8, s9, s10, s11, s12, s13, s14, s15, s16, s17, h1, ht, h2, h3, h4, h5, h6, h7, h8, h9, h10,
      h11, h12, h13, h14, h15, h16, h17, h18⟩⟩

/-- Closes goals "the update keeps the other members" by unfolding an update function. -/
macro "frame_tac" h:ident : tactic =>
  `(tactic| (repeat' (split at $h:ident)) <;> (first | (simp at $h:ident; done) | (simp only [Res.ok.injEq] at $h:ident; subst $h:ident; simp)))

/-- Core part of the state. -/
structure Core where
  type : Option IntType
  length : Nat
  bitLength : Nat
  serOffset : Int
  typeMin : Int
  typeMax : Int
  min : Int
  max : Int
  nonUnique : Bool

/-- Projection to the core. -/
def State.core (s : State) : Core :=
  ⟨s.type, s.length, s.bitLength, s.serOffset, s.typeMin, s.typeMax, s.min, s.max, s.nonUniqueSpecials⟩

theorem updateBool_frame {env : Env} {c : Ctx} {st st' : State} (h : updateNonUnique env c st = .ok st') :
    ∃ b, st' = { st with nonUniqueSpecials := b } := by
  unfold updateNonUnique at h
  rw [Res.bind_eq_ok] at h
  obtain ⟨b, _, hb⟩ := h
  exact ⟨b, by simpa using hb.symm⟩

theorem updateEndian_frame {env : Env} {c : Ctx} {st st' : State} (h : updateEndian env c st = .ok st') :
    ∃ e, st' = { st with endian := e } := by
  unfold updateEndian at h
  split at h
  · simp at h
  simp only at h
  split at h
  · simp only [Res.ok.injEq] at h; exact ⟨st.endian, by rw [← h]⟩
  split at h
  · simp at h
  · simp only [Res.ok.injEq] at h; exact ⟨_, h.symm⟩

theorem updateScaling_frame {c : Ctx} {st st' : State} (h : updateScaling c st = .ok st') :
    ∃ e, st' = { st with scaling := e } := by
  unfold updateScaling at h
  split at h
  · simp at h
  simp only at h
  split at h
  · simp at h
  · split at h
    · simp at h
    · simp only [Res.ok.injEq] at h; exact ⟨_, h.symm⟩

theorem updateSerOffset_frame {c : Ctx} {st st' : State} (h : updateSerOffset c st = .ok st') :
    ∃ e, st' = { st with serOffset := e } ∧ (e = st.serOffset ∨ ∃ s, strToIntMax s = some e) := by
  unfold updateSerOffset at h
  split at h
  · simp at h
  simp only at h
  split at h
  · simp only [Res.ok.injEq] at h; exact ⟨st.serOffset, by rw [← h], Or.inl rfl⟩
  split at h
  · simp at h
  · rename_i v hv
    simp only [Res.ok.injEq] at h; exact ⟨_, h.symm, Or.inr ⟨_, hv⟩⟩

theorem updateMinMax_frame {t : IntType} {st st' : State} (h : updateMinMax t st = .ok st') :
    ∃ a b, st' = { st with typeMin := minTypeValue t, typeMax := maxTypeValue t, min := a, max := b } := by
  unfold updateMinMax at h
  simp only [Res.bind_eq_ok] at h
  obtain ⟨mn, h1, mx, h2, h⟩ := h
  split at h
  · simp only [Res.pure_eq, Res.ok.injEq] at h; exact ⟨_, _, h.symm⟩
  · rw [Res.bind_eq_ok] at h
    obtain ⟨_, _, h⟩ := h
    split at h
    · simp only [Res.bind_eq_ok] at h
      obtain ⟨a, _, b, _, h⟩ := h
      simp only [Res.pure_eq, Res.ok.injEq] at h; exact ⟨_, _, h.symm⟩
    · simp only [Res.pure_eq, Res.ok.injEq] at h; exact ⟨_, _, h.symm⟩

theorem specialStep_ok {env : Env} {c : Ctx} {t : IntType} {x : Xml} {st st' : State} {rec rec' : List Int}
    (h : specialStep env c t x st rec = .ok (st', rec')) :
    ∃ name info, st' = { st with specials := st.specials ++ [(name, info)] } ∧ findSpecial st.specials name = none ∧
      (inTypeRange t st info.value = true ∧ isValidName name = true) ∧
      (st.nonUniqueSpecials = false → rec.contains info.value = false ∧ rec' = rec ++ [info.value]) := by
  unfold specialStep at h
  simp only [Res.bind_eq_ok] at h
  obtain ⟨props, _, _, _, _, _, _, _, _, _, _, _, _, _, _, hvn, _, hns, val, hval, _, huniq, _, hin, ⟨since, depr⟩, _, h⟩ := h
  simp only [Res.pure_eq, Res.ok.injEq, Prod.mk.injEq] at h
  obtain ⟨rfl, rfl⟩ := h
  rw [Res.check_eq_ok] at hns huniq hin hvn
  refine ⟨_, _, rfl, by simpa using hns, ⟨hin, hvn⟩, ?_⟩
  intro hnu
  rw [hnu] at huniq ⊢
  simp only [Bool.false_or, Bool.not_eq_true'] at huniq
  exact ⟨huniq, rfl⟩

theorem specialsLoop_ok {env : Env} {c : Ctx} {t : IntType} (xs : List Xml) : ∀ {st st' : State} {rec : List Int},
    specialsLoop env c t xs st rec = .ok st' →
    ∃ new : List (Str × SpecialInfo), st' = { st with specials := st.specials ++ new } ∧
      (∀ p ∈ new, inTypeRange t st p.2.value = true ∧ isValidName p.1 = true) ∧
      ((st.specials.map Prod.fst).Nodup → (st'.specials.map Prod.fst).Nodup) ∧
      (st.nonUniqueSpecials = false → rec.Nodup → (rec ++ new.map fun p => p.2.value).Nodup) := by
  induction xs with
  | nil =>
    intro st st' rec h
    simp only [specialsLoop, Res.ok.injEq] at h
    subst h
    exact ⟨[], by simp, by simp, id, by simp⟩
  | cons x xs ih =>
    intro st st' rec h
    unfold specialsLoop at h
    rw [Res.bind_eq_ok] at h
    obtain ⟨⟨s1, rec1⟩, h1, h2⟩ := h
    obtain ⟨name, info, rfl, hf, hin, hu⟩ := specialStep_ok h1
    obtain ⟨new, rfl, a1, a2, a3⟩ := ih h2
    refine ⟨(name, info) :: new, by simp, ?_, ?_, ?_⟩
    · intro p hp
      rcases List.mem_cons.1 hp with rfl | hp
      · exact hin
      · exact a1 p hp
    · intro hnd
      apply a2
      simp only [List.map_append, List.map_cons, List.map_nil]
      rw [List.nodup_append]
      refine ⟨hnd, by simp, ?_⟩
      intro a ha b hb hab
      simp only [List.mem_singleton] at hb
      subst hb; subst hab
      obtain ⟨p, hp, hpe⟩ := List.mem_map.1 ha
      unfold findSpecial at hf
      have : st.specials.find? (fun p => p.1 == a) = none := by simpa using hf
      have := List.find?_eq_none.1 this p hp
      simp [hpe] at this
    · intro hnu hrec
      obtain ⟨hc, hr⟩ := hu hnu
      have := a3 hnu (by
        rw [hr, List.nodup_append]
        refine ⟨hrec, by simp, ?_⟩
        intro a ha b hb hab
        simp only [List.mem_singleton] at hb
        subst hb; subst hab
        simp [List.contains_iff_mem, ha] at hc)
      rw [hr] at this
      simpa using this

theorem updateDefaultInternal_ok {env : Env} {t : IntType} {s : Str} {st st' : State}
    (h : updateDefaultInternal env t s st = .ok st') :
    ∃ v, st' = { st with default := v } ∧ inTypeRange t st v = true ∧ strToValue env t st.specials s = some v := by
  unfold updateDefaultInternal at h
  simp only [Res.bind_eq_ok] at h
  obtain ⟨v, h1, _, h2, h⟩ := h
  rw [Res.check_eq_ok] at h2
  simp only [Res.pure_eq, Res.ok.injEq] at h
  exact ⟨v, h.symm, h2, by simpa using h1⟩

theorem updateDefault_ok {env : Env} {c : Ctx} {t : IntType} {st st' : State} (h : updateDefault env c t st = .ok st') :
    ∃ v, st' = { st with default := v } ∧ (v = st.default ∨ inTypeRange t st v = true) := by
  unfold updateDefault at h
  split at h
  · simp at h
  simp only at h
  split at h
  · simp only [Res.ok.injEq] at h; exact ⟨st.default, by rw [← h], Or.inl rfl⟩
  · obtain ⟨v, h1, h2, _⟩ := updateDefaultInternal_ok h
    exact ⟨v, h1, Or.inr h2⟩

theorem updateDefaultValid_ok {env : Env} {c : Ctx} {t : IntType} {st st' : State} (h : updateDefaultValid env c t st = .ok st') :
    ∃ v r, st' = { st with default := v, validRanges := r } ∧ (v = st.default ∨ inTypeRange t st v = true) := by
  unfold updateDefaultValid at h
  simp only at h
  split at h
  · simp at h
  split at h
  · simp only [Res.ok.injEq] at h; exact ⟨st.default, st.validRanges, by rw [← h], Or.inl rfl⟩
  split at h
  · simp only [Res.ok.injEq] at h; exact ⟨st.default, st.validRanges, by rw [← h], Or.inl rfl⟩
  · rw [Res.bind_eq_ok] at h
    obtain ⟨s, h1, h2⟩ := h
    obtain ⟨v, rfl, h3, _⟩ := updateDefaultInternal_ok h1
    simp only [Res.pure_eq, Res.ok.injEq] at h2
    exact ⟨v, _, h2.symm, Or.inr h3⟩

theorem updateValidCheckVersion_frame {env : Env} {c : Ctx} {st st' : State} (h : updateValidCheckVersion env c st = .ok st') :
    ∃ b, st' = { st with validCheckVersion := b } := by
  unfold updateValidCheckVersion at h
  rw [Res.bind_eq_ok] at h
  obtain ⟨b, _, hb⟩ := h
  exact ⟨b, by simpa using hb.symm⟩

theorem checkRangeAttr_frame {env : Env} {c : Ctx} {t : IntType} {p : RangeProp} {st st' : State}
    (h : checkRangeAttr env c t p st = .ok st') : ∃ new, st' = { st with validRanges := st.validRanges ++ new } := by
  unfold checkRangeAttr at h
  split at h
  · simp only [Res.ok.injEq] at h; exact ⟨[], by rw [← h]; simp⟩
  · simp only [Res.bind_eq_ok] at h
    obtain ⟨⟨a, b⟩, _, h⟩ := h
    simp only [Res.pure_eq, Res.ok.injEq] at h
    exact ⟨_, h.symm⟩

theorem checkRangeChildren_frame {env : Env} {c : Ctx} {t : IntType} {p : RangeProp} (xs : List Xml) : ∀ {st st' : State},
    checkRangeChildren env c t p xs st = .ok st' → ∃ new, st' = { st with validRanges := st.validRanges ++ new } := by
  induction xs with
  | nil => intro st st' h; simp only [checkRangeChildren, Res.ok.injEq] at h; exact ⟨[], by rw [← h]; simp⟩
  | cons x xs ih =>
    intro st st' h
    unfold checkRangeChildren at h
    rw [Res.bind_eq_ok] at h
    obtain ⟨s1, h1, h2⟩ := h
    unfold checkRangeChild at h1
    simp only [Res.bind_eq_ok] at h1
    obtain ⟨_, _, ⟨a, b⟩, _, ⟨d, e⟩, _, h1⟩ := h1
    simp only [Res.pure_eq, Res.ok.injEq] at h1
    subst h1
    obtain ⟨new, rfl⟩ := ih h2
    exact ⟨_, by simp only [List.append_assoc]; rfl⟩

theorem checkRangeProps_frame {env : Env} {c : Ctx} {t : IntType} {p : RangeProp} {st st' : State}
    (h : checkRangeProps env c t p st = .ok st') : ∃ new, st' = { st with validRanges := st.validRanges ++ new } := by
  unfold checkRangeProps at h
  rw [Res.bind_eq_ok] at h
  obtain ⟨s1, h1, h2⟩ := h
  obtain ⟨n1, rfl⟩ := checkRangeAttr_frame h1
  obtain ⟨n2, rfl⟩ := checkRangeChildren_frame _ h2
  exact ⟨_, by simp only [List.append_assoc]; rfl⟩

theorem updateValidRanges_frame {env : Env} {c : Ctx} {t : IntType} {st st' : State} (h : updateValidRanges env c t st = .ok st') :
    ∃ r, st' = { st with validRanges := r } := by
  unfold updateValidRanges at h
  simp only [Res.bind_eq_ok] at h
  obtain ⟨s1, h1, s2, h2, s3, h3, s4, h4, rs, _, h⟩ := h
  obtain ⟨_, rfl⟩ := checkRangeProps_frame h1
  obtain ⟨_, rfl⟩ := checkRangeProps_frame h2
  obtain ⟨_, rfl⟩ := checkRangeProps_frame h3
  obtain ⟨_, rfl⟩ := checkRangeProps_frame h4
  simp only [Res.pure_eq, Res.ok.injEq] at h
  exact ⟨_, h.symm⟩

theorem tail_frame {env : Env} {c : Ctx} {s13 s14 s15 s16 s17 st : State}
    (h14 : updateUnits c s13 = .ok s14) (h15 : updateDisplayDecimals c s14 = .ok s15) (h16 : updateDisplayOffset c s15 = .ok s16)
    (h17 : updateSignExt env c s16 = .ok s17) (h18 : updateAvailableLengthLimit env c s17 = .ok st) :
    ∃ u d o g a, st = { s13 with units := u, displayDecimals := d, displayOffset := o, signExt := g, availableLengthLimit := a } := by
  have e14 : ∃ u, s14 = { s13 with units := u } := by
    unfold updateUnits at h14
    split at h14
    · simp at h14
    split at h14
    · simp only [Res.ok.injEq] at h14; exact ⟨s13.units, by rw [← h14]⟩
    split at h14
    · simp at h14
    · simp only [Res.ok.injEq] at h14; exact ⟨_, h14.symm⟩
  have e15 : ∃ u, s15 = { s14 with displayDecimals := u } := by
    unfold updateDisplayDecimals at h15
    split at h15
    · simp at h15
    split at h15
    · simp only [Res.ok.injEq] at h15; exact ⟨s14.displayDecimals, by rw [← h15]⟩
    split at h15
    · simp at h15
    · simp only [Res.ok.injEq] at h15; exact ⟨_, h15.symm⟩
  have e16 : ∃ u, s16 = { s15 with displayOffset := u } := by
    unfold updateDisplayOffset at h16
    split at h16
    · simp at h16
    split at h16
    · simp only [Res.ok.injEq] at h16; exact ⟨s15.displayOffset, by rw [← h16]⟩
    split at h16
    · simp at h16
    · simp only [Res.ok.injEq] at h16; exact ⟨_, h16.symm⟩
  unfold updateSignExt at h17
  rw [Res.bind_eq_ok] at h17
  obtain ⟨b, _, hb⟩ := h17
  unfold updateAvailableLengthLimit at h18
  rw [Res.bind_eq_ok] at h18
  obtain ⟨b', _, hb'⟩ := h18
  simp only [Res.pure_eq, Res.ok.injEq] at hb hb'
  obtain ⟨u, rfl⟩ := e14
  obtain ⟨d, rfl⟩ := e15
  obtain ⟨o, rfl⟩ := e16
  subst hb; subst hb'
  exact ⟨u, d, o, b, b', rfl⟩

theorem updateType_ok {c : Ctx} {st st' : State} (h : updateType c st = .ok st') :
    ∃ ty, st' = { st with type := ty } ∧ (st.type = none ∨ ty = st.type) := by
  unfold updateType at h
  simp only at h
  split at h
  · simp at h
  split at h
  · simp only [Res.ok.injEq] at h; exact ⟨st.type, by rw [← h], Or.inr rfl⟩
  split at h
  · simp at h
  split at h
  · rename_i hm
    simp only [Res.ok.injEq] at h
    exact ⟨_, h.symm, Or.inl (by simpa using hm)⟩
  split at h
  · simp only [Res.ok.injEq] at h; exact ⟨st.type, by rw [← h], Or.inr rfl⟩
  · simp at h

theorem updateLength_ok {c : Ctx} {t : IntType} {st st' : State} (h : updateLength c t st = .ok st') :
    ∃ n, st' = { st with length := n } ∧ ((st.length = 0 ∧ 0 < n ∧ n ≤ maxTypeLength t) ∨ (st.length ≠ 0 ∧ n = st.length)) := by
  have hm : 0 < maxTypeLength t := by cases t <;> decide
  unfold updateLength at h
  split at h
  · simp at h
  simp only at h
  split at h
  · split at h
    · rename_i h0
      simp only [Res.ok.injEq] at h; exact ⟨_, h.symm, Or.inl ⟨h0, hm, Nat.le_refl _⟩⟩
    · rename_i h0
      simp only [Res.ok.injEq] at h; exact ⟨st.length, by rw [← h], Or.inr ⟨h0, rfl⟩⟩
  split at h
  · simp at h
  rename_i n _
  split at h
  · simp at h
  split at h
  · rename_i hn he
    simp only [Res.ok.injEq] at h; exact ⟨st.length, by rw [← h], Or.inr ⟨by omega, rfl⟩⟩
  split at h
  · simp at h
  split at h
  · simp at h
  · simp only [Res.ok.injEq] at h; exact ⟨n, h.symm, Or.inl ⟨by omega, by omega, by omega⟩⟩

theorem updateBitLength_ok {c : Ctx} {t : IntType} {st st' : State} (h : updateBitLength c t st = .ok st') :
    ∃ n, st' = { st with bitLength := n } ∧
      (n = st.length * 8 ∨ (st.bitLength ≠ 0 ∧ n = st.bitLength) ∨
        (c.bitfieldMember = true ∧ n ≤ st.length * 8 ∧ t ≠ .intvar ∧ t ≠ .uintvar)) := by
  unfold updateBitLength at h
  split at h
  · simp at h
  simp only at h
  split at h
  · split at h
    · simp only [Res.ok.injEq] at h; exact ⟨_, h.symm, Or.inl rfl⟩
    · rename_i h0
      simp only [Res.ok.injEq] at h; exact ⟨st.bitLength, by rw [← h], Or.inr (Or.inl ⟨h0, rfl⟩)⟩
  split at h
  · simp only [Res.ok.injEq] at h; exact ⟨_, h.symm, Or.inl rfl⟩
  rename_i hbf
  split at h
  · simp at h
  split at h
  · rename_i n _ hv
    simp only [Res.ok.injEq] at h
    refine ⟨n, h.symm, Or.inr (Or.inr ⟨by simpa using hbf, ?_⟩)⟩
    unfold validateBitLength at hv
    split at hv
    · simp at hv
    rename_i hn
    split at hv
    · simp at hv
    · refine ⟨by omega, fun e => hn (Or.inl e), fun e => hn (Or.inr e)⟩
  · simp at h

end Commsdsl.IntF
