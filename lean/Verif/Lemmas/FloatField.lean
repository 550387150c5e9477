import Verif.Model.FloatField
import Verif.Lemmas.Sort
/-! Decomposition of `parseImpl` of `<float>` fields, frame facts of its steps, the order of `double`. -/
namespace Commsdsl.FloatF
open Commsdsl Text

/-! ## Order -/

/-- Position on the line `-inf`, numbers, `inf`, `nan`. -/
def Dbl.rk : Dbl → Int
  | .negInf => 0
  | .fin _ => 1
  | .posInf => 2
  | .nan => 3

/-- The number, 0 for the others. -/
def Dbl.num : Dbl → Int
  | .fin n => n
  | _ => 0

theorem Dbl.ext_iff' {a b : Dbl} : a = b ↔ a.rk = b.rk ∧ a.num = b.num := by
  cases a <;> cases b <;> simp [Dbl.rk, Dbl.num]

theorem Dbl.rk_cases (a : Dbl) : (a.rk = 0 ∧ a.num = 0) ∨ a.rk = 1 ∨ (a.rk = 2 ∧ a.num = 0) ∨ (a.rk = 3 ∧ a.num = 0) := by
  cases a <;> simp [Dbl.rk, Dbl.num]

theorem Dbl.lt_iff (a b : Dbl) : a.lt b = true ↔ a.rk < 3 ∧ b.rk < 3 ∧ (a.rk < b.rk ∨ (a.rk = b.rk ∧ a.num < b.num)) := by
  cases a <;> cases b <;> simp [Dbl.lt, Dbl.rk, Dbl.num]

theorem compareLess_iff (a b : Dbl) : compareLess a b = true ↔ a.rk < b.rk ∨ (a.rk = b.rk ∧ a.num < b.num) := by
  cases a <;> cases b <;> simp [compareLess, Dbl.isNan, Dbl.isInf, Dbl.lt, Dbl.rk, Dbl.num]

theorem compareLess_false (a b : Dbl) : compareLess a b = false ↔ b.rk < a.rk ∨ (a.rk = b.rk ∧ b.num ≤ a.num) := by
  rw [← Bool.not_eq_true, compareLess_iff]
  omega

theorem Dbl.special_iff (a : Dbl) : a.special = true ↔ a.rk ≠ 1 := by cases a <;> simp [Dbl.special, Dbl.isNan, Dbl.isInf, Dbl.rk]

theorem Dbl.isNan_iff (a : Dbl) : a.isNan = true ↔ a = .nan := by cases a <;> simp [Dbl.isNan]

/-! ## Steps -/

section
variable {env : IntF.Env} {fp : Fp} {c : IntF.Ctx} {st st' : State}

theorem updateType_ok (h : updateType c st = .ok st') : ∃ d, st' = { st with double := some d } ∧ (st.double = none ∨ st.double = some d) ∧
    (∀ s, c.props.find "type".toList = some s → typeOf s = some d) := by
  unfold updateType at h
  split at h
  · cases h
  rename_i hv
  split at h
  · rename_i hf
    cases Res.ok.inj h
    cases hd : st.double with
    | none =>
      exfalso
      apply hv
      rw [hd]
      have : c.props.count "type".toList = 0 := by
        unfold Props.find at hf
        unfold Props.count
        rw [List.countP_eq_zero]
        intro x hx
        have : List.find? (fun e => e.1 == "type".toList) c.props = none := by simpa using hf
        exact List.find?_eq_none.1 this x hx
      unfold Props.validateSingle
      rw [this]
      simp
    | some d => exact ⟨d, by rw [← hd], Or.inr rfl, by rw [hf]; intro s hs; cases hs⟩
  · rename_i s hs
    split at h
    · cases h
    · rename_i t ht
      have fin : ∀ s', c.props.find "type".toList = some s' → typeOf s' = some t := by
        intro s' hs'; rw [hs] at hs'; cases hs'; exact ht
      split at h
      · rename_i hn
        cases Res.ok.inj h
        exact ⟨t, rfl, Or.inl (by simpa using hn), fin⟩
      · split at h
        · rename_i hd
          cases Res.ok.inj h
          exact ⟨t, by rw [← hd], Or.inr hd, fin⟩
        · cases h

theorem updateEndian_frame (h : updateEndian env c st = .ok st') : ∃ e, st' = { st with endian := some e } := by
  unfold updateEndian at h
  split at h
  · cases h
  · split at h
    · cases h
    · cases Res.ok.inj h; exact ⟨_, rfl⟩

theorem updateLength_ok (h : updateLength st = .ok st') : ∃ d, st.double = some d ∧ st' = { st with length := if d then 8 else 4 } := by
  unfold updateLength at h
  split at h
  · cases h
  · rename_i d hd; cases Res.ok.inj h; exact ⟨d, hd, rfl⟩

theorem updateMinMax_eq {d : Bool} (h : st.double = some d) : updateMinMax st = { st with typeMin := minOfType d, typeMax := maxOfType d } := by
  unfold updateMinMax
  rw [h]
  cases d <;> rfl

theorem updateNonUnique_frame (h : updateNonUnique env c st = .ok st') : ∃ b, st' = { st with nonUniqueSpecials := b } := by
  unfold updateNonUnique at h
  rw [Res.bind_eq_ok] at h
  obtain ⟨b, _, hb⟩ := h
  exact ⟨b, by simpa using hb.symm⟩

theorem specialStep_ok {x : Xml} {rec rec' : List Dbl} (h : specialStep env fp c x st rec = .ok (st', rec')) :
    ∃ name info, st' = { st with specials := st.specials ++ [(name, info)] } ∧ findSpecial st.specials name = none ∧
      isValidName name = true ∧ inTypeRange st info.value = true ∧
      (∃ props, childrenAsProps x IntF.specialPropNames (nodeProps x) = some props ∧ name = props.getStr "name".toList ∧
        strToValue fp st.specials (props.getStr "val".toList) = some info.value ∧
        Versions.getAndCheck env.schemaVersion props c.since c.depr = some (info.since, info.depr)) ∧
      (st.nonUniqueSpecials = false → rec.contains info.value = false ∧ rec' = rec ++ [info.value]) := by
  unfold specialStep at h
  simp only [Res.bind_eq_ok] at h
  obtain ⟨props, hp, _, _, _, _, _, _, _, _, _, _, _, _, _, hvn, _, hns, val, hval, _, huniq, _, hin, ⟨since, depr⟩, hver, h⟩ := h
  simp only [Res.pure_eq, Res.ok.injEq, Prod.mk.injEq] at h
  obtain ⟨rfl, rfl⟩ := h
  rw [Res.check_eq_ok] at hns huniq hin hvn
  rw [Res.ofOption_eq_ok] at hval hver hp
  refine ⟨_, _, rfl, by simpa using hns, hvn, hin, ⟨props, hp, rfl, hval, hver⟩, ?_⟩
  intro hnu
  rw [hnu] at huniq ⊢
  simp only [Bool.false_or, Bool.not_eq_true'] at huniq
  exact ⟨huniq, rfl⟩

theorem specialsLoop_ok (xs : List Xml) : ∀ {st st' : State} {rec : List Dbl},
    specialsLoop env fp c xs st rec = .ok st' →
    ∃ new : List (Str × SpecialInfo), st' = { st with specials := st.specials ++ new } ∧
      (∀ p ∈ new, isValidName p.1 = true ∧ inTypeRange st p.2.value = true ∧
        ∃ props, Versions.getAndCheck env.schemaVersion props c.since c.depr = some (p.2.since, p.2.depr)) ∧
      ((st.specials.map Prod.fst).Nodup → (st'.specials.map Prod.fst).Nodup) ∧
      (st.nonUniqueSpecials = false → rec.Nodup → (rec ++ new.map fun p => p.2.value).Nodup) := by
  induction xs with
  | nil =>
    intro st st' rec h
    simp only [specialsLoop, Res.ok.injEq] at h
    subst h
    exact ⟨[], by simp, by simp, id, by simp⟩
  | cons x xs ih =>
    intro st st' rec h
    unfold specialsLoop at h
    rw [Res.bind_eq_ok] at h
    obtain ⟨⟨s1, rec1⟩, h1, h2⟩ := h
    obtain ⟨name, info, rfl, hf, hvn, hin, ⟨props, _, _, _, hver⟩, hu⟩ := specialStep_ok h1
    obtain ⟨new, rfl, a1, a2, a3⟩ := ih h2
    refine ⟨(name, info) :: new, by simp, ?_, ?_, ?_⟩
    · intro p hp
      rcases List.mem_cons.1 hp with rfl | hp
      · exact ⟨hvn, hin, props, hver⟩
      · exact a1 p hp
    · intro hnd
      apply a2
      simp only [List.map_append, List.map_cons, List.map_nil]
      rw [List.nodup_append]
      refine ⟨hnd, by simp, ?_⟩
      intro a ha b hb hab
      simp only [List.mem_singleton] at hb
      subst hb; subst hab
      obtain ⟨p, hp, hpe⟩ := List.mem_map.1 ha
      unfold findSpecial at hf
      have : st.specials.find? (fun p => p.1 == a) = none := by simpa using hf
      have := List.find?_eq_none.1 this p hp
      simp [hpe] at this
    · intro hnu hrec
      obtain ⟨hc, hr⟩ := hu hnu
      have := a3 hnu (by
        rw [hr, List.nodup_append]
        refine ⟨hrec, by simp, ?_⟩
        intro a ha b hb hab
        simp only [List.mem_singleton] at hb
        subst hb; subst hab
        simp [ha] at hc)
      rw [hr] at this
      simpa using this

theorem updateDefault_ok (h : updateDefault fp c st = .ok st') :
    ∃ v, st' = { st with default := v } ∧ ((c.props.getStr "defaultValue".toList = [] ∧ v = st.default) ∨
      (c.props.getStr "defaultValue".toList ≠ [] ∧ strToValue fp st.specials (c.props.getStr "defaultValue".toList) = some v ∧
        inTypeRange st v = true)) := by
  unfold updateDefault at h
  split at h
  · cases h
  · split at h
    · rename_i he
      cases Res.ok.inj h
      exact ⟨st.default, rfl, Or.inl ⟨by simpa using he, rfl⟩⟩
    · rename_i he
      split at h
      · cases h
      · rename_i v hv
        split at h
        · rename_i hin
          cases Res.ok.inj h
          exact ⟨v, rfl, Or.inr ⟨by simpa using he, hv, hin⟩⟩
        · cases h

theorem updateValidCheckVersion_frame (h : updateValidCheckVersion env c st = .ok st') : ∃ b, st' = { st with validCheckVersion := b } := by
  unfold updateValidCheckVersion at h
  rw [Res.bind_eq_ok] at h
  obtain ⟨b, _, hb⟩ := h
  exact ⟨b, by simpa using hb.symm⟩

theorem tail_frame {s1 : State} (h1 : updateUnits c st = .ok s1) (h2 : updateDisplayDecimals c s1 = .ok st') :
    ∃ u d, st' = { st with units := u, displayDecimals := d } := by
  have e1 : ∃ u, s1 = { st with units := u } := by
    unfold updateUnits at h1
    split at h1
    · cases h1
    split at h1
    · cases Res.ok.inj h1; exact ⟨st.units, rfl⟩
    split at h1
    · cases h1
    · cases Res.ok.inj h1; exact ⟨_, rfl⟩
  obtain ⟨u, rfl⟩ := e1
  unfold updateDisplayDecimals at h2
  split at h2
  · cases h2
  split at h2
  · cases Res.ok.inj h2; exact ⟨u, st.displayDecimals, rfl⟩
  split at h2
  · cases h2
  · cases Res.ok.inj h2; exact ⟨_, _, rfl⟩

/-- All steps of a successful `parseImpl`. -/
theorem parseImpl_ok {st0 : State} (h : parseImpl env fp c st0 = .ok st) :
    ∃ d e nu new dv cv rs u dd s5,
      (st0.double = none ∨ st0.double = some d) ∧ (∀ s, c.props.find "type".toList = some s → typeOf s = some d) ∧
      s5 = { st0 with double := some d, endian := some e, length := if d then 8 else 4, typeMin := minOfType d, typeMax := maxOfType d, nonUniqueSpecials := nu } ∧
      specialsLoop env fp c (getChildren c.node ["special".toList]) s5 [] = .ok { s5 with specials := st0.specials ++ new } ∧
      updateDefault fp c { s5 with specials := st0.specials ++ new } = .ok { s5 with specials := st0.specials ++ new, default := dv } ∧
      updateValidRanges env fp c { s5 with specials := st0.specials ++ new, default := dv, validCheckVersion := cv } =
        .ok { s5 with specials := st0.specials ++ new, default := dv, validCheckVersion := cv, validRanges := rs } ∧
      st = { s5 with specials := st0.specials ++ new, default := dv, validCheckVersion := cv, validRanges := rs, units := u, displayDecimals := dd } := by
  unfold parseImpl at h
  simp only [Res.bind_eq_ok] at h
  obtain ⟨s1, h1, s2, h2, s3, h3, s4, h4, s5, h5, s6, h6, s7, h7, s8, h8, s9, h9, h10⟩ := h
  obtain ⟨d, rfl, hd, ht⟩ := updateType_ok h1
  obtain ⟨e, rfl⟩ := updateEndian_frame h2
  obtain ⟨d', hd', rfl⟩ := updateLength_ok h3
  simp only [Option.some.injEq] at hd'
  subst hd'
  rw [updateMinMax_eq rfl] at h4
  obtain ⟨nu, rfl⟩ := updateNonUnique_frame h4
  obtain ⟨new, rfl, _⟩ := specialsLoop_ok _ h5
  obtain ⟨dv, rfl, _⟩ := updateDefault_ok h6
  obtain ⟨cv, rfl⟩ := updateValidCheckVersion_frame h7
  obtain ⟨u, dd, rfl⟩ := tail_frame h9 h10
  have e8 : ∃ rs, s8 = { ({ st0 with double := some d, endian := some e, length := if d then 8 else 4, typeMin := minOfType d, typeMax := maxOfType d, nonUniqueSpecials := nu } : State) with specials := st0.specials ++ new, default := dv, validCheckVersion := cv, validRanges := rs } := by
    have attr : ∀ {p : RangeProp} {a b : State}, checkRangeProps env fp c p a = .ok b → ∃ r, b = { a with validRanges := r } := by
      intro p a b h
      unfold checkRangeProps at h
      rw [Res.bind_eq_ok] at h
      obtain ⟨m, h1, h2⟩ := h
      have e1 : ∃ r, m = { a with validRanges := r } := by
        unfold checkRangeAttr at h1
        split at h1
        · cases Res.ok.inj h1; exact ⟨a.validRanges, rfl⟩
        · rw [Res.bind_eq_ok] at h1
          obtain ⟨b, _, h1⟩ := h1
          cases b <;> (simp only [Res.pure_eq] at h1; cases Res.ok.inj h1)
          · exact ⟨a.validRanges, rfl⟩
          · exact ⟨_, rfl⟩
      obtain ⟨r, rfl⟩ := e1
      have ch : ∀ (l : List Xml) {a b : State}, checkRangeChildren env fp c p l a = .ok b → ∃ r, b = { a with validRanges := r } := by
        intro l
        induction l with
        | nil => intro a b h; cases Res.ok.inj h; exact ⟨a.validRanges, rfl⟩
        | cons x xs ih =>
          intro a b h
          unfold checkRangeChildren at h
          rw [Res.bind_eq_ok] at h
          obtain ⟨m, h1, h2⟩ := h
          unfold checkRangeChild at h1
          simp only [Res.bind_eq_ok] at h1
          obtain ⟨s, _, bb, _, h1⟩ := h1
          obtain ⟨r, rfl⟩ := ih h2
          cases bb with
          | none => cases Res.ok.inj h1; exact ⟨r, rfl⟩
          | some bb =>
            simp only [childRange, Res.bind_eq_ok, Res.pure_eq] at h1
            obtain ⟨v, _, h1⟩ := h1
            cases Res.ok.inj h1
            exact ⟨r, rfl⟩
      obtain ⟨r', rfl⟩ := ch _ h2
      exact ⟨r', rfl⟩
    unfold updateValidRanges at h8
    simp only [Res.bind_eq_ok, Res.pure_eq] at h8
    obtain ⟨_, _, t1, g1, t2, g2, t3, g3, t4, g4, t5, g5, g6⟩ := h8
    obtain ⟨r1, rfl⟩ := attr g1
    obtain ⟨r2, rfl⟩ := attr g2
    obtain ⟨r3, rfl⟩ := attr g3
    obtain ⟨r4, rfl⟩ := attr g4
    obtain ⟨r5, rfl⟩ := attr g5
    cases Res.ok.inj g6
    exact ⟨_, rfl⟩
  obtain ⟨rs, rfl⟩ := e8
  refine ⟨d, e, nu, new, dv, cv, rs, u, dd, _, hd, ht, rfl, ?_, ?_, ?_, rfl⟩
  · exact h5
  · exact h6
  · exact h8

/-- The length of an accepted field. -/
theorem accepted_length (h : Accepted st) : ∃ d, st.double = some d ∧ st.length = if d then 8 else 4 := by
  cases h with
  | fresh h =>
    obtain ⟨d, e, nu, new, dv, cv, rs, u, dd, s5, _, _, rfl, _, _, _, rfl⟩ := parseImpl_ok h
    exact ⟨d, rfl, rfl⟩
  | reuse _ h =>
    obtain ⟨d, e, nu, new, dv, cv, rs, u, dd, s5, _, _, rfl, _, _, _, rfl⟩ := parseImpl_ok h
    exact ⟨d, rfl, rfl⟩

end

end Commsdsl.FloatF
