import Verif.Spec.FloatField
import Verif.Lemmas.FloatField
/-!
# C74, C75: `<float>` fields
-/
namespace Commsdsl.Props
open Commsdsl FloatF Spec Spec.FloatS Text

namespace FloatProofs

theorem largest_eq (d : Bool) : largest d = if d then doubleMax else floatMax := by
  cases d <;> decide +kernel

theorem largest_nonneg (d : Bool) : 0 ≤ largest d := by
  cases d <;> decide +kernel

theorem minOfType_eq (d : Bool) : minOfType d = .fin (-largest d) := by
  rw [largest_eq]; cases d <;> rfl

theorem maxOfType_eq (d : Bool) : maxOfType d = .fin (largest d) := by
  rw [largest_eq]; cases d <;> rfl

theorem le_iff (a b : Dbl) : Le a b ↔ a.rk < 3 ∧ b.rk < 3 ∧ (a.rk < b.rk ∨ (a.rk = b.rk ∧ a.num ≤ b.num)) := by
  constructor
  · intro h
    cases h with
    | negInf h => cases b <;> simp_all [Dbl.rk, Dbl.num]
    | posInf h => cases a <;> simp_all [Dbl.rk, Dbl.num]
    | fin h => simp [Dbl.rk, Dbl.num, h]
  · intro h
    cases a <;> cases b <;> simp [Dbl.rk, Dbl.num] at h
    · exact .negInf (by simp)
    · exact .negInf (by simp)
    · exact .negInf (by simp)
    · exact .fin h
    · exact .posInf (by simp)
    · exact .posInf (by simp)

theorem lt_false (a b : Dbl) (h : a.lt b = false) : Le b a ∨ a = .nan ∨ b = .nan := by
  rw [← Bool.not_eq_true, Dbl.lt_iff] at h
  rw [le_iff]
  rcases Dbl.rk_cases a with h1 | h1 | h1 | h1 <;> rcases Dbl.rk_cases b with h2 | h2 | h2 | h2 <;> first
    | (left; omega)
    | (right; left; cases a <;> simp_all [Dbl.rk]; done)
    | (right; right; cases b <;> simp_all [Dbl.rk]; done)

theorem inTypeRange_spec {st : State} {d : Bool} (h1 : st.typeMin = minOfType d) (h2 : st.typeMax = maxOfType d) (v : Dbl) :
    inTypeRange st v = true ↔ OfType d v := by
  unfold inTypeRange OfType
  rw [h1, h2, minOfType_eq, maxOfType_eq]
  cases v <;> simp [Dbl.special, Dbl.isNan, Dbl.isInf, Dbl.lt]

theorem contains_iff (s : Str) : isFpSpecial s = true ↔ s ∈ ["nan".toList, "inf".toList, "-inf".toList] := by
  unfold isFpSpecial
  rw [List.contains_iff_mem]

theorem reads_iff (fp : Fp) (sp : List (Str × SpecialInfo)) (s : Str) (w : Bool) (v : Dbl) :
    strToValue fp sp s w = some v ↔ Reads fp sp w s v := by
  have n1 : ("inf".toList == "nan".toList) = false := by decide
  have n2 : ("-inf".toList == "nan".toList) = false := by decide
  have n3 : ("-inf".toList == "inf".toList) = false := by decide
  unfold strToValue
  by_cases hw : w = true ∧ toLower s ∈ ["nan".toList, "inf".toList, "-inf".toList]
  · have : (w && isFpSpecial (toLower s)) = true := by rw [Bool.and_eq_true, contains_iff]; exact hw
    rw [if_pos this]
    obtain ⟨rfl, hm⟩ := hw
    have other : ∀ {x : Dbl}, Reads fp sp true s x → (toLower s = "nan".toList ∧ x = .nan) ∨ (toLower s = "inf".toList ∧ x = .posInf) ∨ (toLower s = "-inf".toList ∧ x = .negInf) := by
      intro x hx
      cases hx with
      | nan _ h => exact Or.inl ⟨h, rfl⟩
      | posInf _ h => exact Or.inr (Or.inl ⟨h, rfl⟩)
      | negInf _ h => exact Or.inr (Or.inr ⟨h, rfl⟩)
      | special h => exact absurd hm (h rfl)
      | ref h => exact absurd hm (h rfl)
      | number h => exact absurd hm (h rfl)
    have a1 : "nan".toList ≠ "inf".toList := by decide
    have a2 : "nan".toList ≠ "-inf".toList := by decide
    have a3 : "inf".toList ≠ "-inf".toList := by decide
    have hm' : toLower s = "nan".toList ∨ toLower s = "inf".toList ∨ toLower s = "-inf".toList := by
      simpa only [List.mem_cons, List.not_mem_nil, or_false] using hm
    unfold strToDouble
    rcases hm' with e | e | e
    · rw [e]
      simp only [beq_self_eq_true, Bool.and_self, if_true, Option.some.injEq]
      constructor
      · rintro rfl; exact .nan rfl e
      · intro h
        rcases other h with ⟨_, h⟩ | ⟨h, _⟩ | ⟨h, _⟩
        · exact h.symm
        · exact absurd (e.symm.trans h) a1
        · exact absurd (e.symm.trans h) a2
    · rw [e]
      simp only [n1, beq_self_eq_true, Bool.and_self, Bool.and_false, Bool.false_eq_true, if_false, if_true, Option.some.injEq]
      constructor
      · rintro rfl; exact .posInf rfl e
      · intro h
        rcases other h with ⟨h, _⟩ | ⟨_, h⟩ | ⟨h, _⟩
        · exact absurd (h.symm.trans e) a1
        · exact h.symm
        · exact absurd (e.symm.trans h) a3
    · rw [e]
      simp only [n2, n3, beq_self_eq_true, Bool.and_self, Bool.and_false, Bool.false_eq_true, if_false, if_true, Option.some.injEq]
      constructor
      · rintro rfl; exact .negInf rfl e
      · intro h
        rcases other h with ⟨h, _⟩ | ⟨h, _⟩ | ⟨_, h⟩
        · exact absurd (h.symm.trans e) a2
        · exact absurd (h.symm.trans e) a3
        · exact h.symm
  · have hnot : w = true → toLower s ∉ ["nan".toList, "inf".toList, "-inf".toList] := fun h1 h2 => hw ⟨h1, h2⟩
    have : ¬ (w && isFpSpecial (toLower s)) = true := by rw [Bool.and_eq_true, contains_iff]; exact hw
    rw [if_neg this]
    have hdbl : strToDouble fp (toLower s) w = fp.stod (toLower s) := by
      unfold strToDouble
      have k : ∀ t, t ∈ ["nan".toList, "inf".toList, "-inf".toList] → ¬ ((w && toLower s == t) = true) := by
        intro t ht h
        rw [Bool.and_eq_true, beq_iff_eq] at h
        exact hnot h.1 (h.2 ▸ ht)
      rw [if_neg (k _ (by simp only [List.mem_cons, true_or])), if_neg (k _ (by simp only [List.mem_cons, true_or, or_true])),
        if_neg (k _ (by simp only [List.mem_cons, true_or, or_true]))]
    rw [hdbl]
    by_cases hn : isValidName s = true
    · rw [if_pos hn]
      cases hf : findSpecial sp s with
      | some i =>
        simp only [Option.some.injEq]
        constructor
        · rintro rfl; exact .special hnot hn hf
        · intro h
          cases h with
          | nan h1 h2 => exact absurd (by rw [h2]; simp only [List.mem_cons, true_or]) (hnot h1)
          | posInf h1 h2 => exact absurd (by rw [h2]; simp only [List.mem_cons, true_or, or_true]) (hnot h1)
          | negInf h1 h2 => exact absurd (by rw [h2]; simp only [List.mem_cons, true_or, or_true]) (hnot h1)
          | special _ _ h3 => rw [hf] at h3; rw [Option.some.inj h3]
          | ref _ h3 => rw [hf] at h3; simp at h3; rw [hn] at h3; cases h3
          | number _ h3 => rw [hf] at h3; simp at h3; rw [hn] at h3; cases h3
      | none =>
        simp only
        by_cases hr : isValidRefName s = true
        · rw [if_pos hr]
          constructor
          · exact .ref hnot (fun _ => hf) hr
          · intro h
            cases h with
            | nan h1 h2 => exact absurd (by rw [h2]; simp only [List.mem_cons, true_or]) (hnot h1)
            | posInf h1 h2 => exact absurd (by rw [h2]; simp only [List.mem_cons, true_or, or_true]) (hnot h1)
            | negInf h1 h2 => exact absurd (by rw [h2]; simp only [List.mem_cons, true_or, or_true]) (hnot h1)
            | special _ _ h3 => rw [hf] at h3; cases h3
            | ref _ _ _ h => exact h
            | number _ _ h3 => rw [hr] at h3; cases h3
        · rw [if_neg hr]
          constructor
          · exact .number hnot (fun _ => hf) (by simpa using hr)
          · intro h
            cases h with
            | nan h1 h2 => exact absurd (by rw [h2]; simp only [List.mem_cons, true_or]) (hnot h1)
            | posInf h1 h2 => exact absurd (by rw [h2]; simp only [List.mem_cons, true_or, or_true]) (hnot h1)
            | negInf h1 h2 => exact absurd (by rw [h2]; simp only [List.mem_cons, true_or, or_true]) (hnot h1)
            | special _ _ h3 => rw [hf] at h3; cases h3
            | ref _ _ h3 _ => exact absurd h3 hr
            | number _ _ _ h => exact h
    · rw [if_neg hn]
      simp only
      have hf : isValidName s = true → findSpecial sp s = none := fun h => absurd h hn
      by_cases hr : isValidRefName s = true
      · rw [if_pos hr]
        constructor
        · exact .ref hnot hf hr
        · intro h
          cases h with
          | nan h1 h2 => exact absurd (by rw [h2]; simp only [List.mem_cons, true_or]) (hnot h1)
          | posInf h1 h2 => exact absurd (by rw [h2]; simp only [List.mem_cons, true_or, or_true]) (hnot h1)
          | negInf h1 h2 => exact absurd (by rw [h2]; simp only [List.mem_cons, true_or, or_true]) (hnot h1)
          | special _ h2 => exact absurd h2 hn
          | ref _ _ _ h => exact h
          | number _ _ h3 => rw [hr] at h3; cases h3
      · rw [if_neg hr]
        constructor
        · exact .number hnot hf (by simpa using hr)
        · intro h
          cases h with
          | nan h1 h2 => exact absurd (by rw [h2]; simp only [List.mem_cons, true_or]) (hnot h1)
          | posInf h1 h2 => exact absurd (by rw [h2]; simp only [List.mem_cons, true_or, or_true]) (hnot h1)
          | negInf h1 h2 => exact absurd (by rw [h2]; simp only [List.mem_cons, true_or, or_true]) (hnot h1)
          | special _ h2 => exact absurd h2 hn
          | ref _ _ h3 _ => exact absurd h3 hr
          | number _ _ _ h => exact h

theorem inv {st : State} (h : Accepted st) : ∃ d, st.double = some d ∧ (∀ p ∈ st.specials, isValidName p.1 = true ∧ OfType d p.2.value) ∧
    (st.specials.map Prod.fst).Nodup ∧ OfType d st.default := by
  have step : ∀ {env : IntF.Env} {fp : Fp} {c : IntF.Ctx} {st0 st : State}, parseImpl env fp c st0 = .ok st →
      (∀ d, st0.double = none ∨ st0.double = some d → (∀ p ∈ st0.specials, isValidName p.1 = true ∧ OfType d p.2.value) ∧
        (st0.specials.map Prod.fst).Nodup ∧ OfType d st0.default) →
      ∃ d, st.double = some d ∧ (∀ p ∈ st.specials, isValidName p.1 = true ∧ OfType d p.2.value) ∧
        (st.specials.map Prod.fst).Nodup ∧ OfType d st.default := by
    intro env fp c st0 st h hp
    obtain ⟨d, e, nu, new, dv, cv, rs, u, dd, s5, hd, _, rfl, hl, hdef, _, rfl⟩ := parseImpl_ok h
    obtain ⟨p1, p2, p3⟩ := hp d hd
    obtain ⟨new', e1, a1, a2, _⟩ := specialsLoop_ok _ hl
    have e2 : new' = new := by
      have := congrArg State.specials e1
      simpa using this.symm
    subst e2
    refine ⟨d, rfl, ?_, a2 p2, ?_⟩
    · intro p hp
      rcases List.mem_append.1 hp with hp | hp
      · exact p1 p hp
      · exact ⟨(a1 p hp).1, (inTypeRange_spec rfl rfl _).1 (a1 p hp).2.1⟩
    · obtain ⟨v, e3, hv⟩ := updateDefault_ok hdef
      have e4 : dv = v := congrArg State.default e3
      rw [e4]
      rcases hv with ⟨_, hv⟩ | ⟨_, _, hv⟩
      · rw [hv]; exact p3
      · exact (inTypeRange_spec rfl rfl _).1 hv
  induction h with
  | fresh h =>
    apply step h
    intro d _
    refine ⟨by simp [initState], by simp [initState], Or.inr (Or.inr (Or.inr ⟨0, rfl, ?_⟩))⟩
    have := largest_nonneg d
    omega
  | reuse _ h ih =>
    apply step h
    intro d hd
    obtain ⟨d', e, r⟩ := ih
    have : d = d' := by
      rcases hd with hd | hd <;> rw [e] at hd
      · cases hd
      · exact (Option.some.inj hd).symm
    rw [this]; exact r

end FloatProofs
open FloatProofs

/-! ## C74: default and special values -/

/-- C74: the default value and all special values of an accepted `<float>` field are values its type can hold. -/
theorem C74_of_type (st : State) (h : Accepted st) :
    ∃ double, st.double = some double ∧ OfType double st.default ∧ ∀ p ∈ st.specials, OfType double p.2.value := by
  obtain ⟨d, h1, h2, _, h4⟩ := inv h
  exact ⟨d, h1, h4, fun p hp => (h2 p hp).2⟩

/-- C74: the names of the special values are valid and different. -/
theorem C74_names (st : State) (h : Accepted st) : (st.specials.map Prod.fst).Nodup ∧ ∀ p ∈ st.specials, isValidName p.1 = true := by
  obtain ⟨d, _, h2, h3, _⟩ := inv h
  exact ⟨h3, fun p hp => (h2 p hp).1⟩

/-- C74: a text has at most one meaning. -/
theorem C74_text_unique (fp : Fp) (specials : List (Str × SpecialInfo)) (words : Bool) (s : Str) (v w : Dbl)
    (h1 : Reads fp specials words s v) (h2 : Reads fp specials words s w) : v = w := by
  rw [← reads_iff] at h1 h2
  exact Option.some.inj (h1.symm.trans h2)

/-- C74: the default value is what the text of `defaultValue` means, else that of the reused field, 0 in a new one. -/
theorem C74_default (env : IntF.Env) (fp : Fp) (c : IntF.Ctx) (st0 st : State) (h : parseImpl env fp c st0 = .ok st) :
    if c.props.getStr "defaultValue".toList = [] then st.default = st0.default
    else Reads fp st.specials true (c.props.getStr "defaultValue".toList) st.default := by
  obtain ⟨d, e, nu, new, dv, cv, rs, u, dd, s5, hd, _, rfl, hl, hdef, _, rfl⟩ := parseImpl_ok h
  obtain ⟨v, e3, hv⟩ := updateDefault_ok hdef
  have e4 : dv = v := congrArg State.default e3
  subst e4
  rcases hv with ⟨h1, h2⟩ | ⟨h1, h2, _⟩
  · rw [if_pos h1]; exact h2
  · rw [if_neg h1]; exact (reads_iff _ _ _ _ _).1 h2

/-- C74: a new field starts with the default value 0. -/
theorem C74_default_zero (env : IntF.Env) : (initState env).default = .fin 0 := rfl

/-- One `<special>` element gives the special value of that name. -/
def DeclaresSpecial (env : IntF.Env) (fp : Fp) (c : IntF.Ctx) (before : List (Str × SpecialInfo)) (x : Xml) (p : Str × SpecialInfo) : Prop :=
  ∃ props, childrenAsProps x IntF.specialPropNames (nodeProps x) = some props ∧ p.1 = props.getStr "name".toList ∧
    Reads fp before true (props.getStr "val".toList) p.2.value ∧
    Versions.getAndCheck env.schemaVersion props c.since c.depr = some (p.2.since, p.2.depr)

/-- The elements give, in their order, these special values after the previous ones (which texts may use). -/
inductive DeclaresSpecials (env : IntF.Env) (fp : Fp) (c : IntF.Ctx) : List (Str × SpecialInfo) → List Xml → List (Str × SpecialInfo) → Prop where
  | nil {before : List (Str × SpecialInfo)} : DeclaresSpecials env fp c before [] before
  | cons {before after : List (Str × SpecialInfo)} {x : Xml} {xs : List Xml} {p : Str × SpecialInfo} : DeclaresSpecial env fp c before x p →
      DeclaresSpecials env fp c (before ++ [p]) xs after → DeclaresSpecials env fp c before (x :: xs) after

/-- C74: the special values of a field are those of the reused field and those of its `<special>` elements, with the values their texts mean. -/
theorem C74_specials (env : IntF.Env) (fp : Fp) (c : IntF.Ctx) (st0 st : State) (h : parseImpl env fp c st0 = .ok st) :
    DeclaresSpecials env fp c st0.specials (getChildren c.node ["special".toList]) st.specials := by
  obtain ⟨d, e, nu, new, dv, cv, rs, u, dd, s5, hd, _, rfl, hl, hdef, _, rfl⟩ := parseImpl_ok h
  have main : ∀ (xs : List Xml) (s s' : State) (rec : List Dbl), specialsLoop env fp c xs s rec = .ok s' →
      DeclaresSpecials env fp c s.specials xs s'.specials := by
    intro xs
    induction xs with
    | nil => intro s s' rec h; cases Res.ok.inj h; exact .nil
    | cons x xs ih =>
      intro s s' rec h
      unfold specialsLoop at h
      rw [Res.bind_eq_ok] at h
      obtain ⟨⟨s1, rec1⟩, h1, h2⟩ := h
      obtain ⟨name, info, rfl, _, _, _, ⟨props, k1, k2, k3, k4⟩, _⟩ := specialStep_ok h1
      exact .cons ⟨props, k1, k2, (reads_iff _ _ _ _ _).1 k3, k4⟩ (ih _ _ _ h2)
  have := main _ _ _ _ hl
  exact this

/-- C74: in a new definition that does not allow duplicates no two special values are equal (also not two `nan`). Missing from the full claim:
    the comparison with inherited ones, see `C74_inherited_witness`. -/
theorem C74_values_unique_partial (env : IntF.Env) (fp : Fp) (c : IntF.Ctx) (st : State) (h : parseImpl env fp c (initState env) = .ok st)
    (hn : st.nonUniqueSpecials = false) : (st.specials.map fun p => p.2.value).Nodup := by
  obtain ⟨d, e, nu, new, dv, cv, rs, u, dd, s5, hd, _, rfl, hl, hdef, _, rfl⟩ := parseImpl_ok h
  obtain ⟨new', e1, _, _, a3⟩ := specialsLoop_ok _ hl
  have e2 : new' = new := by
    have := congrArg State.specials e1
    simpa using this.symm
  subst e2
  simpa [initState] using a3 hn (by simp)

namespace FloatProofs

theorem adj_sorted : ∀ (l : List Dbl), (∀ v ∈ l, v ≠ .nan) → l.Pairwise Le → (adjacentEqual l = false ↔ l.Nodup) := by
  intro l
  induction l with
  | nil => simp [adjacentEqual]
  | cons a l ih =>
    intro hn hp
    rw [List.pairwise_cons] at hp
    have ih := ih (fun v hv => hn v (by simp [hv])) hp.2
    cases l with
    | nil => simp [adjacentEqual]
    | cons b r =>
      rw [adjacentEqual, Bool.or_eq_false_iff, ih, List.nodup_cons (a := a)]
      constructor
      · rintro ⟨h1, h2⟩
        refine ⟨fun hm => ?_, h2⟩
        have hab : a ≠ b := by simpa using h1
        rcases List.mem_cons.1 hm with rfl | hm
        · exact hab rfl
        · have k1 := (le_iff _ _).1 (hp.1 b (by simp))
          have k2 := (le_iff _ _).1 ((List.pairwise_cons.1 hp.2).1 a hm)
          apply hab
          rw [Dbl.ext_iff']
          omega
      · rintro ⟨h1, h2⟩
        refine ⟨?_, h2⟩
        have : a ≠ b := fun e => h1 (by simp [e])
        simpa using this

theorem nodup_nan (l : List Dbl) : l.Nodup ↔ (l.filter fun v => !v.isNan).Nodup ∧ l.length ≤ (l.filter fun v => !v.isNan).length + 1 := by
  induction l with
  | nil => simp
  | cons a l ih =>
    rw [List.nodup_cons, ih]
    by_cases ha : a = .nan
    · subst ha
      have e : ((Dbl.nan :: l).filter fun v => !v.isNan) = l.filter fun v => !v.isNan := by simp [Dbl.isNan]
      rw [e]
      have hlen := List.length_filter_le (fun v : Dbl => !v.isNan) l
      constructor
      · rintro ⟨h1, h2, h3⟩
        refine ⟨h2, ?_⟩
        have : (l.filter fun v => !v.isNan) = l := by
          rw [List.filter_eq_self]
          intro v hv
          cases v <;> simp_all [Dbl.isNan]
        rw [this]; simp
      · rintro ⟨h1, h2⟩
        simp only [List.length_cons] at h2
        refine ⟨fun hm => ?_, h1, by omega⟩
        have : (l.filter fun v => !v.isNan).length < l.length := by
          rw [List.length_filter_lt_length_iff_exists]
          exact ⟨.nan, hm, by simp [Dbl.isNan]⟩
        omega
    · have e : ((a :: l).filter fun v => !v.isNan) = a :: l.filter fun v => !v.isNan := by
        cases a <;> simp_all [Dbl.isNan]
      rw [e, List.nodup_cons]
      simp only [List.length_cons]
      have hm : a ∈ (l.filter fun v => !v.isNan) ↔ a ∈ l := by
        rw [List.mem_filter]
        cases a <;> simp_all [Dbl.isNan]
      rw [hm]
      constructor
      · rintro ⟨h1, h2, h3⟩; exact ⟨⟨h1, h2⟩, by omega⟩
      · rintro ⟨⟨h1, h2⟩, h3⟩; exact ⟨h1, h2, by omega⟩

end FloatProofs

/-- C74: `parseHasNonUniqueSpecials` tells exactly whether two special values of a field that allows it are equal. -/
theorem C74_has_non_unique (st : State) :
    hasNonUniqueSpecials st = true ↔ st.nonUniqueSpecials = true ∧ ¬ (st.specials.map fun p => p.2.value).Nodup := by
  unfold hasNonUniqueSpecials
  rw [Bool.and_eq_true]
  have key : (decide (((st.specials.map fun s => s.2.value).filter fun v => !v.isNan).length + 1 < st.specials.length) ||
      adjacentEqual (sortBy Dbl.lt ((st.specials.map fun s => s.2.value).filter fun v => !v.isNan))) = true ↔
      ¬ (st.specials.map fun p => p.2.value).Nodup := by
    have hlen : (st.specials.map fun s => s.2.value).length = st.specials.length := by simp
    rw [nodup_nan, hlen]
    generalize hv : ((st.specials.map fun s => s.2.value).filter fun v => !v.isNan) = vs
    have hnan : ∀ v ∈ vs, v ≠ .nan := by
      intro v hvm e
      subst e
      rw [← hv, List.mem_filter] at hvm
      simp [Dbl.isNan] at hvm
    have hs : (sortBy Dbl.lt vs).Pairwise Le := by
      refine sortBy_pairwise _ (fun v => v ≠ .nan) _ ?_ ?_ ?_ vs hnan
      · intro a b c _ _ _ h1 h2
        rw [le_iff] at *
        omega
      · intro a b _ _ h
        rw [Dbl.lt_iff] at h
        rw [le_iff]; omega
      · intro a b ha hb h
        rcases lt_false a b h with h | h | h
        · exact h
        · exact absurd h ha
        · exact absurd h hb
    have hadj := adj_sorted _ (fun v hv => hnan v ((mem_sortBy _ _ _).1 hv)) hs
    rw [(sortBy_perm Dbl.lt vs).nodup_iff] at hadj
    rw [Bool.or_eq_true, decide_eq_true_eq]
    rw [← Bool.not_eq_false, hadj]
    by_cases hnd : vs.Nodup
    · simp [hnd]
    · simp [hnd]
  rw [key]

/-! ## C75: valid ranges -/

namespace FloatProofs

theorem inRange_iff (lo hi v : Dbl) : InRange lo hi v ↔
    ((lo.rk < 3 ∧ v.rk < 3 ∧ hi.rk < 3 ∧ (lo.rk < v.rk ∨ (lo.rk = v.rk ∧ lo.num ≤ v.num)) ∧ (v.rk < hi.rk ∨ (v.rk = hi.rk ∧ v.num ≤ hi.num))) ∨
     (lo.rk = 3 ∧ hi.rk = 3 ∧ v.rk = 3)) := by
  have hn : ∀ a : Dbl, a = .nan ↔ a.rk = 3 := by intro a; cases a <;> simp [Dbl.rk]
  unfold InRange
  rw [le_iff, le_iff, hn, hn, hn]
  constructor <;> intro h <;> omega

theorem rk_range (a : Dbl) : 0 ≤ a.rk ∧ a.rk ≤ 3 ∧ (a.rk ≠ 1 → a.num = 0) := by
  cases a <;> simp [Dbl.rk, Dbl.num]

theorem max_cases (a b : Dbl) : (a.lt b = true ∧ Dbl.max a b = b) ∨ (a.lt b = false ∧ Dbl.max a b = a) := by
  unfold Dbl.max
  cases h : a.lt b <;> simp

theorem valid_cons (a : RangeInfo) (l : List RangeInfo) (ver : Nat) (v : Dbl) :
    ValidAt (a :: l) ver v ↔ (a.since ≤ ver ∧ ver < a.depr ∧ InRange a.min a.max v) ∨ ValidAt l ver v := by
  simp [ValidAt]

theorem valid_perm {l l' : List RangeInfo} (h : l.Perm l') (ver : Nat) (v : Dbl) : ValidAt l ver v ↔ ValidAt l' ver v := by
  unfold ValidAt
  constructor
  · rintro ⟨r, hr, h1⟩; exact ⟨r, h.mem_iff.1 hr, h1⟩
  · rintro ⟨r, hr, h1⟩; exact ⟨r, h.mem_iff.2 hr, h1⟩

/-- `compareLess` is false the other way round. -/
def Nl (a b : Dbl) : Prop := a.rk < b.rk ∨ (a.rk = b.rk ∧ a.num ≤ b.num)

/-- Order of the first sort. -/
def Lex (a b : RangeInfo) : Prop :=
  a.since < b.since ∨ (a.since = b.since ∧ (a.depr < b.depr ∨ (a.depr = b.depr ∧ (compareLess a.min b.min = true ∨ (a.min = b.min ∧ Nl a.max b.max)))))

def LexLe (a b : RangeInfo) : Prop :=
  a.depr ≠ 0 → b.depr ≠ 0 →
    a.since < b.since ∨ (a.since = b.since ∧ (a.depr < b.depr ∨ (a.depr = b.depr ∧ Nl a.min b.min)))

theorem first_sort (l : List RangeInfo) : (sortBy ltByVersion l).Pairwise Lex := by
  refine sortBy_pairwise _ (fun _ => True) _ ?_ ?_ ?_ l (fun _ _ => trivial)
  · intro a b c _ _ _ h h'
    unfold Lex Nl at *
    simp only [compareLess_iff, Dbl.ext_iff'] at *
    omega
  · intro a b _ _ h
    unfold ltByVersion at h
    unfold Lex Nl
    split at h
    · left; simpa using h
    split at h
    · right; refine ⟨by omega, Or.inl (by simpa using h)⟩
    right
    refine ⟨by omega, Or.inr ⟨by omega, ?_⟩⟩
    split at h
    · rename_i h1; exact Or.inl h1
    · rename_i h1
      split at h
      · cases h
      · rename_i h2
        right
        have h1 : compareLess a.min b.min = false := by simpa using h1
        have h2 : compareLess b.min a.min = false := by simpa using h2
        rw [compareLess_false] at h1 h2
        rw [compareLess_iff] at h
        rw [Dbl.ext_iff']
        omega
  · intro a b _ _ h
    unfold ltByVersion at h
    unfold Lex Nl
    split at h
    · have : ¬ a.since < b.since := by simpa using h
      omega
    split at h
    · have : ¬ a.depr < b.depr := by simpa using h
      omega
    right
    refine ⟨by omega, Or.inr ⟨by omega, ?_⟩⟩
    split at h
    · cases h
    · rename_i h1
      split at h
      · rename_i h2; exact Or.inl h2
      · rename_i h2
        right
        have h1 : compareLess a.min b.min = false := by simpa using h1
        have h2 : compareLess b.min a.min = false := by simpa using h2
        rw [compareLess_false] at h1 h2 h
        rw [Dbl.ext_iff']
        omega

theorem lex_le {a b : RangeInfo} (h : Lex a b) : LexLe a b := by
  intro _ _
  unfold Lex at h
  unfold Nl at *
  rw [compareLess_iff, Dbl.ext_iff'] at h
  omega

theorem inner_length (l : List RangeInfo) : ∀ cur, (mergeInner cur l).2.length = l.length := by
  induction l with
  | nil => intro cur; rfl
  | cons n ns ih =>
    intro cur
    unfold mergeInner
    split
    · simp [ih]
    split
    · rfl
    · simp [ih]

theorem union_range {lo hi lo2 hi2 v : Dbl} (g3 : hi.special = false) (g4 : lo2.special = false) (hmin : Nl lo lo2) (g5 : compareLess hi lo2 = false) :
    InRange lo (Dbl.max hi hi2) v ↔ InRange lo hi v ∨ InRange lo2 hi2 v := by
  rw [compareLess_false] at g5
  rw [inRange_iff, inRange_iff, inRange_iff]
  have g3 : hi.rk = 1 := by cases hi <;> simp_all [Dbl.special, Dbl.isNan, Dbl.isInf, Dbl.rk]
  have g4 : lo2.rk = 1 := by cases lo2 <;> simp_all [Dbl.special, Dbl.isNan, Dbl.isInf, Dbl.rk]
  unfold Nl at hmin
  rw [g3, g4] at g5
  rw [g4] at hmin
  rw [g3, g4]
  have r1 := rk_range lo
  have r4 := rk_range hi2
  have r5 := rk_range v
  rcases max_cases hi hi2 with ⟨q, e⟩ | ⟨q, e⟩
  · rw [e]
    rw [Dbl.lt_iff, g3] at q
    generalize lo.rk = a1 at *
    generalize lo.num = b1 at *
    generalize hi2.rk = a2 at *
    generalize hi2.num = b2 at *
    generalize v.rk = a3 at *
    generalize v.num = b3 at *
    generalize hi.num = b4 at *
    generalize lo2.num = b5 at *
    clear e g3 g4
    rcases hmin with hmin | hmin <;> omega
  · rw [e, g3]
    have q : ¬ (hi.lt hi2 = true) := by simp [q]
    rw [Dbl.lt_iff, g3] at q
    generalize lo.rk = a1 at *
    generalize lo.num = b1 at *
    generalize hi2.rk = a2 at *
    generalize hi2.num = b2 at *
    generalize v.rk = a3 at *
    generalize v.num = b3 at *
    generalize hi.num = b4 at *
    generalize lo2.num = b5 at *
    clear e g3 g4
    rcases hmin with hmin | hmin <;> omega

theorem inner_spec (l : List RangeInfo) : ∀ (cur : RangeInfo), cur.depr ≠ 0 → (∀ n ∈ l, LexLe cur n) → l.Pairwise LexLe →
    (mergeInner cur l).1.min = cur.min ∧ (mergeInner cur l).1.since = cur.since ∧ (mergeInner cur l).1.depr = cur.depr ∧
    (∀ ver v, ValidAt ((mergeInner cur l).1 :: (mergeInner cur l).2) ver v ↔ ValidAt (cur :: l) ver v) ∧
    (∀ n' ∈ (mergeInner cur l).2, ∃ n ∈ l, n' = n ∨ n' = { n with depr := 0 }) ∧
    (mergeInner cur l).2.Pairwise LexLe ∧
    (∃ m ∈ cur :: l, (mergeInner cur l).1.max = m.max) := by
  induction l with
  | nil =>
    intro cur hc _ _
    simp [mergeInner]
  | cons n ns ih =>
    intro cur hc hle hpw
    have hle' : ∀ m ∈ ns, LexLe cur m := fun m hm => hle m (by simp [hm])
    rw [List.pairwise_cons] at hpw
    unfold mergeInner
    split
    · rename_i hn0
      obtain ⟨a1, a2, a3, a5, a6, a7, a9⟩ := ih cur hc hle' hpw.2
      refine ⟨a1, a2, a3, ?_, ?_, ?_, ?_⟩
      · intro ver v
        have := a5 ver v
        rw [valid_cons] at this ⊢
        rw [valid_cons cur, valid_cons n, valid_cons n]
        rw [valid_cons cur] at this
        have hn : ¬ (n.since ≤ ver ∧ ver < n.depr ∧ InRange n.min n.max v) := by omega
        simp only [hn, false_or]
        exact this
      · intro n' hn'
        rcases List.mem_cons.1 hn' with rfl | hn'
        · exact ⟨n', by simp, Or.inl rfl⟩
        · obtain ⟨m, hm, he⟩ := a6 n' hn'; exact ⟨m, by simp [hm], he⟩
      · rw [List.pairwise_cons]
        exact ⟨fun b _ hh => absurd hn0 hh, a7⟩
      · obtain ⟨m, hm, e⟩ := a9
        rcases List.mem_cons.1 hm with rfl | hm
        · exact ⟨m, by simp, e⟩
        · exact ⟨m, by simp [hm], e⟩
    · rename_i hn0
      have hcn := hle n (by simp) hc hn0
      split
      · exact ⟨rfl, rfl, rfl, fun _ _ => Iff.rfl, fun m hm => ⟨m, hm, Or.inl rfl⟩, List.pairwise_cons.2 hpw, ⟨cur, by simp, rfl⟩⟩
      · rename_i hbr
        simp only [not_or, Bool.not_eq_true, Decidable.not_not] at hbr
        obtain ⟨g1, g2, g3, g4, g5⟩ := hbr
        have hle2 : ∀ m ∈ ns, LexLe { cur with max := Dbl.max cur.max n.max } m := fun m hm => hle' m hm
        obtain ⟨a1, a2, a3, a5, a6, a7, a9⟩ := ih { cur with max := Dbl.max cur.max n.max } hc hle2 hpw.2
        simp only at a1 a2 a3
        have hmin : Nl cur.min n.min := by
          unfold Nl at hcn ⊢; omega
        refine ⟨a1, a2, a3, ?_, ?_, ?_, ?_⟩
        · intro ver v
          have := a5 ver v
          rw [valid_cons, valid_cons] at this
          rw [valid_cons, valid_cons, valid_cons, valid_cons]
          simp only at this ⊢
          have hn : ¬ (n.since ≤ ver ∧ ver < 0 ∧ InRange n.min n.max v) := by omega
          simp only [hn, false_or]
          rw [this]
          rw [union_range g3 g4 hmin g5]
          constructor
          · rintro (⟨q1, q2, q3 | q3⟩ | hh)
            · exact Or.inl ⟨q1, q2, q3⟩
            · exact Or.inr (Or.inl ⟨by omega, by omega, q3⟩)
            · exact Or.inr (Or.inr hh)
          · rintro (⟨q1, q2, q3⟩ | ⟨q1, q2, q3⟩ | hh)
            · exact Or.inl ⟨q1, q2, Or.inl q3⟩
            · exact Or.inl ⟨by omega, by omega, Or.inr q3⟩
            · exact Or.inr hh
        · intro n' hn'
          rcases List.mem_cons.1 hn' with rfl | hn'
          · exact ⟨n, by simp, Or.inr rfl⟩
          · obtain ⟨m, hm, he⟩ := a6 n' hn'; exact ⟨m, by simp [hm], he⟩
        · rw [List.pairwise_cons]
          exact ⟨fun b _ hh => absurd rfl hh, a7⟩
        · obtain ⟨m, hm, e⟩ := a9
          rcases List.mem_cons.1 hm with rfl | hm
          · simp only at e
            rcases max_cases cur.max n.max with ⟨_, q⟩ | ⟨_, q⟩
            · exact ⟨n, by simp, by rw [e, q]⟩
            · exact ⟨cur, by simp, by rw [e, q]⟩
          · exact ⟨m, by simp [hm], e⟩

/-- With finite bounds, what stays behind starts behind a gap. -/
theorem inner_gap (l : List RangeInfo) : ∀ (cur : RangeInfo), cur.depr ≠ 0 → cur.max.special = false → (∀ n ∈ l, n.min.special = false ∧ n.max.special = false) →
    (∀ n ∈ l, LexLe cur n) → l.Pairwise LexLe →
    (mergeInner cur l).1.max.special = false ∧
    ∀ n ∈ (mergeInner cur l).2, n.depr ≠ 0 → cur.since = n.since → cur.depr = n.depr → compareLess (mergeInner cur l).1.max n.min = true := by
  induction l with
  | nil => intro cur _ hs _ _ _; simp [mergeInner, hs]
  | cons n ns ih =>
    intro cur hc hs hl hle hpw
    have hl' : ∀ m ∈ ns, m.min.special = false ∧ m.max.special = false := fun m hm => hl m (by simp [hm])
    have hle' : ∀ m ∈ ns, LexLe cur m := fun m hm => hle m (by simp [hm])
    rw [List.pairwise_cons] at hpw
    unfold mergeInner
    split
    · rename_i hn0
      obtain ⟨b1, b2⟩ := ih cur hc hs hl' hle' hpw.2
      refine ⟨b1, ?_⟩
      intro m hm hd
      rcases List.mem_cons.1 hm with rfl | hm
      · exact absurd hn0 hd
      · exact b2 m hm hd
    · rename_i hn0
      have hcn := hle n (by simp) hc hn0
      split
      · rename_i hbr
        refine ⟨hs, ?_⟩
        intro m hm hd e1 e2
        have g3 := (hl n (by simp)).1
        simp only [hs, g3, Bool.false_eq_true, false_or] at hbr
        rw [compareLess_iff] at hbr ⊢
        simp only
        rcases List.mem_cons.1 hm with rfl | hm
        · omega
        · have := hpw.1 m hm hn0 hd
          unfold Nl at this hcn
          omega
      · have hmx : (Dbl.max cur.max n.max).special = false := by
          rcases max_cases cur.max n.max with ⟨_, q⟩ | ⟨_, q⟩ <;> rw [q]
          · exact (hl n (by simp)).2
          · exact hs
        obtain ⟨b1, b2⟩ := ih { cur with max := Dbl.max cur.max n.max } hc hmx hl' (fun m hm => hle' m hm) hpw.2
        refine ⟨b1, ?_⟩
        intro m hm hd
        rcases List.mem_cons.1 hm with rfl | hm
        · exact absurd rfl hd
        · exact b2 m hm hd

theorem outer_spec : ∀ (fuel : Nat) (l : List RangeInfo), l.length ≤ fuel → l.Pairwise LexLe →
    (∀ ver v, ValidAt (mergeOuter fuel l) ver v ↔ ValidAt l ver v) ∧
    (∀ r' ∈ mergeOuter fuel l, ∃ r ∈ l, r'.min = r.min ∧ r'.since = r.since ∧ (r'.depr = r.depr ∨ r'.depr = 0)) ∧
    (∀ r' ∈ mergeOuter fuel l, ∃ r ∈ l, r'.max = r.max) ∧
    ((∀ r ∈ l, r.min.special = false ∧ r.max.special = false) →
      (mergeOuter fuel l).Pairwise fun a b => a.depr ≠ 0 → b.depr ≠ 0 → a.since = b.since → a.depr = b.depr → compareLess a.max b.min = true) := by
  intro fuel
  induction fuel with
  | zero =>
    intro l hlen _
    have : l = [] := by cases l with
      | nil => rfl
      | cons => simp at hlen
    subst this
    simp [mergeOuter]
  | succ fuel ih =>
    intro l hlen hpw
    cases l with
    | nil => simp [mergeOuter]
    | cons r rs =>
      rw [List.pairwise_cons] at hpw
      simp only [List.length_cons] at hlen
      unfold mergeOuter
      split
      · rename_i h0
        obtain ⟨b1, b3, b4, b5⟩ := ih rs (by omega) hpw.2
        refine ⟨?_, ?_, ?_, ?_⟩
        · intro ver v; rw [valid_cons, valid_cons, b1]
        · intro x hx
          rcases List.mem_cons.1 hx with rfl | hx
          · exact ⟨x, by simp, rfl, rfl, Or.inl rfl⟩
          · obtain ⟨y, hy, hh⟩ := b3 x hx; exact ⟨y, by simp [hy], hh⟩
        · intro x hx
          rcases List.mem_cons.1 hx with rfl | hx
          · exact ⟨x, by simp, rfl⟩
          · obtain ⟨y, hy, hh⟩ := b4 x hx; exact ⟨y, by simp [hy], hh⟩
        · intro hs
          rw [List.pairwise_cons]
          exact ⟨fun _ _ hh => absurd h0 hh, b5 fun x hx => hs x (by simp [hx])⟩
      · rename_i h0
        obtain ⟨a1, a2, a3, a5, a6, a7, a9⟩ := inner_spec rs r h0 hpw.1 hpw.2
        obtain ⟨b1, b3, b4, b5⟩ := ih (mergeInner r rs).2 (by rw [inner_length]; omega) a7
        refine ⟨?_, ?_, ?_, ?_⟩
        · intro ver v
          rw [valid_cons, b1, ← valid_cons, a5]
        · intro x hx
          rcases List.mem_cons.1 hx with rfl | hx
          · exact ⟨r, by simp, a1, a2, Or.inl a3⟩
          · obtain ⟨y, hy, e1, e2, e3⟩ := b3 x hx
            obtain ⟨z, hz, hyz⟩ := a6 y hy
            refine ⟨z, by simp [hz], ?_⟩
            rcases hyz with rfl | rfl
            · exact ⟨e1, e2, e3⟩
            · simp only at e1 e2 e3; exact ⟨e1, e2, Or.inr (by omega)⟩
        · intro x hx
          rcases List.mem_cons.1 hx with rfl | hx
          · exact a9
          · obtain ⟨y, hy, e⟩ := b4 x hx
            obtain ⟨z, hz, hyz⟩ := a6 y hy
            refine ⟨z, by simp [hz], ?_⟩
            rcases hyz with rfl | rfl <;> exact e
        · intro hs
          have hrs : ∀ x ∈ rs, x.min.special = false ∧ x.max.special = false := fun x hx => hs x (by simp [hx])
          obtain ⟨c1, c2⟩ := inner_gap rs r h0 (hs r (by simp)).2 hrs hpw.1 hpw.2
          rw [List.pairwise_cons]
          constructor
          · intro x hx _ hxd e1 e2
            obtain ⟨y, hy, f1, f2, f3⟩ := b3 x hx
            rw [f1]
            have f3 : x.depr = y.depr := by rcases f3 with f3 | f3 <;> omega
            exact c2 y hy (by omega) (by omega) (by omega)
          · apply b5
            intro y hy
            obtain ⟨z, hz, hyz⟩ := a6 y hy
            rcases hyz with e | e <;> rw [e] <;> exact hrs z hz

/-- Order of the second sort. -/
def Wle (a b : RangeInfo) : Prop :=
  compareLess a.min b.min = true ∨ (a.min = b.min ∧ (compareLess a.max b.max = true ∨ (a.max = b.max ∧ (a.since < b.since ∨ (a.since = b.since ∧ a.depr ≤ b.depr)))))

theorem second_sort (l : List RangeInfo) : (sortBy ltByValue l).Pairwise Wle := by
  refine sortBy_pairwise _ (fun _ => True) _ ?_ ?_ ?_ l (fun _ _ => trivial)
  · intro a b c _ _ _ h h'
    unfold Wle at *
    simp only [compareLess_iff, Dbl.ext_iff'] at *
    omega
  · intro a b _ _ h
    unfold ltByValue at h
    unfold Wle
    simp only [compareLess_iff, Dbl.ext_iff'] at *
    repeat' split at h
    all_goals simp only [decide_eq_true_eq, Bool.false_eq_true] at h
    all_goals omega
  · intro a b _ _ h
    unfold ltByValue at h
    unfold Wle
    simp only [compareLess_iff, Dbl.ext_iff'] at *
    repeat' split at h
    all_goals simp only [decide_eq_false_iff_not, Bool.true_eq_false] at h
    all_goals omega

end FloatProofs

/-- C75: sorting and merging the valid ranges does not change which values are valid in which protocol version; this holds for all ranges, also
    those with infinite bounds or `nan`. -/
theorem C75_valid_set_kept (l : List RangeInfo) (ver : Nat) (v : Dbl) : ValidAt (normaliseRanges l) ver v ↔ ValidAt l ver v := by
  obtain ⟨b1, _⟩ := outer_spec (sortBy ltByVersion l).length (sortBy ltByVersion l) (Nat.le_refl _) ((first_sort l).imp lex_le)
  unfold normaliseRanges
  rw [valid_perm (sortBy_perm _ _), ← valid_perm (sortBy_perm ltByVersion l), ← b1]
  unfold ValidAt
  constructor
  · rintro ⟨r, hr, hh⟩; exact ⟨r, (List.mem_filter.1 hr).1, hh⟩
  · rintro ⟨r, hr, hh⟩
    refine ⟨r, List.mem_filter.2 ⟨hr, ?_⟩, hh⟩
    simp only [ne_eq, decide_not, Bool.not_eq_eq_eq_not, Bool.not_true, decide_eq_false_iff_not]
    omega

/-- C75: the ranges are sorted by lower bound (`nan` last), then upper bound, then version window. -/
theorem C75_sorted (l : List RangeInfo) : (normaliseRanges l).Pairwise fun a b =>
    (a.min ≠ b.min ∧ (Le a.min b.min ∨ b.min = .nan)) ∨ (a.min = b.min ∧ ((a.max ≠ b.max ∧ (Le a.max b.max ∨ b.max = .nan)) ∨
      (a.max = b.max ∧ (a.since < b.since ∨ (a.since = b.since ∧ a.depr ≤ b.depr))))) := by
  have hc : ∀ a b, compareLess a b = true → a ≠ b ∧ (Le a b ∨ b = .nan) := by
    intro a b h
    rw [compareLess_iff] at h
    have hn : b = .nan ↔ b.rk = 3 := by cases b <;> simp [Dbl.rk]
    have r1 := rk_range a
    have r2 := rk_range b
    rw [ne_eq, Dbl.ext_iff', le_iff, hn]
    omega
  refine (second_sort _).imp ?_
  intro a b h
  rcases h with h | ⟨h1, h | h⟩
  · exact Or.inl (hc _ _ h)
  · exact Or.inr ⟨h1, Or.inl (hc _ _ h)⟩
  · exact Or.inr ⟨h1, Or.inr h⟩

/-- C75: with finite bounds two ranges of the same version window have nothing in common after normalisation. Missing for the full claim:
    ranges with infinite bounds or `nan` are never merged (`C75_infinite_witness`). -/
theorem C75_disjoint_partial (l : List RangeInfo) (hs : ∀ r ∈ l, ∃ x y : Int, r.min = .fin x ∧ r.max = .fin y) :
    (normaliseRanges l).Pairwise fun a b => a.since = b.since → a.depr = b.depr → ∀ v, InRange a.min a.max v → ¬ InRange b.min b.max v := by
  have hs' : ∀ r ∈ sortBy ltByVersion l, r.min.special = false ∧ r.max.special = false := by
    intro r hr
    obtain ⟨x, y, e1, e2⟩ := hs r ((mem_sortBy _ _ _).1 hr)
    rw [e1, e2]; simp [Dbl.special, Dbl.isNan, Dbl.isInf]
  obtain ⟨_, _, _, b5⟩ := outer_spec (sortBy ltByVersion l).length (sortBy ltByVersion l) (Nat.le_refl _) ((first_sort l).imp lex_le)
  have b5 := b5 hs'
  have symm : ∀ {a b : RangeInfo}, (compareLess a.max b.min = true ∨ compareLess b.max a.min = true) → ∀ v, InRange a.min a.max v → ¬ InRange b.min b.max v := by
    intro a b h v h1 h2
    rw [inRange_iff] at h1 h2
    rw [compareLess_iff, compareLess_iff] at h
    have r1 := rk_range a.max
    have r2 := rk_range b.max
    have r3 := rk_range a.min
    have r4 := rk_range b.min
    omega
  unfold normaliseRanges
  generalize mergeOuter (sortBy ltByVersion l).length (sortBy ltByVersion l) = m at b5
  have main : (m.filter fun r => r.depr ≠ 0).Pairwise (fun a b => a.since = b.since → a.depr = b.depr →
      (compareLess a.max b.min = true ∨ compareLess b.max a.min = true)) := by
    have h3 := b5.filter (fun r => r.depr ≠ 0)
    refine (List.pairwise_iff_forall_sublist.2 ?_)
    intro a b hsub e1 e2
    have := List.pairwise_iff_forall_sublist.1 h3 hsub
    have hma : a ∈ m.filter fun r => r.depr ≠ 0 := hsub.subset (by simp)
    have hmb : b ∈ m.filter fun r => r.depr ≠ 0 := hsub.subset (by simp)
    left
    exact this (by simpa using (List.mem_filter.1 hma).2) (by simpa using (List.mem_filter.1 hmb).2) e1 e2
  have main2 := (sortBy_perm ltByValue _).symm.pairwise main (by
    intro a b hab e1 e2
    rcases hab e1.symm e2.symm with h | h
    · exact Or.inr h
    · exact Or.inl h)
  refine main2.imp ?_
  intro a b h e1 e2
  exact symm (h e1 e2)

/-- C75: the order of the declarations does not matter. -/
theorem C75_order_irrelevant (l l2 : List RangeInfo) (hp : l.Perm l2) : normaliseRanges l = normaliseRanges l2 := by
  have key : sortBy ltByVersion l = sortBy ltByVersion l2 := by
    refine pairwise_perm_unique Lex ?_ _ _ (((sortBy_perm _ l).trans hp).trans (sortBy_perm _ l2).symm) (first_sort l) (first_sort l2)
    intro a b h h'
    have : a.min = b.min ∧ a.max = b.max ∧ a.since = b.since ∧ a.depr = b.depr := by
      unfold Lex Nl at *
      simp only [compareLess_iff, Dbl.ext_iff'] at *
      omega
    cases a; cases b; simp_all
  unfold normaliseRanges
  rw [key]

namespace FloatProofs

/-- Limits and type agree. -/
def Base (st : State) (d : Bool) : Prop := st.typeMin = minOfType d ∧ st.typeMax = maxOfType d

theorem bounds_ok {fp : Fp} {st : State} {d : Bool} (hb : Base st d) {p : RangeProp} {s : Str} {b : Option (Dbl × Dbl)} (h : p.bounds fp st s = .ok b) :
    ∀ lo hi, b = some (lo, hi) ↔ TextBounds fp st.specials d s lo hi p := by
  obtain ⟨hb1, hb2⟩ := hb
  intro lo hi
  cases p with
  | full =>
    simp only [RangeProp.bounds, Res.bind_eq_ok, Res.ofOption_eq_ok, Res.pure_eq, Res.ok.injEq] at h
    obtain ⟨x, h1, h2⟩ := h
    rw [← h2, hb1, hb2, minOfType_eq, maxOfType_eq]
    unfold TextBounds
    rw [h1]
    cases x
    · simp
    · simp only [if_true, Option.some.injEq, Prod.mk.injEq]
      constructor
      · rintro ⟨rfl, rfl⟩; exact ⟨trivial, rfl, rfl⟩
      · rintro ⟨_, rfl, rfl⟩; exact ⟨rfl, rfl⟩
  | range =>
    simp only [RangeProp.bounds, validRangeStr, Res.bind_eq_ok, Res.ofOption_eq_ok, Res.pure_eq, Res.ok.injEq] at h
    obtain ⟨r, ⟨⟨a, c⟩, h1, v1, h2, v2, h3, u, h4, h5⟩, h6⟩ := h
    have h4 := Res.check_eq_ok.1 h4
    rw [reads_iff] at h2 h3
    subst h5
    subst h6
    unfold TextBounds
    simp only [Option.some.injEq, Prod.mk.injEq]
    constructor
    · rintro ⟨rfl, rfl⟩
      refine ⟨a, c, h1, h2, h3, ?_⟩
      rcases lt_false _ _ (by simpa using h4) with k | k | k
      · exact Or.inl k
      · exact Or.inr (Or.inr k)
      · exact Or.inr (Or.inl k)
    · rintro ⟨a', c', k1, k2, k3, _⟩
      rw [h1] at k1
      have : a = a' ∧ c = c' := by simpa using k1
      rw [← this.1] at k2
      rw [← this.2] at k3
      exact ⟨C74_text_unique _ _ _ _ _ _ h2 k2, C74_text_unique _ _ _ _ _ _ h3 k3⟩
  | value =>
    simp only [RangeProp.bounds, validValueStr, Res.bind_eq_ok, Res.ofOption_eq_ok, Res.pure_eq, Res.ok.injEq] at h
    obtain ⟨v, ⟨v1, h1, _, h2, rfl⟩, h3⟩ := h
    have h2 := Res.check_eq_ok.1 h2
    rw [inTypeRange_spec hb1 hb2] at h2
    rw [reads_iff] at h1
    subst h3
    unfold TextBounds
    simp only [Option.some.injEq, Prod.mk.injEq]
    constructor
    · rintro ⟨rfl, rfl⟩; exact ⟨h1, rfl, h2⟩
    · rintro ⟨k1, rfl, _⟩
      have := C74_text_unique _ _ _ _ _ _ h1 k1
      exact ⟨this, this⟩
  | min =>
    simp only [RangeProp.bounds, validValueStr, Res.bind_eq_ok, Res.ofOption_eq_ok, Res.pure_eq, Res.ok.injEq] at h
    obtain ⟨v, ⟨v1, h1, _, h2, rfl⟩, h3⟩ := h
    have h2 := Res.check_eq_ok.1 h2
    rw [inTypeRange_spec hb1 hb2] at h2
    rw [reads_iff] at h1
    subst h3
    unfold TextBounds
    rw [hb2, maxOfType_eq]
    simp only [Option.some.injEq, Prod.mk.injEq]
    constructor
    · rintro ⟨rfl, rfl⟩; exact ⟨h1, rfl, h2⟩
    · rintro ⟨k1, rfl, _⟩
      exact ⟨C74_text_unique _ _ _ _ _ _ h1 k1, rfl⟩
  | max =>
    simp only [RangeProp.bounds, validValueStr, Res.bind_eq_ok, Res.ofOption_eq_ok, Res.pure_eq, Res.ok.injEq] at h
    obtain ⟨v, ⟨v1, h1, _, h2, rfl⟩, h3⟩ := h
    have h2 := Res.check_eq_ok.1 h2
    rw [inTypeRange_spec hb1 hb2] at h2
    rw [reads_iff] at h1
    subst h3
    unfold TextBounds
    rw [hb1, minOfType_eq]
    simp only [Option.some.injEq, Prod.mk.injEq]
    constructor
    · rintro ⟨rfl, rfl⟩; exact ⟨rfl, h1, h2⟩
    · rintro ⟨rfl, k1, _⟩
      exact ⟨rfl, C74_text_unique _ _ _ _ _ _ h1 k1⟩

/-- The versions of a child that declares something are well formed. -/
theorem children_ok {env : IntF.Env} {fp : Fp} {c : IntF.Ctx} {p : RangeProp} {d : Bool} : ∀ (chs : List Xml) (st st' : State), Base st d →
    checkRangeChildren env fp c p chs st = .ok st' →
    ∃ add, st' = { st with validRanges := st.validRanges ++ add } ∧
      ∀ r, r ∈ add ↔ ∃ ch ∈ chs, ∃ s, nodeValue ch = some s ∧ Versions.getAndCheckNode env.schemaVersion ch c.since c.depr = some (r.since, r.depr) ∧
        TextBounds fp st.specials d s r.min r.max p := by
  intro chs
  induction chs with
  | nil =>
    intro st st' hb h
    cases Res.ok.inj h
    exact ⟨[], by simp, by simp⟩
  | cons ch chs ih =>
    intro st st' hb h
    rw [checkRangeChildren, Res.bind_eq_ok] at h
    obtain ⟨st1, h1, h2⟩ := h
    unfold checkRangeChild at h1
    simp only [Res.bind_eq_ok, Res.ofOption_eq_ok] at h1
    obtain ⟨s, k1, b, k2, k3⟩ := h1
    have hbd := bounds_ok hb k2
    cases b with
    | none =>
      cases Res.ok.inj k3
      obtain ⟨add, e, hm⟩ := ih st st' hb h2
      refine ⟨add, e, ?_⟩
      intro r
      rw [hm]
      constructor
      · rintro ⟨ch', g1, g⟩; exact ⟨ch', by simp [g1], g⟩
      · rintro ⟨ch', g1, s', g2, g3, g4⟩
        rcases List.mem_cons.1 g1 with rfl | g1
        · rw [k1] at g2
          obtain rfl := Option.some.inj g2
          rw [← hbd] at g4
          cases g4
        · exact ⟨ch', g1, s', g2, g3, g4⟩
    | some b =>
      simp only [childRange, Res.bind_eq_ok, Res.ofOption_eq_ok, Res.pure_eq, Res.ok.injEq] at k3
      obtain ⟨v, k3, rfl⟩ := k3
      obtain ⟨add, e, hm⟩ := ih (pushRange st b v) st' hb h2
      refine ⟨⟨b.1, b.2, v.1, v.2⟩ :: add, by rw [e]; simp [pushRange], ?_⟩
      intro r
      rw [List.mem_cons, hm]
      constructor
      · rintro (rfl | ⟨ch', g1, g⟩)
        · exact ⟨ch, by simp, s, k1, k3, (hbd _ _).1 rfl⟩
        · exact ⟨ch', by simp [g1], g⟩
      · rintro ⟨ch', g1, s', g2, g3, g4⟩
        rcases List.mem_cons.1 g1 with rfl | g1
        · left
          rw [k1] at g2
          obtain rfl := Option.some.inj g2
          rw [k3] at g3
          rw [← hbd] at g4
          have q1 := Option.some.inj g3
          have q2 := Option.some.inj g4
          rw [q1, q2]
        · exact Or.inr ⟨ch', g1, s', g2, g3, g4⟩

theorem props_ok {env : IntF.Env} {fp : Fp} {c : IntF.Ctx} {p : RangeProp} {d : Bool} {st st' : State} (hb : Base st d)
    (h : checkRangeProps env fp c p st = .ok st') :
    ∃ add, st' = { st with validRanges := st.validRanges ++ add } ∧
      ∀ r, r ∈ add ↔ ∃ text, DeclaresText env c p text r.since r.depr ∧ TextBounds fp st.specials d text r.min r.max p := by
  unfold checkRangeProps at h
  rw [Res.bind_eq_ok] at h
  obtain ⟨st1, h1, h2⟩ := h
  have attr : ∃ add, st1 = { st with validRanges := st.validRanges ++ add } ∧
      ∀ r, r ∈ add ↔ ∃ s, (nodeProps c.node).find p.name = some s ∧ r.since = c.since ∧ r.depr = c.depr ∧ TextBounds fp st.specials d s r.min r.max p := by
    unfold checkRangeAttr at h1
    cases hf : (nodeProps c.node).find p.name with
    | none =>
      rw [hf] at h1
      cases Res.ok.inj h1
      exact ⟨[], by simp, by simp⟩
    | some s =>
      rw [hf] at h1
      simp only [Res.bind_eq_ok, Res.pure_eq, Res.ok.injEq] at h1
      obtain ⟨b, k1, k2⟩ := h1
      have hbd := bounds_ok hb k1
      cases b with
      | none =>
        simp only at k2
        subst k2
        refine ⟨[], by simp, ?_⟩
        intro r
        simp only [List.not_mem_nil, false_iff]
        rintro ⟨s', g1, _, _, g4⟩
        obtain rfl := Option.some.inj g1
        rw [← hbd] at g4
        cases g4
      | some b =>
        simp only at k2
        subst k2
        refine ⟨[⟨b.1, b.2, c.since, c.depr⟩], rfl, ?_⟩
        intro r
        rw [List.mem_singleton]
        constructor
        · rintro rfl; exact ⟨s, rfl, rfl, rfl, (hbd _ _).1 rfl⟩
        · rintro ⟨s', g1, g2, g3, g4⟩
          obtain rfl := Option.some.inj g1
          rw [← hbd] at g4
          have q := Option.some.inj g4
          rw [q, ← g2, ← g3]
  obtain ⟨add1, rfl, m1⟩ := attr
  obtain ⟨add2, rfl, m2⟩ := children_ok (d := d) _ _ _ (by exact hb) h2
  refine ⟨add1 ++ add2, by simp, ?_⟩
  intro r
  rw [List.mem_append, m1, m2]
  unfold DeclaresText
  constructor
  · rintro (⟨s, g1, g2, g3, g4⟩ | ⟨ch, g1, s, g2, g3, g4⟩)
    · exact ⟨s, Or.inl ⟨g1, g2, g3⟩, g4⟩
    · exact ⟨s, Or.inr ⟨ch, g1, g2, g3⟩, g4⟩
  · rintro ⟨s, ⟨g1, g2, g3⟩ | ⟨ch, g1, g2, g3⟩, g4⟩
    · exact Or.inl ⟨s, g1, g2, g3, g4⟩
    · exact Or.inr ⟨ch, g1, s, g2, g3, g4⟩

end FloatProofs

/-- C75, from the text: the valid ranges of an accepted field are the normal form of a list whose members are exactly the ranges of the reused
    field and those the element declares. -/
theorem C75_declared (env : IntF.Env) (fp : Fp) (c : IntF.Ctx) (st0 st : State) (h : parseImpl env fp c st0 = .ok st) :
    ∃ double add, st.double = some double ∧ st.validRanges = normaliseRanges (st0.validRanges ++ add) ∧
      ∀ r, r ∈ add ↔ DeclaresRange env fp c st.specials double r := by
  obtain ⟨d, e, nu, new, dv, cv, rs, u, dd, s5, hd, _, rfl, _, _, hr, rfl⟩ := parseImpl_ok h
  clear h
  unfold updateValidRanges at hr
  simp only [Res.bind_eq_ok, Res.pure_eq] at hr
  obtain ⟨_, _, t1, g1, t2, g2, t3, g3, t4, g4, t5, g5, g6⟩ := hr
  obtain ⟨a1, rfl, m1⟩ := props_ok (d := d) ⟨rfl, rfl⟩ g1
  obtain ⟨a2, rfl, m2⟩ := props_ok (d := d) ⟨rfl, rfl⟩ g2
  obtain ⟨a3, rfl, m3⟩ := props_ok (d := d) ⟨rfl, rfl⟩ g3
  obtain ⟨a4, rfl, m4⟩ := props_ok (d := d) ⟨rfl, rfl⟩ g4
  obtain ⟨a5, rfl, m5⟩ := props_ok (d := d) ⟨rfl, rfl⟩ g5
  have e := congrArg State.validRanges (Res.ok.inj g6)
  simp only at e m1 m2 m3 m4 m5
  refine ⟨d, a1 ++ (a2 ++ (a3 ++ (a4 ++ a5))), rfl, by simpa only [List.append_assoc] using e.symm, ?_⟩
  intro r
  simp only [List.mem_append, m1, m2, m3, m4, m5]
  unfold DeclaresRange
  constructor
  · rintro (h | h | h | h | h) <;> (obtain ⟨s, k1, k2⟩ := h; exact ⟨_, s, k1, k2⟩)
  · rintro ⟨p, s, k1, k2⟩
    cases p with
    | full => exact Or.inl ⟨s, k1, k2⟩
    | range => exact Or.inr (Or.inl ⟨s, k1, k2⟩)
    | value => exact Or.inr (Or.inr (Or.inl ⟨s, k1, k2⟩))
    | min => exact Or.inr (Or.inr (Or.inr (Or.inl ⟨s, k1, k2⟩)))
    | max => exact Or.inr (Or.inr (Or.inr (Or.inr ⟨s, k1, k2⟩)))

/-- C75, from the text to the valid values: a value is valid in a version if and only if a range says so that the reused field had or that the
    element declares. -/
theorem C75_declared_valid (env : IntF.Env) (fp : Fp) (c : IntF.Ctx) (st0 st : State) (h : parseImpl env fp c st0 = .ok st) (ver : Nat) (v : Dbl) :
    ValidAt st.validRanges ver v ↔ ∃ r double, st.double = some double ∧ (r ∈ st0.validRanges ∨ DeclaresRange env fp c st.specials double r) ∧
      r.since ≤ ver ∧ ver < r.depr ∧ InRange r.min r.max v := by
  obtain ⟨d, add, h1, h2, h3⟩ := C75_declared env fp c st0 st h
  rw [h2, C75_valid_set_kept]
  unfold ValidAt
  constructor
  · rintro ⟨r, hr, k⟩
    rw [List.mem_append, h3] at hr
    exact ⟨r, d, h1, hr, k⟩
  · rintro ⟨r, d', hd, hr, k⟩
    rw [h1] at hd
    obtain rfl := Option.some.inj hd
    refine ⟨r, ?_, k⟩
    rw [List.mem_append, h3]
    exact hr

/-! ## Examples and counterexamples -/

namespace FloatSample

/-- A `std::stod` that knows a few texts: 5.0, -1.5, 1e300, and (as the real one) `5,7` as 5 and `-inf`. -/
def stod (s : Str) : Option Dbl :=
  if s = "5.0".toList ∨ s = "5,7".toList then some (.fin (5 * 2 ^ 1074))
  else if s = "-1.5".toList then some (.fin (-3 * 2 ^ 1073))
  else if s = "1e300".toList then some (.fin (10 ^ 300 * 2 ^ 1074))
  else if s = "-inf".toList then some .negInf
  else none

def fp : Fp := { stod := stod }
def env : IntF.Env := { dsl := 7, schemaVersion := 3, schemaEndian := .little, strToNumeric := fun _ => none }

/-- A `<float>` element. -/
def ctx (attrs : List (Str × Str)) (children : List Xml) : IntF.Ctx :=
  { node := .elem "float".toList attrs children, props := attrs, since := 0, depr := Versions.notYet, bitfieldMember := false }

def spec (name val : String) : Xml := .elem "special".toList [("name".toList, name.toList), ("val".toList, val.toList)] []

def okWith (r : Res State) (p : State → Bool) : Bool := match r with | .ok st => p st | _ => false

theorem okWith_spec {r : Res State} {p : State → Bool} (h : okWith r p = true) : ∃ st, r = .ok st ∧ p st = true := by
  cases r with
  | ok st => exact ⟨st, rfl, h⟩
  | _ => cases h

end FloatSample
open FloatSample

/-- A field with specials, a default value and ranges. -/
example : ∃ st, Accepted st ∧ st.double = some true ∧ st.default = .fin (5 * 2 ^ 1074) ∧ st.specials.map (fun p => (p.1, p.2.value)) =
    [("S1".toList, .nan), ("S2".toList, .fin (5 * 2 ^ 1074))] ∧
    st.validRanges = [⟨.fin (-3 * 2 ^ 1073), .fin (5 * 2 ^ 1074), 0, Versions.notYet⟩, ⟨.nan, .nan, 0, Versions.notYet⟩] := by
  let r := parseImpl env fp (ctx [("type".toList, "double".toList), ("defaultValue".toList, "S2".toList), ("validRange".toList, "[-1.5, S2]".toList), ("validValue".toList, "NaN".toList)]
      [spec "S1" "nan", spec "S2" "5.0"]) (initState env)
  have h : okWith r (fun st => decide (st.double = some true ∧ st.default = .fin (5 * 2 ^ 1074) ∧ st.specials.map (fun p => (p.1, p.2.value)) =
    [("S1".toList, .nan), ("S2".toList, .fin (5 * 2 ^ 1074))] ∧
    st.validRanges = [⟨.fin (-3 * 2 ^ 1073), .fin (5 * 2 ^ 1074), 0, Versions.notYet⟩, ⟨.nan, .nan, 0, Versions.notYet⟩])) = true := by decide +kernel
  obtain ⟨st, h1, h2⟩ := okWith_spec h
  exact ⟨st, .fresh h1, of_decide_eq_true h2⟩

/-- Refutation of "the values are unique unless the field allows duplicates": those of the reused field are not looked at. -/
theorem C74_inherited_witness : ∃ st, Accepted st ∧ st.nonUniqueSpecials = false ∧
    st.specials.map (fun p => (p.1, p.2.value)) = [("A".toList, .nan), ("B".toList, .nan)] := by
  let base := parseImpl env fp (ctx [("type".toList, "float".toList)] [spec "A" "nan"]) (initState env)
  have h : okWith base (fun st => okWith (parseImpl env fp (ctx [] [spec "B" "nan"]) st) (fun st => decide (st.nonUniqueSpecials = false ∧
      st.specials.map (fun p => (p.1, p.2.value)) = [("A".toList, .nan), ("B".toList, .nan)]))) = true := by decide +kernel
  obtain ⟨st, h1, h2⟩ := okWith_spec h
  obtain ⟨st', h3, h4⟩ := okWith_spec h2
  exact ⟨st', .reuse (.fresh h1) h3, of_decide_eq_true h4⟩

/-- Refutation of "a text is a number of the schema": what follows a number is ignored. For every `std::stod` that (as the standard requires)
    reads the longest prefix, so that `5,7` is 5, the default value `5,7` is accepted as 5. -/
theorem C74_trailing_witness (f : Fp) (h5 : f.stod "5,7".toList = some (.fin (5 * 2 ^ 1074))) :
    updateDefault f (ctx [("defaultValue".toList, "5,7".toList)] []) { double := some true, typeMin := minOfType true, typeMax := maxOfType true } =
      .ok { double := some true, typeMin := minOfType true, typeMax := maxOfType true, default := .fin (5 * 2 ^ 1074) } := by
  have hr : strToValue f [] "5,7".toList = some (.fin (5 * 2 ^ 1074)) := by
    rw [reads_iff]
    exact .number (by decide) (by decide) (by decide +kernel) h5
  have hs : ((ctx [("defaultValue".toList, "5,7".toList)] []).props.getStr "defaultValue".toList) = "5,7".toList := by decide
  unfold updateDefault
  rw [if_neg (by decide), hs, if_neg (by decide)]
  dsimp only
  rw [hr]
  dsimp only
  rw [if_pos (by decide +kernel)]

/-- Refutation of "valid ranges lie within the type": the bounds of `validRange` are not compared with the limits of the type. -/
theorem C75_type_limit_witness : ∃ st, Accepted st ∧ st.double = some false ∧ st.validRanges = [⟨.fin (5 * 2 ^ 1074), .fin (10 ^ 300 * 2 ^ 1074), 0, Versions.notYet⟩] ∧
    ¬ OfType false (.fin (10 ^ 300 * 2 ^ 1074)) := by
  have h : okWith (parseImpl env fp (ctx [("type".toList, "float".toList), ("validRange".toList, "[5.0, 1e300]".toList)] []) (initState env))
      (fun st => decide (st.double = some false ∧ st.validRanges = [⟨.fin (5 * 2 ^ 1074), .fin (10 ^ 300 * 2 ^ 1074), 0, Versions.notYet⟩])) = true := by decide +kernel
  obtain ⟨st, h1, h2⟩ := okWith_spec h
  have h2 := of_decide_eq_true h2
  refine ⟨st, .fresh h1, h2.1, h2.2, ?_⟩
  rintro (h | h | h | ⟨x, h, _, h'⟩)
  · cases h
  · cases h
  · cases h
  · have : x = 10 ^ 300 * 2 ^ 1074 := (Dbl.fin.inj h).symm
    subst this
    revert h'
    decide +kernel

/-- Refutation of "disjoint": with infinite bounds (here by the number `-inf`, which `std::stod` reads although the words are not allowed there)
    ranges of the same window stay separate although they overlap. -/
theorem C75_infinite_witness : ∃ st, Accepted st ∧ st.validRanges =
    [⟨.negInf, .fin (-3 * 2 ^ 1073), 0, Versions.notYet⟩, ⟨.negInf, .fin (5 * 2 ^ 1074), 0, Versions.notYet⟩] := by
  have h : okWith (parseImpl env fp (ctx [("type".toList, "double".toList), ("validRange".toList, "[-inf, 5.0]".toList)]
      [.elem "validRange".toList [("value".toList, "[-inf, -1.5]".toList)] []]) (initState env))
      (fun st => decide (st.validRanges = [⟨.negInf, .fin (-3 * 2 ^ 1073), 0, Versions.notYet⟩, ⟨.negInf, .fin (5 * 2 ^ 1074), 0, Versions.notYet⟩])) = true := by decide +kernel
  obtain ⟨st, h1, h2⟩ := okWith_spec h
  exact ⟨st, .fresh h1, of_decide_eq_true h2⟩

/-- Normalisation at work. -/
example : normaliseRanges [⟨.fin 4, .fin 7, 0, 9⟩, ⟨.fin (-3), .fin (-1), 2, 9⟩, ⟨.fin 0, .fin 4, 0, 9⟩, ⟨.nan, .nan, 0, 9⟩, ⟨.fin 9, .posInf, 0, 9⟩] =
    [⟨.fin (-3), .fin (-1), 2, 9⟩, ⟨.fin 0, .fin 7, 0, 9⟩, ⟨.fin 9, .posInf, 0, 9⟩, ⟨.nan, .nan, 0, 9⟩] := by decide +kernel

end Commsdsl.Props
