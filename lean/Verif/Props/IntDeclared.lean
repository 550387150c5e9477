import Verif.Props.IntRanges
import Verif.Lemmas.IntField
/-!
# C11, C12: from the schema text to the valid ranges; the order of declarations
-/
namespace Commsdsl.Props
open Commsdsl IntF Spec Text

/-- What the text of a property of this kind says, for a field with the given specials and limits. -/
def TextBounds (env : Env) (t : IntType) (st : State) (text : Str) (lo hi : Int) : RangeProp → Prop
  | .range => ∃ a b, parseRange text = .ok (a, b) ∧ strToValue env t st.specials a = some lo ∧ strToValue env t st.specials b = some hi ∧
      (if t = .uint64 ∨ t = .uintvar then lo % 2 ^ 64 ≤ hi % 2 ^ 64 else lo ≤ hi)
  | .value => strToValue env t st.specials text = some lo ∧ hi = lo
  | .min => strToValue env t st.specials text = some lo ∧ hi = st.max
  | .max => lo = st.min ∧ strToValue env t st.specials text = some hi

/-- The element declares a text for the property: as attribute, with the versions of the field, or as child with its own versions. -/
def DeclaresText (env : Env) (c : Ctx) (p : RangeProp) (text : Str) (since depr : Nat) : Prop :=
  ((nodeProps c.node).find p.name = some text ∧ since = c.since ∧ depr = c.depr) ∨
  ∃ child ∈ getChildren c.node [p.name], nodeValue child = some text ∧ Versions.getAndCheckNode env.schemaVersion child c.since c.depr = some (since, depr)

/-- The element declares the range. -/
def DeclaresRange (env : Env) (c : Ctx) (t : IntType) (st : State) (r : RangeInfo) : Prop :=
  ∃ p text, DeclaresText env c p text r.since r.depr ∧ TextBounds env t st text r.min r.max p

namespace IntDeclaredProofs

theorem castU64_le (a b : Int) : castU64 a ≤ castU64 b ↔ a % 2 ^ 64 ≤ b % 2 ^ 64 := by
  unfold castU64; omega

theorem big_iff (t : IntType) : isBigUnsigned t = true ↔ t = .uint64 ∨ t = .uintvar := by
  cases t <;> decide

theorem bounds_ok {env : Env} {t : IntType} {st : State} {p : RangeProp} {s : Str} {mn mx : Int} (h : p.bounds env t st s = .ok (mn, mx)) :
    TextBounds env t st s mn mx p := by
  cases p with
  | range =>
    simp only [RangeProp.bounds, validRangeStr, Res.bind_eq_ok, Res.ofOption_eq_ok, Res.pure_eq] at h
    obtain ⟨⟨a, b⟩, h1, v1, h2, v2, h3, u, h4, h5⟩ := h
    have h4 := Res.check_eq_ok.1 h4
    have e : v1 = mn ∧ v2 = mx := by simpa using h5
    obtain ⟨rfl, rfl⟩ := e
    refine ⟨a, b, h1, h2, h3, ?_⟩
    by_cases hb : isBigUnsigned t = true
    · rw [if_pos hb] at h4
      rw [if_pos ((big_iff t).1 hb)]
      exact (castU64_le _ _).1 (by simpa using h4)
    · rw [if_neg hb] at h4
      rw [if_neg (mt (big_iff t).2 hb)]
      simpa using h4
  | value =>
    simp only [RangeProp.bounds, Res.bind_eq_ok, Res.ofOption_eq_ok, Res.pure_eq] at h
    obtain ⟨v, h1, h2⟩ := h
    have e : v = mn ∧ v = mx := by simpa using h2
    exact ⟨by rw [h1, e.1], by omega⟩
  | min =>
    simp only [RangeProp.bounds, Res.bind_eq_ok, Res.ofOption_eq_ok, Res.pure_eq] at h
    obtain ⟨v, h1, h2⟩ := h
    have e : v = mn ∧ st.max = mx := by simpa using h2
    exact ⟨by rw [h1, e.1], by omega⟩
  | max =>
    simp only [RangeProp.bounds, Res.bind_eq_ok, Res.ofOption_eq_ok, Res.pure_eq] at h
    obtain ⟨v, h1, h2⟩ := h
    have e : st.min = mn ∧ v = mx := by simpa using h2
    exact ⟨by omega, by rw [h1, e.2]⟩

theorem textBounds_unique {env : Env} {t : IntType} {st : State} {p : RangeProp} {s : Str} {a b c d : Int}
    (h : TextBounds env t st s a b p) (h' : TextBounds env t st s c d p) : a = c ∧ b = d := by
  cases p with
  | range =>
    obtain ⟨x, y, e1, e2, e3, _⟩ := h
    obtain ⟨x', y', f1, f2, f3, _⟩ := h'
    rw [e1] at f1
    have : x = x' ∧ y = y' := by simpa using f1
    rw [this.1] at e2; rw [this.2] at e3
    exact ⟨Option.some.inj (e2.symm.trans f2), Option.some.inj (e3.symm.trans f3)⟩
  | value =>
    have := Option.some.inj (h.1.symm.trans h'.1)
    exact ⟨this, by rw [h.2, h'.2, this]⟩
  | min =>
    have := Option.some.inj (h.1.symm.trans h'.1)
    exact ⟨this, by rw [h.2, h'.2]⟩
  | max =>
    exact ⟨by rw [h.1, h'.1], Option.some.inj (h.2.symm.trans h'.2)⟩

/-- What the collection of ranges does not touch. -/
def SameBase (st st' : State) : Prop := st' = { st with validRanges := st'.validRanges }

theorem textBounds_base {env : Env} {t : IntType} {st st' : State} (h : SameBase st st') {s : Str} {a b : Int} {p : RangeProp} :
    TextBounds env t st' s a b p ↔ TextBounds env t st s a b p := by
  rw [h]; cases p <;> rfl

theorem attr_ok {env : Env} {c : Ctx} {t : IntType} {p : RangeProp} {st st' : State} (h : checkRangeAttr env c t p st = .ok st') :
    SameBase st st' ∧ ∃ add, st'.validRanges = st.validRanges ++ add ∧
      (∀ r ∈ add, ∃ s, (nodeProps c.node).find p.name = some s ∧ r.since = c.since ∧ r.depr = c.depr ∧ TextBounds env t st s r.min r.max p) ∧
      ∀ s, (nodeProps c.node).find p.name = some s → ∃ r ∈ add, r.since = c.since ∧ r.depr = c.depr ∧ TextBounds env t st s r.min r.max p := by
  unfold checkRangeAttr at h
  cases hf : (nodeProps c.node).find p.name with
  | none =>
    rw [hf] at h
    have : st = st' := by simpa using h
    subst this
    exact ⟨rfl, [], by simp, by simp, by simp⟩
  | some s =>
    rw [hf] at h
    simp only [Res.bind_eq_ok, Res.pure_eq] at h
    obtain ⟨⟨mn, mx⟩, h1, h2⟩ := h
    have e : { st with validRanges := st.validRanges ++ [⟨mn, mx, c.since, c.depr⟩] } = st' := by simpa using h2
    subst e
    have hb := bounds_ok h1
    refine ⟨rfl, [⟨mn, mx, c.since, c.depr⟩], rfl, ?_, ?_⟩
    · intro r hr
      rw [List.mem_singleton] at hr; subst hr
      exact ⟨s, rfl, rfl, rfl, hb⟩
    · intro s' hs'
      obtain rfl := Option.some.inj hs'
      exact ⟨⟨mn, mx, c.since, c.depr⟩, by simp, rfl, rfl, hb⟩

theorem child_ok {env : Env} {c : Ctx} {t : IntType} {p : RangeProp} {ch : Xml} {st st' : State} (h : checkRangeChild env c t p ch st = .ok st') :
    SameBase st st' ∧ ∃ r s, st'.validRanges = st.validRanges ++ [r] ∧ nodeValue ch = some s ∧
      Versions.getAndCheckNode env.schemaVersion ch c.since c.depr = some (r.since, r.depr) ∧ TextBounds env t st s r.min r.max p := by
  unfold checkRangeChild at h
  simp only [Res.bind_eq_ok, Res.ofOption_eq_ok, Res.pure_eq] at h
  obtain ⟨s, h1, ⟨mn, mx⟩, h2, ⟨since, depr⟩, h3, h4⟩ := h
  have e : { st with validRanges := st.validRanges ++ [⟨mn, mx, since, depr⟩] } = st' := by simpa using h4
  subst e
  exact ⟨rfl, ⟨mn, mx, since, depr⟩, s, rfl, h1, h3, bounds_ok h2⟩

theorem children_ok {env : Env} {c : Ctx} {t : IntType} {p : RangeProp} : ∀ (chs : List Xml) (st st' : State),
    checkRangeChildren env c t p chs st = .ok st' →
    SameBase st st' ∧ ∃ add, st'.validRanges = st.validRanges ++ add ∧
      (∀ r ∈ add, ∃ ch ∈ chs, ∃ s, nodeValue ch = some s ∧ Versions.getAndCheckNode env.schemaVersion ch c.since c.depr = some (r.since, r.depr) ∧
        TextBounds env t st s r.min r.max p) ∧
      ∀ ch ∈ chs, ∃ s, nodeValue ch = some s ∧ ∃ r ∈ add, Versions.getAndCheckNode env.schemaVersion ch c.since c.depr = some (r.since, r.depr) ∧
        TextBounds env t st s r.min r.max p := by
  intro chs
  induction chs with
  | nil =>
    intro st st' h
    have : st = st' := by simpa [checkRangeChildren] using h
    subst this
    exact ⟨rfl, [], by simp, by simp, by simp⟩
  | cons ch chs ih =>
    intro st st' h
    rw [checkRangeChildren, Res.bind_eq_ok] at h
    obtain ⟨st1, h1, h2⟩ := h
    obtain ⟨b1, r, s, e1, e2, e3, e4⟩ := child_ok h1
    obtain ⟨b2, add, f1, f2, f3⟩ := ih st1 st' h2
    refine ⟨?_, r :: add, ?_, ?_, ?_⟩
    · unfold SameBase at b1 b2 ⊢; rw [b2, b1]
    · rw [f1, e1, List.append_assoc]; rfl
    · intro q hq
      rcases List.mem_cons.1 hq with rfl | hq
      · exact ⟨ch, by simp, s, e2, e3, e4⟩
      · obtain ⟨ch', hm, s', g1, g2, g3⟩ := f2 q hq
        exact ⟨ch', by simp [hm], s', g1, g2, (textBounds_base b1).1 g3⟩
    · intro ch' hm
      rcases List.mem_cons.1 hm with rfl | hm
      · exact ⟨s, e2, r, by simp, e3, e4⟩
      · obtain ⟨s', g1, q, hq, g2, g3⟩ := f3 ch' hm
        exact ⟨s', g1, q, by simp [hq], g2, (textBounds_base b1).1 g3⟩

theorem props_ok {env : Env} {c : Ctx} {t : IntType} {p : RangeProp} {st st' : State} (h : checkRangeProps env c t p st = .ok st') :
    SameBase st st' ∧ ∃ add, st'.validRanges = st.validRanges ++ add ∧
      ∀ r, r ∈ add ↔ ∃ text, DeclaresText env c p text r.since r.depr ∧ TextBounds env t st text r.min r.max p := by
  unfold checkRangeProps at h
  rw [Res.bind_eq_ok] at h
  obtain ⟨st1, h1, h2⟩ := h
  obtain ⟨b1, add1, e1, e2, e3⟩ := attr_ok h1
  obtain ⟨b2, add2, f1, f2, f3⟩ := children_ok _ _ _ h2
  refine ⟨?_, add1 ++ add2, ?_, ?_⟩
  · unfold SameBase at b1 b2 ⊢; rw [b2, b1]
  · rw [f1, e1, List.append_assoc]
  intro r
  rw [List.mem_append]
  constructor
  · rintro (hr | hr)
    · obtain ⟨s, g1, g2, g3, g4⟩ := e2 r hr
      exact ⟨s, Or.inl ⟨g1, g2, g3⟩, g4⟩
    · obtain ⟨ch, hm, s, g1, g2, g3⟩ := f2 r hr
      exact ⟨s, Or.inr ⟨ch, hm, g1, g2⟩, (textBounds_base b1).1 g3⟩
  · have hext : ∀ q : RangeInfo, q.min = r.min → q.max = r.max → q.since = r.since → q.depr = r.depr → q = r := by
      intro q h1 h2 h3 h4; cases q; cases r; simp_all
    rintro ⟨s, ⟨g1, g2, g3⟩ | ⟨ch, hm, g1, g2⟩, g4⟩
    · left
      obtain ⟨q, hq, k1, k2, k3⟩ := e3 s g1
      obtain ⟨u1, u2⟩ := textBounds_unique k3 g4
      rw [hext q u1 u2 (by rw [k1, g2]) (by rw [k2, g3])] at hq
      exact hq
    · right
      obtain ⟨s', k0, q, hq, k1, k2⟩ := f3 ch hm
      rw [g1] at k0
      obtain rfl := Option.some.inj k0
      obtain ⟨u1, u2⟩ := textBounds_unique ((textBounds_base b1).1 k2) g4
      have u3 := Option.some.inj (k1.symm.trans g2)
      have u4 : q.since = r.since ∧ q.depr = r.depr := by simpa using u3
      rw [hext q u1 u2 u4.1 u4.2] at hq
      exact hq

end IntDeclaredProofs
open IntDeclaredProofs

/-- C11, from the text. When the valid ranges of a field are accepted, the result is the normal form of a list whose members are exactly
    the ranges it had before (reused, or from `defaultValidValue`) and those the element declares; nothing else of the field changes. -/
theorem C11_declared (env : Env) (c : Ctx) (t : IntType) (st st' : State) (h : updateValidRanges env c t st = .ok st') :
    st' = { st with validRanges := st'.validRanges } ∧
    ∃ add, normaliseRanges t (st.validRanges ++ add) = .ok st'.validRanges ∧ ∀ r, r ∈ add ↔ DeclaresRange env c t st r := by
  unfold updateValidRanges at h
  simp only [Res.bind_eq_ok, Res.pure_eq] at h
  obtain ⟨s1, h1, s2, h2, s3, h3, s4, h4, rs, h5, h6⟩ := h
  obtain ⟨b1, a1, e1, m1⟩ := props_ok h1
  obtain ⟨b2, a2, e2, m2⟩ := props_ok h2
  obtain ⟨b3, a3, e3, m3⟩ := props_ok h3
  obtain ⟨b4, a4, e4, m4⟩ := props_ok h4
  have c2 : SameBase st s2 := by unfold SameBase at *; rw [b2, b1]
  have c3 : SameBase st s3 := by unfold SameBase at *; rw [b3, c2]
  have e : { s4 with validRanges := rs } = st' := by simpa using h6
  subst e
  refine ⟨by unfold SameBase at *; simp only []; rw [b4, c3], a1 ++ a2 ++ a3 ++ a4, ?_, ?_⟩
  · rw [e4, e3, e2, e1] at h5
    simpa only [List.append_assoc] using h5
  · intro r
    simp only [List.mem_append]
    rw [m1, m2, m3, m4]
    unfold DeclaresRange
    constructor
    · rintro (((h | h) | h) | h)
      · obtain ⟨s, g1, g2⟩ := h; exact ⟨_, s, g1, g2⟩
      · obtain ⟨s, g1, g2⟩ := h; exact ⟨_, s, g1, (textBounds_base b1).1 g2⟩
      · obtain ⟨s, g1, g2⟩ := h; exact ⟨_, s, g1, (textBounds_base c2).1 g2⟩
      · obtain ⟨s, g1, g2⟩ := h; exact ⟨_, s, g1, (textBounds_base c3).1 g2⟩
    · rintro ⟨p, s, g1, g2⟩
      cases p with
      | range => exact Or.inl (Or.inl (Or.inl ⟨s, g1, g2⟩))
      | value => exact Or.inl (Or.inl (Or.inr ⟨s, g1, (textBounds_base b1).2 g2⟩))
      | min => exact Or.inl (Or.inr ⟨s, g1, (textBounds_base c2).2 g2⟩)
      | max => exact Or.inr ⟨s, g1, (textBounds_base c3).2 g2⟩

/-- C11, from the text to the set of valid values: a value is valid in a version if and only if a range says so that the field had before or
    that the element declares. Missing (as in `C11_valid_set_kept_partial`): 64 bit unsigned fields with bounds of 2^63 and more. -/
theorem C11_declared_valid_partial (env : Env) (c : Ctx) (t : IntType) (st st' : State) (h : updateValidRanges env c t st = .ok st')
    (hok : ∀ r, r ∈ st.validRanges ∨ DeclaresRange env c t st r → RangeOk r ∧ BelowSign t r) (ver : Nat) (v : Int) :
    ValidAt t st'.validRanges ver v ↔
      ∃ r, (r ∈ st.validRanges ∨ DeclaresRange env c t st r) ∧ r.since ≤ ver ∧ ver < r.depr ∧ interp t r.min ≤ v ∧ v ≤ interp t r.max := by
  obtain ⟨_, add, h1, h2⟩ := C11_declared env c t st st' h
  have hm : ∀ r, r ∈ st.validRanges ++ add ↔ (r ∈ st.validRanges ∨ DeclaresRange env c t st r) := by
    intro r; rw [List.mem_append, h2]
  rw [C11_valid_set_kept_partial t _ _ (fun r hr => (hok r ((hm r).1 hr)).1) (fun r hr => (hok r ((hm r).1 hr)).2) h1 ver v]
  unfold ValidAt
  constructor
  · rintro ⟨r, hr, hx⟩; exact ⟨r, (hm r).1 hr, hx⟩
  · rintro ⟨r, hr, hx⟩; exact ⟨r, (hm r).2 hr, hx⟩

namespace IntDeclaredProofs

/-- The key of the first sort. -/
def vle (big : Bool) (a b : RangeInfo) : Prop :=
  a.since < b.since ∨ a.since = b.since ∧ (a.depr < b.depr ∨ a.depr = b.depr ∧
    (if big then castU64 a.min < castU64 b.min ∨ a.min = b.min ∧ castU64 a.max ≤ castU64 b.max
     else a.min < b.min ∨ a.min = b.min ∧ a.max ≤ b.max))

/-- The key of the second sort. -/
def wle (big : Bool) (a b : RangeInfo) : Prop :=
  (if big then castU64 a.min < castU64 b.min else a.min < b.min) ∨ a.min = b.min ∧
    ((if big then castU64 a.max < castU64 b.max else a.max < b.max) ∨ a.max = b.max ∧
      (a.since < b.since ∨ a.since = b.since ∧ a.depr ≤ b.depr))

theorem castU64_inj {a b : Int} (ha : i64Min ≤ a ∧ a ≤ i64Max) (hb : i64Min ≤ b ∧ b ≤ i64Max) (h : castU64 a = castU64 b) : a = b := by
  unfold castU64 i64Min i64Max at *; omega

def InI64 (r : RangeInfo) : Prop := (i64Min ≤ r.min ∧ r.min ≤ i64Max) ∧ (i64Min ≤ r.max ∧ r.max ≤ i64Max)

theorem sorted_v (big : Bool) (l : List RangeInfo) (hl : ∀ r ∈ l, InI64 r) : (sortBy (ltByVersion big) l).Pairwise (vle big) := by
  refine sortBy_pairwise _ InI64 _ ?_ ?_ ?_ l hl
  · intro a b c _ _ _ h h'
    have k1 : a.min = b.min → castU64 a.min = castU64 b.min := fun h => by rw [h]
    have k2 : b.min = c.min → castU64 b.min = castU64 c.min := fun h => by rw [h]
    have k3 : a.max = b.max → castU64 a.max = castU64 b.max := fun h => by rw [h]
    have k4 : b.max = c.max → castU64 b.max = castU64 c.max := fun h => by rw [h]
    unfold vle at *
    cases big <;> simp only [Bool.false_eq_true, if_false, if_true] at * <;> omega
  · intro a b _ _ h
    unfold ltByVersion at h
    unfold vle
    cases big <;> simp only [Bool.false_eq_true, if_false, if_true] at * <;>
      (repeat' split at h) <;> simp only [decide_eq_true_eq] at h <;> omega
  · intro a b ha hb h
    have inj := @castU64_inj a.min b.min ha.1 hb.1
    have k1 : a.min = b.min → castU64 a.min = castU64 b.min := fun h => by rw [h]
    have k2 : a.max = b.max → castU64 a.max = castU64 b.max := fun h => by rw [h]
    unfold ltByVersion at h
    unfold vle
    cases big <;> simp only [Bool.false_eq_true, if_false, if_true] at * <;>
      (repeat' split at h) <;> simp only [decide_eq_false_iff_not] at h <;> omega

theorem vle_anti (big : Bool) {a b : RangeInfo} (ha : InI64 a) (hb : InI64 b) (h : vle big a b) (h' : vle big b a) : a = b := by
  have inj1 := @castU64_inj a.max b.max ha.2 hb.2
  have k1 : a.min = b.min → castU64 a.min = castU64 b.min := fun h => by rw [h]
  have : a.min = b.min ∧ a.max = b.max ∧ a.since = b.since ∧ a.depr = b.depr := by
    unfold vle at *
    cases big <;> simp only [Bool.false_eq_true, if_false, if_true] at * <;> omega
  cases a; cases b; simp_all

theorem sorted_w (big : Bool) (l : List RangeInfo) (hl : ∀ r ∈ l, InI64 r) : (sortBy (ltByValue big) l).Pairwise (wle big) := by
  refine sortBy_pairwise _ InI64 _ ?_ ?_ ?_ l hl
  · intro a b c _ _ _ h h'
    have k1 : a.min = b.min → castU64 a.min = castU64 b.min := fun h => by rw [h]
    have k2 : b.min = c.min → castU64 b.min = castU64 c.min := fun h => by rw [h]
    have k3 : a.max = b.max → castU64 a.max = castU64 b.max := fun h => by rw [h]
    have k4 : b.max = c.max → castU64 b.max = castU64 c.max := fun h => by rw [h]
    unfold wle at *
    cases big <;> simp only [Bool.false_eq_true, if_false, if_true] at * <;> omega
  · intro a b _ _ h
    unfold ltByValue at h
    unfold wle
    cases big <;> simp only [Bool.false_eq_true, if_false, if_true] at * <;>
      (repeat' split at h) <;> simp only [decide_eq_true_eq] at h <;> omega
  · intro a b ha hb h
    have inj := @castU64_inj a.min b.min ha.1 hb.1
    have k1 : a.min = b.min → castU64 a.min = castU64 b.min := fun h => by rw [h]
    have k2 : a.max = b.max → castU64 a.max = castU64 b.max := fun h => by rw [h]
    have inj2 := @castU64_inj a.max b.max ha.2 hb.2
    unfold ltByValue at h
    unfold wle
    cases big <;> simp only [Bool.false_eq_true, if_false, if_true] at * <;>
      (repeat' split at h) <;> simp only [decide_eq_false_iff_not] at h <;> omega

theorem mergeInner_in : ∀ (l : List RangeInfo) (cur cur' : RangeInfo) (l' : List RangeInfo), mergeInner cur l = .ok (cur', l') →
    InI64 cur → (∀ r ∈ l, InI64 r) → InI64 cur' ∧ ∀ r ∈ l', InI64 r := by
  intro l
  induction l with
  | nil =>
    intro cur cur' l' h h1 h2
    have : cur = cur' ∧ [] = l' := by simpa [mergeInner] using h
    obtain ⟨rfl, rfl⟩ := this
    exact ⟨h1, h2⟩
  | cons n ns ih =>
    intro cur cur' l' h h1 h2
    have hn := h2 n (by simp)
    have hns : ∀ r ∈ ns, InI64 r := fun r hr => h2 r (by simp [hr])
    rw [mergeInner] at h
    split at h
    · simp only [Res.bind_eq_ok, Res.pure_eq] at h
      obtain ⟨⟨a, b⟩, g1, g2⟩ := h
      have e : a = cur' ∧ n :: b = l' := by simpa using g2
      obtain ⟨rfl, rfl⟩ := e
      obtain ⟨k1, k2⟩ := ih cur a b g1 h1 hns
      refine ⟨k1, fun r hr => ?_⟩
      rcases List.mem_cons.1 hr with rfl | hr
      · exact hn
      · exact k2 r hr
    · split at h
      · have e : cur = cur' ∧ n :: ns = l' := by simpa using h
        obtain ⟨rfl, rfl⟩ := e
        exact ⟨h1, h2⟩
      · split at h
        · cases h
        · split at h
          · have e : cur = cur' ∧ n :: ns = l' := by simpa using h
            obtain ⟨rfl, rfl⟩ := e
            exact ⟨h1, h2⟩
          · simp only [Res.bind_eq_ok, Res.pure_eq] at h
            obtain ⟨⟨a, b⟩, g1, g2⟩ := h
            have e : a = cur' ∧ { n with depr := 0 } :: b = l' := by simpa using g2
            obtain ⟨rfl, rfl⟩ := e
            obtain ⟨k1, k2⟩ := ih _ a b g1 ⟨h1.1, by
              have := h1.2; have := hn.2
              simp only []; omega⟩ hns
            refine ⟨k1, fun r hr => ?_⟩
            rcases List.mem_cons.1 hr with rfl | hr
            · exact hn
            · exact k2 r hr

theorem mergeOuter_in : ∀ (fuel : Nat) (l l' : List RangeInfo), mergeOuter fuel l = .ok l' → (∀ r ∈ l, InI64 r) → ∀ r ∈ l', InI64 r := by
  intro fuel
  induction fuel with
  | zero =>
    intro l l' h h1
    have : l = l' := by simpa [mergeOuter] using h
    subst this; exact h1
  | succ fuel ih =>
    intro l l' h h1
    cases l with
    | nil =>
      have : [] = l' := by simpa [mergeOuter] using h
      subst this; exact h1
    | cons r rs =>
      have hr := h1 r (by simp)
      have hrs : ∀ q ∈ rs, InI64 q := fun q hq => h1 q (by simp [hq])
      rw [mergeOuter] at h
      split at h
      · simp only [Res.bind_eq_ok, Res.pure_eq] at h
        obtain ⟨b, g1, g2⟩ := h
        have e : r :: b = l' := by simpa using g2
        subst e
        intro q hq
        rcases List.mem_cons.1 hq with rfl | hq
        · exact hr
        · exact ih rs b g1 hrs q hq
      · simp only [Res.bind_eq_ok, Res.pure_eq] at h
        obtain ⟨⟨a, b⟩, g1, d, g2, g3⟩ := h
        have e : a :: d = l' := by simpa using g3
        subst e
        obtain ⟨k1, k2⟩ := mergeInner_in rs r a b g1 hr hrs
        intro q hq
        rcases List.mem_cons.1 hq with rfl | hq
        · exact k1
        · exact ih b d g2 k2 q hq

end IntDeclaredProofs

/-- C12: the order in which valid ranges are declared does not matter. -/
theorem C12_order_irrelevant (t : IntType) (l l2 : List RangeInfo) (hp : l.Perm l2)
    (h : ∀ r ∈ l, (i64Min ≤ r.min ∧ r.min ≤ i64Max) ∧ (i64Min ≤ r.max ∧ r.max ≤ i64Max)) : normaliseRanges t l = normaliseRanges t l2 := by
  have key : sortBy (ltByVersion (isBigUnsigned t)) l = sortBy (ltByVersion (isBigUnsigned t)) l2 := by
    have h2 : ∀ r ∈ l2, InI64 r := fun r hr => h r (hp.mem_iff.2 hr)
    have hq : (sortBy (ltByVersion (isBigUnsigned t)) l).Perm (sortBy (ltByVersion (isBigUnsigned t)) l2) :=
      ((sortBy_perm _ l).trans hp).trans (sortBy_perm _ l2).symm
    refine pairwise_perm_unique (fun a b => (InI64 a ∧ InI64 b) ∧ vle (isBigUnsigned t) a b) (fun a b ha hb => vle_anti _ ha.1.1 ha.1.2 ha.2 hb.2) _ _ hq ?_ ?_
    · exact (sorted_v _ l h).imp_of_mem fun ha hb hv => ⟨⟨h _ ((mem_sortBy _ _ _).1 ha), h _ ((mem_sortBy _ _ _).1 hb)⟩, hv⟩
    · exact (sorted_v _ l2 h2).imp_of_mem fun ha hb hv => ⟨⟨h2 _ ((mem_sortBy _ _ _).1 ha), h2 _ ((mem_sortBy _ _ _).1 hb)⟩, hv⟩
  unfold normaliseRanges
  simp only [key]

/-- C12: the ranges are sorted by lower bound, then upper bound, then version window, for all types and values. -/
theorem C12_sorted_full (t : IntType) (l l' : List RangeInfo) (h : normaliseRanges t l = .ok l')
    (hl : ∀ r ∈ l, (i64Min ≤ r.min ∧ r.min ≤ i64Max) ∧ (i64Min ≤ r.max ∧ r.max ≤ i64Max)) :
    l'.Pairwise fun a b => interp t a.min < interp t b.min ∨ interp t a.min = interp t b.min ∧
      (interp t a.max < interp t b.max ∨ interp t a.max = interp t b.max ∧ (a.since < b.since ∨ a.since = b.since ∧ a.depr ≤ b.depr)) := by
  unfold normaliseRanges at h
  simp only [Res.bind_eq_ok, Res.pure_eq] at h
  obtain ⟨m, h1, h2⟩ := h
  have e : sortBy (ltByValue (isBigUnsigned t)) (m.filter fun r => r.depr ≠ 0) = l' := by simpa using h2
  subst e
  have hm := mergeOuter_in _ _ _ h1 (fun r hr => hl r ((mem_sortBy _ _ _).1 hr))
  refine (sorted_w _ _ (fun r hr => hm r (List.mem_filter.1 hr).1)).imp ?_
  intro a b hw
  unfold wle at hw
  unfold interp
  by_cases hb : isBigUnsigned t = true
  · rw [if_pos ((big_iff t).1 hb), if_pos ((big_iff t).1 hb), if_pos ((big_iff t).1 hb), if_pos ((big_iff t).1 hb)]
    rw [hb] at hw
    simp only [if_true, castU64] at hw
    omega
  · have hn := mt (big_iff t).2 hb
    rw [if_neg hn, if_neg hn, if_neg hn, if_neg hn]
    have hb : isBigUnsigned t = false := by simpa using hb
    rw [hb] at hw
    simp only [Bool.false_eq_true, if_false] at hw
    exact hw

/-- The text of the `defaultValidValue` property, where the DSL version of the schema knows it. -/
def DefaultValidText (env : Env) (c : Ctx) : Option Str :=
  if Dsl.propertySupported env.dsl "defaultValidValue".toList then c.props.find "defaultValidValue".toList else none

namespace IntDeclaredProofs

theorem default_exact {env : Env} {c : Ctx} {t : IntType} {st st' : State} (h : updateDefault env c t st = .ok st') :
    ∃ v, st' = { st with default := v } ∧ (if c.props.getStr "defaultValue".toList = [] then v = st.default
      else strToValue env t st.specials (c.props.getStr "defaultValue".toList) = some v) := by
  unfold updateDefault at h
  split at h
  · simp at h
  simp only at h
  split at h
  · rename_i he
    simp only [Res.ok.injEq] at h
    exact ⟨st.default, by rw [← h], by rw [if_pos (by simpa using he)]⟩
  · rename_i he
    obtain ⟨v, h1, h2, h3⟩ := updateDefaultInternal_ok h
    exact ⟨v, h1, by rw [if_neg (by simpa using he)]; exact h3⟩

theorem defaultValid_exact {env : Env} {c : Ctx} {t : IntType} {st st' : State} (h : updateDefaultValid env c t st = .ok st') :
    match DefaultValidText env c with
    | none => st' = st
    | some s => ∃ v, strToValue env t st.specials s = some v ∧
        st' = { st with default := v, validRanges := st.validRanges ++ [⟨v, v, c.since, c.depr⟩] } := by
  unfold updateDefaultValid at h
  unfold DefaultValidText
  simp only at h
  split at h
  · simp at h
  cases hf : c.props.find "defaultValidValue".toList with
  | none =>
    rw [hf] at h
    simp only [Res.ok.injEq] at h
    by_cases hd : Dsl.propertySupported env.dsl "defaultValidValue".toList = true
    · rw [if_pos hd]
      exact h.symm
    · rw [if_neg hd]
      exact h.symm
  | some s =>
    rw [hf] at h
    simp only at h
    by_cases hd : Dsl.propertySupported env.dsl "defaultValidValue".toList = true
    · rw [if_neg (by rw [hd]; decide), Res.bind_eq_ok] at h
      obtain ⟨s1, h1, h2⟩ := h
      obtain ⟨v, rfl, h3, h4⟩ := updateDefaultInternal_ok h1
      simp only [Res.pure_eq, Res.ok.injEq] at h2
      rw [if_pos hd]
      exact ⟨v, h4, h2.symm⟩
    · have hd : Dsl.propertySupported env.dsl "defaultValidValue".toList = false := by simpa using hd
      rw [if_pos (by rw [hd]; decide)] at h
      simp only [Res.ok.injEq] at h
      rw [if_neg (by rw [hd]; decide)]
      exact h.symm

end IntDeclaredProofs

/-- C10, from the text: the default value of an accepted field is the one denoted by `defaultValidValue`, else by `defaultValue`, else the
    one it had before (that of the reused field, or 0). -/
theorem C10_default_exact (env : Env) (c : Ctx) (st0 st : State) (h : parseImpl env c st0 = .ok st) : ∃ t, st.type = some t ∧
    match DefaultValidText env c with
    | some s => strToValue env t st.specials s = some st.default
    | none => if c.props.getStr "defaultValue".toList = [] then st.default = st0.default
        else strToValue env t st.specials (c.props.getStr "defaultValue".toList) = some st.default := by
  obtain ⟨⟨t, s1, s2, s3, s4, s5, s6, s7, s8, s9, s10, s11, s12, s13, s14, s15, s16, s17, h1, ht, h2, h3, h4, h5, h6, h7, h8, h9, h10,
      h11, h12, h13, h14, h15, h16, h17, h18⟩⟩ := steps_of_ok h
  clear h
  obtain ⟨ty, rfl, hty⟩ := updateType_ok h1
  obtain ⟨e, rfl⟩ := updateEndian_frame h2
  obtain ⟨len, rfl, hlen⟩ := updateLength_ok h3
  obtain ⟨bits, rfl, hbits⟩ := updateBitLength_ok h4
  obtain ⟨sc, rfl⟩ := updateScaling_frame h5
  obtain ⟨so, rfl, _⟩ := updateSerOffset_frame h6
  obtain ⟨mn, mx, rfl⟩ := updateMinMax_frame h7
  obtain ⟨nu, rfl⟩ := updateBool_frame h8
  obtain ⟨new, rfl, _⟩ := specialsLoop_ok _ h9
  obtain ⟨v, rfl, hv⟩ := default_exact h10
  have h11 := defaultValid_exact h11
  obtain ⟨b, rfl⟩ := updateValidCheckVersion_frame h12
  obtain ⟨r, rfl⟩ := updateValidRanges_frame h13
  obtain ⟨u, d, o, g, a, rfl⟩ := tail_frame h14 h15 h16 h17 h18
  clear h1 h2 h3 h4 h5 h6 h7 h8 h9 h10 h12 h13 h14 h15 h16 h17 h18 hty hlen hbits
  dsimp only at ht hv h11 ⊢
  cases hd : DefaultValidText env c with
  | none =>
    rw [hd] at h11
    simp only at h11
    subst h11
    exact ⟨t, ht, hv⟩
  | some s =>
    rw [hd] at h11
    obtain ⟨w, hw, rfl⟩ := h11
    exact ⟨t, ht, hw⟩

/-- C11 for whole fields: the valid ranges of an accepted field are the normal form of those it reuses, the one of `defaultValidValue`, and
    those declared by its element. -/
theorem C11_field (env : Env) (c : Ctx) (st0 st : State) (h : parseImpl env c st0 = .ok st) : ∃ t add, st.type = some t ∧
    normaliseRanges t (st0.validRanges ++ (if (DefaultValidText env c).isSome then [⟨st.default, st.default, c.since, c.depr⟩] else []) ++ add) =
      .ok st.validRanges ∧
    ∀ r, r ∈ add ↔ DeclaresRange env c t st r := by
  obtain ⟨⟨t, s1, s2, s3, s4, s5, s6, s7, s8, s9, s10, s11, s12, s13, s14, s15, s16, s17, h1, ht, h2, h3, h4, h5, h6, h7, h8, h9, h10,
      h11, h12, h13, h14, h15, h16, h17, h18⟩⟩ := steps_of_ok h
  clear h
  obtain ⟨ty, rfl, hty⟩ := updateType_ok h1
  obtain ⟨e, rfl⟩ := updateEndian_frame h2
  obtain ⟨len, rfl, hlen⟩ := updateLength_ok h3
  obtain ⟨bits, rfl, hbits⟩ := updateBitLength_ok h4
  obtain ⟨sc, rfl⟩ := updateScaling_frame h5
  obtain ⟨so, rfl, _⟩ := updateSerOffset_frame h6
  obtain ⟨mn, mx, rfl⟩ := updateMinMax_frame h7
  obtain ⟨nu, rfl⟩ := updateBool_frame h8
  obtain ⟨new, rfl, _⟩ := specialsLoop_ok _ h9
  obtain ⟨v, rfl, hv⟩ := default_exact h10
  have h11 := defaultValid_exact h11
  obtain ⟨b, rfl⟩ := updateValidCheckVersion_frame h12
  obtain ⟨e13, add, k1, k2⟩ := C11_declared _ _ _ _ _ h13
  clear h1 h2 h3 h4 h5 h6 h7 h8 h9 h10 h12 h13 hty hlen hbits hv
  dsimp only at ht h11 e13 k1 k2
  obtain ⟨u, d, o, g, a, rfl⟩ := tail_frame h14 h15 h16 h17 h18
  have hdecl : ∀ (x y : State) (r : RangeInfo), x.specials = y.specials → x.min = y.min → x.max = y.max → (DeclaresRange env c t x r ↔ DeclaresRange env c t y r) := by
    intro x y r q1 q2 q3
    unfold DeclaresRange
    have : ∀ p s, TextBounds env t x s r.min r.max p ↔ TextBounds env t y s r.min r.max p := by
      intro p s
      cases p <;> simp only [TextBounds, q1, q2, q3]
    simp only [this]
  clear h14 h15 h16 h17 h18
  generalize hrs : s13.validRanges = rs at e13 k1
  subst e13
  dsimp only
  cases hd : DefaultValidText env c with
  | none =>
    rw [hd] at h11
    simp only at h11
    subst h11
    refine ⟨t, add, ht, by simpa using k1, fun r => (k2 r).trans (hdecl _ _ r rfl rfl rfl)⟩
  | some s =>
    rw [hd] at h11
    obtain ⟨w, hw, rfl⟩ := h11
    exact ⟨t, add, ht, k1, fun r => (k2 r).trans (hdecl _ _ r rfl rfl rfl)⟩

/-- C11 at work: a range as attribute, a value as child with its own version, a lower bound as child. -/
example :
    let env : Env := { dsl := 7, schemaVersion := 3, schemaEndian := .little, strToNumeric := fun _ => none }
    let node : Xml := .elem "int".toList [("validRange".toList, "[0, 5]".toList)]
      [.elem "validValue".toList [("value".toList, "9".toList), ("sinceVersion".toList, "2".toList)] [],
       .elem "validMin".toList [("value".toList, "200".toList)] []]
    let c : Ctx := { node := node, props := [], since := 0, depr := Versions.notYet, bitfieldMember := false }
    updateValidRanges env c .uint8 { min := 0, max := 255 } =
      .ok { min := 0, max := 255, validRanges := [⟨0, 5, 0, Versions.notYet⟩, ⟨9, 9, 2, Versions.notYet⟩, ⟨200, 255, 0, Versions.notYet⟩] } := by
  decide +kernel

end Commsdsl.Props
