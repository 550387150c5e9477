import Verif.Lemmas.FloatField
import Verif.Lemmas.FieldObj
import Verif.Props.Length
import Verif.Spec.Ser
import Verif.Lemmas.Sample
/-!
# Lengths of fields: C21, C22, C23
-/
namespace Commsdsl.Props
open Commsdsl Fld Spec Text

namespace LengthProofs

/-- 2^64 -/
local notation "W" => (18446744073709551616 : Nat)

theorem add_eq {a b : Nat} (ha : a < W) (hb : b < W) : Length.add a b = min (a + b) (W - 1) := C20_add_saturates a b ha hb

theorem mul_ok {a f r : Nat} (ha : a < W) (hf : f < W) (h : Length.mul a f = .ok r) : 0 < f ∧ r = min (a * f) (W - 1) := by
  by_cases h0 : f = 0
  · rw [(C21_mul_undefined_iff a f).2 h0] at h; simp at h
  · rw [C20_mul_saturates a f ha hf h0] at h
    exact ⟨by omega, by cases h; rfl⟩

/-- Minimum known and 64 bits wide; maximum 64 bits wide; minimum not above maximum. -/
def Good (f : Field) : Prop :=
  (∃ a, minLength f = .ok a ∧ a < W) ∧ (∀ b, maxLength f = .ok b → b < W) ∧
    ∀ a b, minLength f = .ok a → maxLength f = .ok b → a ≤ b

theorem minSum_ok {ms : List Field} (h : ∀ m ∈ ms, Good m) : ∃ a, minSum ms = .ok a ∧ a < W := by
  induction ms with
  | nil => exact ⟨0, by simp [minSum], by decide⟩
  | cons m ms ih =>
    obtain ⟨a, ha, _⟩ := (h m (by simp)).1
    obtain ⟨b, hb, _⟩ := ih fun m hm => h m (by simp [hm])
    exact ⟨(a + b) % W, by simp [minSum, ha, hb], by omega⟩

theorem maxSum_bound {ms : List Field} (h : ∀ m ∈ ms, Good m) : ∀ {s b : Nat}, s < W → maxSum ms s = .ok b → s ≤ b ∧ b < W := by
  induction ms with
  | nil => intro s b hs hb; simp only [maxSum] at hb; cases hb; exact ⟨Nat.le_refl _, hs⟩
  | cons m ms ih =>
    intro s b hs hb
    simp only [maxSum] at hb
    split at hb
    · cases hb; exact ⟨by unfold Length.maxPossible; omega, by decide⟩
    · simp only [Res.bind_eq_ok] at hb
      obtain ⟨x, hx, hb⟩ := hb
      have hx' := (h m (by simp)).2.1 x hx
      rw [add_eq hx' hs] at hb
      obtain ⟨h1, h2⟩ := ih (fun m hm => h m (by simp [hm])) (by omega) hb
      exact ⟨by omega, h2⟩

theorem minSum_le {ms : List Field} (h : ∀ m ∈ ms, Good m) : ∀ {s a b : Nat}, s < W → minSum ms = .ok a → maxSum ms s = .ok b →
    min (a + s) (W - 1) ≤ b := by
  induction ms with
  | nil =>
    intro s a b _ ha hb
    simp only [maxSum, minSum] at ha hb
    cases ha; cases hb
    omega
  | cons m ms ih =>
    intro s a b hs ha hb
    simp only [minSum, Res.bind_eq_ok, Res.pure_eq] at ha
    obtain ⟨x, hx, y, hy, ha⟩ := ha
    cases ha
    simp only [maxSum] at hb
    split at hb
    · cases hb; unfold Length.maxPossible; omega
    · simp only [Res.bind_eq_ok] at hb
      obtain ⟨x', hx', hb⟩ := hb
      have h1 := (h m (by simp)).2.1 x' hx'
      have h2 := (h m (by simp)).2.2 x x' hx hx'
      rw [add_eq h1 hs] at hb
      have h3 := ih (fun m hm => h m (by simp [hm])) (by omega) hy hb
      have : (x + y) % W ≤ x + y := Nat.mod_le _ _
      omega

theorem maxMax_bound {ms : List Field} (h : ∀ m ∈ ms, Good m) : ∀ {s b : Nat}, s < W → maxMax ms s = .ok b → s ≤ b ∧ b < W := by
  induction ms with
  | nil => intro s b hs hb; simp only [maxMax] at hb; cases hb; exact ⟨Nat.le_refl _, hs⟩
  | cons m ms ih =>
    intro s b hs hb
    simp only [maxMax, Res.bind_eq_ok] at hb
    obtain ⟨x, hx, hb⟩ := hb
    have hx' := (h m (by simp)).2.1 x hx
    split at hb
    · rename_i he
      cases hb
      subst he
      refine ⟨?_, hx'⟩
      unfold Length.maxPossible; omega
    · obtain ⟨h1, h2⟩ := ih (fun m hm => h m (by simp [hm])) (by omega) hb
      exact ⟨by omega, h2⟩

theorem slot_cases {s : Slot Field} : s = .none ∨ ∃ f, s.get? = some f ∧ s.toList = [f] ∧ minOrUb s = minLength f ∧ minOr0 s = minLength f ∧
    maxOrUb s = maxLength f ∧ maxOr0 s = maxLength f := by
  cases s with
  | none => exact Or.inl rfl
  | ext f => exact Or.inr ⟨f, rfl, rfl, by simp [minOrUb], by simp [minOr0], by simp [maxOrUb], by simp [maxOr0]⟩
  | own f => exact Or.inr ⟨f, rfl, rfl, by simp [minOrUb], by simp [minOr0], by simp [maxOrUb], by simp [maxOr0]⟩

theorem slot_has {s : Slot Field} (h : s.has = true) : ∃ f, s.get? = some f ∧ s.toList = [f] ∧ minOrUb s = minLength f ∧
    minOr0 s = minLength f ∧ maxOrUb s = maxLength f ∧ maxOr0 s = maxLength f := by
  rcases slot_cases (s := s) with rfl | h1
  · simp [Slot.has, Slot.get?] at h
  · exact h1

theorem numLen_good {st : IntF.State} (h : 0 < st.length ∧ st.length ≤ 16) : IntF.minLength st < W ∧ st.length < W ∧
    IntF.minLength st ≤ st.length := by
  unfold IntF.minLength
  split <;> omega

theorem maxTypeLength_le (t : IntF.IntType) : IntF.maxTypeLength t ≤ 16 := by cases t <;> decide

theorem int_len {st : IntF.State} (h : IntF.Accepted st) : 0 < st.length ∧ st.length ≤ 16 := by
  obtain ⟨t, _, h1, h2, _⟩ := C09_accepted_length st h
  have := maxTypeLength_le t
  omega

theorem enum_len {st : EnumF.State} {b : Bool} (h : EnumF.Accepted b st) : 0 < st.num.length ∧ st.num.length ≤ 16 := by
  obtain ⟨t, hi⟩ := EnumProofs.accepted_inv h
  have := maxTypeLength_le t
  have := hi.len
  omega

theorem set_len {st : SetF.State} (h : SetF.Accepted st) : 0 < st.length ∧ st.length ≤ 16 := by
  have hi := SetProofs.accepted_inv h
  obtain ⟨t, _, _, h2⟩ := hi.ty
  have := maxTypeLength_le t
  have := hi.len
  omega

theorem castU64_lt (x : Int) : castU64 x < W := by unfold castU64; omega

/-- The length of a sequence with an optional length prefix. -/
theorem prefixedMax_bounds {s : Slot Field} (h : ∀ g ∈ s.toList, Good g) (hl : ∀ g ∈ s.toList, Leaf g) :
    prefixedMax s.get? < W ∧ 1 ≤ prefixedMax s.get? ∧ ∀ a, minOr0 s = .ok a → a ≤ prefixedMax s.get? := by
  rcases slot_cases (s := s) with rfl | ⟨f, e1, e2, _, e4, _⟩
  · refine ⟨by decide, by decide, ?_⟩
    intro a ha
    simp only [minOr0] at ha
    cases ha
    exact Nat.zero_le _
  · rw [e1, e4]
    have hg := h f (by simp [e2])
    have hl := hl f (by simp [e2])
    have unl : prefixedMax (some f) = Length.maxPossible → prefixedMax (some f) < W ∧ 1 ≤ prefixedMax (some f) ∧
        ∀ a, minLength f = .ok a → a ≤ prefixedMax (some f) := by
      intro he
      rw [he]
      refine ⟨by decide, by decide, ?_⟩
      intro a ha
      obtain ⟨a', ha', h3⟩ := hg.1
      rw [ha'] at ha; cases ha
      unfold Length.maxPossible; omega
    cases f with
    | int c st =>
      have hn := int_len hl
      have hm := numLen_good hn
      simp only [prefixedMax, IntF.maxLength]
      rw [add_eq (castU64_lt _) hm.2.1]
      refine ⟨by omega, by omega, ?_⟩
      intro a ha
      simp only [minLength] at ha
      cases ha
      omega
    | _ => exact unl rfl

theorem good (f : Field) (h : Hered Leaf f) : Good f := by
  induction h with
  | @mk f hp hs ih =>
    have hl : ∀ g ∈ f.subs, Leaf g := fun g hg => (hs g hg).self
    cases f with
    | int c st =>
      have := numLen_good (int_len hp)
      refine ⟨⟨_, by rw [minLength], this.1⟩, ?_, ?_⟩
      · intro b hb; simp only [maxLength, IntF.maxLength] at hb; cases hb; exact this.2.1
      · intro a b ha hb; simp only [minLength, maxLength, IntF.maxLength] at ha hb; cases ha; cases hb; exact this.2.2
    | enum c st =>
      obtain ⟨b, hp⟩ := hp
      have := numLen_good (enum_len hp)
      refine ⟨⟨_, by rw [minLength]; rfl, this.1⟩, ?_, ?_⟩
      · intro b hb; simp only [maxLength, EnumF.maxLength] at hb; cases hb; exact this.2.1
      · intro a b ha hb; simp only [minLength, maxLength, EnumF.maxLength, EnumF.minLength] at ha hb; cases ha; cases hb; exact this.2.2
    | set c st =>
      have := set_len hp
      refine ⟨⟨SetF.minLength st, by rw [minLength], by simp only [SetF.minLength]; omega⟩, ?_, ?_⟩
      · intro b hb; simp only [maxLength, SetF.minLength] at hb; cases hb; omega
      · intro a b ha hb; simp only [minLength, maxLength] at ha hb; cases ha; cases hb; exact Nat.le_refl _
    | float c st =>
      obtain ⟨d, _, hd⟩ := FloatF.accepted_length hp
      have : st.length ≤ 8 := by rw [hd]; split <;> omega
      refine ⟨⟨st.length, by rw [minLength], by omega⟩, ?_, ?_⟩
      · intro b hb; simp only [maxLength] at hb; cases hb; omega
      · intro a b ha hb; simp only [minLength, maxLength] at ha hb; cases ha; cases hb; exact Nat.le_refl _
    | bitfield c e ms cd =>
      have ht : totalBits ms < W := by
        cases ms with
        | nil => decide
        | cons m ms => simp only [totalBits]; omega
      refine ⟨⟨totalBits ms / 8, by rw [minLength], by omega⟩, ?_, ?_⟩
      · intro b hb; simp only [maxLength] at hb; cases hb; omega
      · intro a b ha hb; simp only [minLength, maxLength] at ha hb; cases ha; cases hb; exact Nat.le_refl _
    | bundle c ms al cd =>
      refine ⟨?_, ?_, ?_⟩
      · obtain ⟨a, h1, h2⟩ := minSum_ok ih
        exact ⟨a, by rw [minLength]; exact h1, h2⟩
      · intro b hb
        simp only [maxLength] at hb
        exact (maxSum_bound ih (by decide) hb).2
      · intro a b ha hb
        simp only [minLength, maxLength] at ha hb
        have h1 := minSum_le ih (by decide) ha hb
        obtain ⟨a', h2, h3⟩ := minSum_ok ih
        simp only [Field.subs] at h2
        rw [ha] at h2; cases h2
        omega
    | variant c d ms =>
      refine ⟨⟨0, by simp only [minLength], by decide⟩, ?_, ?_⟩
      · intro b hb
        simp only [maxLength] at hb
        exact (maxMax_bound ih (by decide) hb).2
      · intro a b ha hb; simp only [minLength] at ha; cases ha; exact Nat.zero_le _
    | optional c st fs cd =>
      refine ⟨⟨0, by simp only [minLength], by decide⟩, ?_, ?_⟩
      · intro b hb
        simp only [maxLength] at hb
        obtain ⟨g, _, e2, _, _, e5, _⟩ := slot_has hp
        exact (ih g (by simp [Field.subs, e2])).2.1 b (by rw [← e5]; exact hb)
      · intro a b ha hb; simp only [minLength] at ha; cases ha; exact Nat.zero_le _
    | ref c bl t =>
      obtain ⟨g, _, e2, e3, _, e5, _⟩ := slot_has hp
      have hg := ih g (by simp [Field.subs, e2])
      unfold Good
      simp only [minLength, maxLength, e3, e5]
      exact hg
    | string c st p =>
      have hpm := prefixedMax_bounds ih hl
      by_cases h0 : st.length ≠ 0
      · simp only [Good, minLength, maxLength, if_pos h0]
        have : st.length < 4294967296 := hp
        refine ⟨⟨_, rfl, by omega⟩, ?_, ?_⟩
        · intro b hb; cases hb; omega
        · intro a b ha hb; cases ha; cases hb; exact Nat.le_refl _
      · simp only [Good, minLength, maxLength, if_neg h0]
        refine ⟨?_, ?_, ?_⟩
        · split
          · exact ⟨1, rfl, by decide⟩
          · rcases slot_cases (s := p) with rfl | ⟨g, e1, e2, _, e4, _⟩
            · exact ⟨0, by simp [minOr0], by decide⟩
            · rw [e4]; exact (ih g (by simp [Field.subs, e2])).1
        · intro b hb; cases hb; exact hpm.1
        · intro a b ha hb
          cases hb
          split at ha
          · cases ha; exact hpm.2.1
          · exact hpm.2.2 a ha
    | data c st p =>
      have hpm := prefixedMax_bounds ih hl
      by_cases h0 : st.length ≠ 0
      · simp only [Good, minLength, maxLength, if_pos h0]
        have : st.length < 4294967296 := hp
        refine ⟨⟨_, rfl, by omega⟩, ?_, ?_⟩
        · intro b hb; cases hb; omega
        · intro a b ha hb; cases ha; cases hb; exact Nat.le_refl _
      · simp only [Good, minLength, maxLength, if_neg h0]
        refine ⟨?_, ?_, ?_⟩
        · rcases slot_cases (s := p) with rfl | ⟨g, e1, e2, _, e4, _⟩
          · exact ⟨0, by simp [minOr0], by decide⟩
          · rw [e4]; exact (ih g (by simp [Field.subs, e2])).1
        · intro b hb; cases hb; exact hpm.1
        · intro a b ha hb
          cases hb
          exact hpm.2.2 a ha
    | list c st e cn l el t =>
      obtain ⟨hcount, he⟩ := hp
      obtain ⟨eg, _, e2, e3, _, e5, _⟩ := slot_has he
      have hge := ih eg (by simp [Field.subs, e2])
      have hel : ∀ g ∈ el.toList, Good g := fun g hg => ih g (by simp [Field.subs, hg])
      have hcn : ∀ g ∈ cn.toList, Good g := fun g hg => ih g (by simp [Field.subs, hg])
      have hln : ∀ g ∈ l.toList, Good g := fun g hg => ih g (by simp [Field.subs, hg])
      have htn : ∀ g ∈ t.toList, Good g := fun g hg => ih g (by simp [Field.subs, hg])
      have or0 : ∀ {s : Slot Field}, (∀ g ∈ s.toList, Good g) → (∃ a, minOr0 s = .ok a ∧ a < W) ∧ (∀ b, maxOr0 s = .ok b → b < W) ∧
          ∀ a b, minOr0 s = .ok a → maxOr0 s = .ok b → a ≤ b := by
        intro s hs
        rcases slot_cases (s := s) with rfl | ⟨g, e1, e2, _, e4, _, e6⟩
        · refine ⟨⟨0, by simp [minOr0], by decide⟩, ?_, ?_⟩
          · intro b hb; simp only [maxOr0] at hb; cases hb; decide
          · intro a b ha _; simp only [minOr0] at ha; cases ha; exact Nat.zero_le _
        · rw [e4, e6]; exact hs g (by simp [e2])
      obtain ⟨⟨x, hx, hxW⟩, hx2, hx3⟩ := or0 hel
      obtain ⟨⟨em, hem, hemW⟩, hem2, hem3⟩ := hge
      simp only [Good, minLength, maxLength, hx, Res.bind_ok, e3, e5, hem]
      by_cases h0 : st.count ≠ 0
      · simp only [if_pos h0, Res.pure_eq]
        refine ⟨⟨_, rfl, by omega⟩, ?_, ?_⟩
        · intro b hb
          simp only [Res.bind_eq_ok] at hb
          obtain ⟨x', h1, em', h2, ex, h3, all, h4, h5⟩ := hb
          cases h5
          have := hx2 _ h1
          rw [add_eq this (by decide)] at h3
          have := mul_ok (hem2 _ h2) (by omega) h4
          have hex : ex < W := by
            unfold perElem at h3
            split at h3
            · cases h3; omega
            · have := mul_ok (by omega) (by omega) h3
              omega
          rw [add_eq (by omega) hex]
          omega
        · intro a b ha hb
          cases ha
          simp only [Res.bind_eq_ok] at hb
          obtain ⟨x', h1, em', h2, ex, h3, all, h4, h5⟩ := hb
          cases h5
          have b1 := hx2 _ h1
          have b2 := hx3 _ _ hx h1
          have b3 := hem3 _ _ hem h2
          have b3' := hem2 _ h2
          rw [add_eq b1 (by decide)] at h3
          obtain ⟨_, b4⟩ := mul_ok (hem2 _ h2) (by omega) h4
          have b5 : em * st.count ≤ em' * st.count := Nat.mul_le_mul_right _ b3
          have b6 : (if st.elemFixedLength = true then x else x * st.count % W) ≤ ex ∧ ex < W := by
            unfold perElem at h3
            split at h3
            · cases h3
              rename_i hf
              rw [if_pos hf]; omega
            · rename_i hf
              rw [if_neg hf]
              obtain ⟨_, b7⟩ := mul_ok (by omega) (by omega) h3
              have b8 : x * st.count ≤ min (x' + 0) (W - 1) * st.count := Nat.mul_le_mul_right _ (by omega)
              have : x * st.count % W ≤ x * st.count := Nat.mod_le _ _
              omega
          rw [add_eq (by omega) b6.2]
          have b9 : st.count * em % W ≤ em * st.count := by rw [Nat.mul_comm]; exact Nat.mod_le _ _
          generalize (if st.elemFixedLength = true then x else x * st.count % W) = y at b6 ⊢
          omega
      · simp only [if_neg h0]
        by_cases hc : cn.has = true
        · obtain ⟨g, g1, g2, g3, _, _, _⟩ := slot_has hc
          have hgc := hcn g (by simp [g2])
          have hlc : Leaf g := hl g (by simp [Field.subs, g2])
          simp only [if_pos hc, g3, g1]
          refine ⟨hgc.1, ?_, ?_⟩
          all_goals cases g with
            | int c' cst =>
              have hn := int_len hlc
              have hm := numLen_good hn
              simp only [countPrefix, Res.bind_ok, Res.bind_eq_ok, Res.pure_eq, IntF.maxLength]
              first
              | (intro b hb
                 obtain ⟨x', h1, em', h2, r, h3, ex, h4, h5⟩ := hb
                 cases h5
                 have b1 := hx2 _ h1
                 rw [add_eq b1 (by decide)] at h4
                 obtain ⟨_, b2⟩ := mul_ok (hem2 _ h2) (castU64_lt _) h3
                 have b3 : ex < W := by
                   unfold perElem at h4
                   split at h4
                   · cases h4; omega
                   · obtain ⟨_, b3⟩ := mul_ok (by omega) (castU64_lt _) h4
                     omega
                 rw [add_eq hm.2.1 (by omega), add_eq b3 (by omega)]
                 omega)
              | (intro a b ha hb
                 obtain ⟨x', h1, em', h2, r, h3, ex, h4, h5⟩ := hb
                 cases h5
                 have b1 := hx2 _ h1
                 rw [add_eq b1 (by decide)] at h4
                 obtain ⟨_, b2⟩ := mul_ok (hem2 _ h2) (castU64_lt _) h3
                 have b3 : ex < W := by
                   unfold perElem at h4
                   split at h4
                   · cases h4; omega
                   · obtain ⟨_, b3⟩ := mul_ok (by omega) (castU64_lt _) h4
                     omega
                 simp only [minLength] at ha
                 cases ha
                 rw [add_eq hm.2.1 (by omega), add_eq b3 (by omega)]
                 omega)
            | _ =>
              simp only [countPrefix, Res.bind_eq_ok]
              first
              | (intro b hb; obtain ⟨_, _, _, _, _, h, _⟩ := hb; simp at h)
              | (intro a b _ hb; obtain ⟨_, _, _, _, _, h, _⟩ := hb; simp at h)
        · simp only [if_neg hc]
          have hpm := prefixedMax_bounds hln (fun g hg => hl g (by simp [Field.subs, hg]))
          by_cases hll : l.has = true
          · obtain ⟨g, g1, g2, g3, g4, _, _⟩ := slot_has hll
            have hgl := hln g (by simp [g2])
            simp only [if_pos hll, g3]
            rw [g4] at hpm
            refine ⟨hgl.1, ?_, ?_⟩
            · intro b hb
              simp only [Res.bind_eq_ok, Res.pure_eq] at hb
              obtain ⟨_, _, _, _, hb⟩ := hb
              cases hb; exact hpm.1
            · intro a b ha hb
              simp only [Res.bind_eq_ok, Res.pure_eq] at hb
              obtain ⟨_, _, _, _, hb⟩ := hb
              cases hb; exact hpm.2.2 a ha
          · simp only [if_neg hll]
            have hn : l = .none := by
              rcases slot_cases (s := l) with h | ⟨g, e1, _⟩
              · exact h
              · simp [Slot.has, e1] at hll
            subst hn
            obtain ⟨⟨y, hy, hyW⟩, _⟩ := or0 htn
            refine ⟨⟨y, hy, hyW⟩, ?_, ?_⟩
            · intro b hb
              simp only [Res.bind_eq_ok, Res.pure_eq] at hb
              obtain ⟨_, _, _, _, hb⟩ := hb
              cases hb; exact hpm.1
            · intro a b ha hb
              simp only [Res.bind_eq_ok, Res.pure_eq] at hb
              obtain ⟨_, _, _, _, hb⟩ := hb
              cases hb
              rw [hy] at ha; cases ha
              show y ≤ Length.maxPossible
              unfold Length.maxPossible; omega

end LengthProofs

open LengthProofs

/-! ## C22 -/

/-- C22: for every field object the reported minimal length is at most the reported maximal length. -/
theorem C22_min_le_max (f : Field) (h : Obj f) (a b : Nat) (ha : minLength f = .ok a) (hb : maxLength f = .ok b) : a ≤ b :=
  (LengthProofs.good f (obj_leaf h)).2.2 a b ha hb

open Sample in
/-- A bundle with a string and a list: minimum 1 + 2, maximum 1 + 255 + 2. -/
example : ∃ f, Accepted f ∧ minLength f = .ok 3 ∧ maxLength f = .ok 258 := by
  obtain ⟨f, h1, h2⟩ := accepted env0_ok (parent := .top)
    (x := el "bundle" [("name", "b")] [el "string" [("name", "s")] [el "lengthPrefix" [] [el "int" [("name", "l"), ("type", "uint8")]]],
      el "list" [("name", "l"), ("count", "2")] [el "element" [] [el "int" [("name", "e"), ("type", "int8")]]]])
    (p := fun f => isNum (minLength f) 3 && isNum (maxLength f) 258) (by decide +kernel)
  simp only [Bool.and_eq_true] at h2
  exact ⟨f, h1, isNum_spec h2.1, isNum_spec h2.2⟩

/-! ## C21 -/

/-- The minimal length of every field object is computed without undefined behaviour and fits 64 bits. -/
theorem C21_min_defined (f : Field) (h : Obj f) : ∃ a, minLength f = .ok a ∧ a < 2 ^ 64 :=
  (LengthProofs.good f (obj_leaf h)).1

/-- The count prefix of a list is an `<int>` that can hold a number of elements other than 0. -/
def CountPrefixUsable : Field → Prop
  | .list _ st _ cn _ _ _ => st.count = 0 → ∀ g ∈ cn.toList, ∃ c cst, g = .int c cst ∧ castU64 cst.max ≠ 0
  | _ => True

/-- C21, partial: the maximal length is computed without undefined behaviour. Missing from the full claim: lists whose count prefix is not an
    `<int>` or cannot hold a positive number; these are accepted and undefined, see the two theorems below. -/
theorem C21_max_defined_partial (f : Field) (h : Obj f) (hc : Hered CountPrefixUsable f) : ∃ b, maxLength f = .ok b ∧ b < 2 ^ 64 := by
  have key : ∀ f, Hered Leaf f → Hered CountPrefixUsable f → ∃ b, maxLength f = .ok b := by
    intro f hl
    induction hl with
    | @mk f hp hs ih =>
      intro hc
      have ih' : ∀ g ∈ f.subs, ∃ b, maxLength g = .ok b := fun g hg => ih g hg (hc.subs g hg)
      have or0 : ∀ {s : Slot Field}, (∀ g ∈ s.toList, g ∈ f.subs) → ∃ b, maxOr0 s = .ok b ∧ b < 18446744073709551616 := by
        intro s hs'
        rcases slot_cases (s := s) with rfl | ⟨g, e1, e2, _, e4, _, e6⟩
        · exact ⟨0, by simp [maxOr0], by decide⟩
        · rw [e6]
          obtain ⟨b, hb⟩ := ih' g (hs' g (by simp [e2]))
          exact ⟨b, hb, (good g (hs g (hs' g (by simp [e2])))).2.1 b hb⟩
      have orUb : ∀ {s : Slot Field}, s.has = true → (∀ g ∈ s.toList, g ∈ f.subs) → ∃ b, maxOrUb s = .ok b ∧ b < 18446744073709551616 := by
        intro s h1 h2
        obtain ⟨g, _, e2, _, _, e5, _⟩ := slot_has h1
        rw [e5]
        obtain ⟨b, hb⟩ := ih' g (h2 g (by simp [e2]))
        exact ⟨b, hb, (good g (hs g (h2 g (by simp [e2])))).2.1 b hb⟩
      cases f with
      | int | enum | set | float | bitfield => exact ⟨_, by rw [maxLength]⟩
      | string c st p =>
        simp only [maxLength]
        split <;> exact ⟨_, rfl⟩
      | data c st p =>
        simp only [maxLength]
        split <;> exact ⟨_, rfl⟩
      | bundle c ms al cd =>
        have : ∀ (ms : List Field) (s : Nat), (∀ m ∈ ms, ∃ b, maxLength m = .ok b) → ∃ b, maxSum ms s = .ok b := by
          intro ms
          induction ms with
          | nil => intro s _; exact ⟨s, by rw [maxSum]⟩
          | cons m ms ihm =>
            intro s h
            obtain ⟨x, hx⟩ := h m (by simp)
            simp only [maxSum]
            split
            · exact ⟨_, rfl⟩
            · rw [hx]; exact ihm _ fun m hm => h m (by simp [hm])
        simp only [maxLength]
        exact this ms 0 ih'
      | variant c d ms =>
        have : ∀ (ms : List Field) (s : Nat), (∀ m ∈ ms, ∃ b, maxLength m = .ok b) → ∃ b, maxMax ms s = .ok b := by
          intro ms
          induction ms with
          | nil => intro s _; exact ⟨s, by rw [maxMax]⟩
          | cons m ms ihm =>
            intro s h
            obtain ⟨x, hx⟩ := h m (by simp)
            simp only [maxMax, hx, Res.bind_ok]
            split
            · exact ⟨_, rfl⟩
            · exact ihm _ fun m hm => h m (by simp [hm])
        simp only [maxLength]
        exact this ms 0 ih'
      | ref c bl t =>
        obtain ⟨b, hb, _⟩ := orUb hp (fun g hg => hg)
        exact ⟨b, by rw [maxLength]; exact hb⟩
      | optional c st fs cd =>
        obtain ⟨b, hb, _⟩ := orUb hp (fun g hg => hg)
        exact ⟨b, by rw [maxLength]; exact hb⟩
      | list c st e cn l el t =>
        obtain ⟨x, hx, hxW⟩ := or0 (s := el) (fun g hg => by simp [Field.subs, hg])
        obtain ⟨em, hem, hemW⟩ := orUb (s := e) hp.2 (fun g hg => by simp [Field.subs, hg])
        have mulok : ∀ (a f : Nat), f ≠ 0 → ∃ r, Length.mul a f = .ok r := by
          intro a f h0
          simp only [Length.mul, if_neg h0]
          split <;> exact ⟨_, rfl⟩
        have perok : ∀ (b : Bool) (a f : Nat), f ≠ 0 → ∃ r, perElem b a f = .ok r := by
          intro b a f h0
          unfold perElem
          split
          · exact ⟨_, rfl⟩
          · exact mulok a f h0
        simp only [maxLength, hx, hem, Res.bind_ok]
        by_cases h0 : st.count ≠ 0
        · obtain ⟨r1, hr1⟩ := perok st.elemFixedLength (Length.add x 0) st.count h0
          obtain ⟨r2, hr2⟩ := mulok em st.count h0
          rw [if_pos h0, hr1, hr2]
          exact ⟨_, rfl⟩
        · rw [if_neg h0]
          by_cases hcn : cn.has = true
          · obtain ⟨g, g1, g2, _⟩ := slot_has hcn
            obtain ⟨c', cst, rfl, hne⟩ := hc.self (by omega) g (by simp [g2])
            obtain ⟨r1, hr1⟩ := perok st.elemFixedLength (Length.add x 0) (castU64 cst.max) hne
            obtain ⟨r2, hr2⟩ := mulok em (castU64 cst.max) hne
            simp only [if_pos hcn, g1, countPrefix, Res.bind_ok, hr1, hr2]
            exact ⟨_, rfl⟩
          · rw [if_neg hcn]; exact ⟨_, rfl⟩
  obtain ⟨b, hb⟩ := key f (obj_leaf h) hc
  exact ⟨b, hb, (good f (obj_leaf h)).2.1 b hb⟩

open Sample in
/-- A list with a usable count prefix. -/
example : ∃ f, Accepted f ∧ Hered CountPrefixUsable f ∧ maxLength f = .ok 511 := by
  let usable : Field → Bool := fun f => match f with
    | .list _ _ _ cn _ _ _ => (match cn with | .own (.int _ cst) => decide (castU64 cst.max ≠ 0) | .none => true | _ => false)
    | _ => true
  obtain ⟨f, h1, h2⟩ := accepted env0_ok (parent := .top)
    (x := el "list" [("name", "l")] [el "element" [] [el "int" [("name", "e"), ("type", "uint16")]],
      el "countPrefix" [] [el "int" [("name", "c"), ("type", "uint8")]]])
    (p := fun f => allB usable f && isNum (maxLength f) 511) (by decide +kernel)
  simp only [Bool.and_eq_true] at h2
  refine ⟨f, h1, (hered h2.1).mono ?_, isNum_spec h2.2⟩
  intro g hg
  cases g with
  | list c st e cn l el t =>
    intro _ x hx
    simp only [usable] at hg
    split at hg
    · simp only [Slot.toList, List.mem_singleton] at hx
      exact ⟨_, _, hx, by simpa using hg⟩
    · simp [Slot.toList] at hx
    · simp at hg
  | _ => trivial

open Sample in
/-- Refutation of the full C21: a list whose count prefix is `int8` with `serOffset="127"` (values up to 0) is accepted; computing its maximal
    length divides by zero. -/
theorem C21_zero_count_witness : ∃ f, Accepted f ∧ maxLength f = .ub := by
  obtain ⟨f, h1, h2⟩ := accepted env0_ok (parent := .top)
    (x := el "list" [("name", "l")] [el "element" [] [el "int" [("name", "e"), ("type", "uint8")]],
      el "countPrefix" [] [el "int" [("name", "c"), ("type", "int8"), ("serOffset", "127")]]])
    (p := fun f => isUb (maxLength f)) (by decide +kernel)
  exact ⟨f, h1, isUb_spec h2⟩

open Sample in
/-- The other one: a `<bitfield>` of semantic type "length" is accepted as count prefix, the code takes it for an `<int>`. -/
theorem C21_count_kind_witness : ∃ f, Accepted f ∧ maxLength f = .ub := by
  obtain ⟨f, h1, h2⟩ := accepted env0_ok (parent := .top)
    (x := el "list" [("name", "l")] [el "element" [] [el "int" [("name", "e"), ("type", "uint8")]],
      el "countPrefix" [] [el "bitfield" [("name", "c"), ("semanticType", "length")]
        [el "int" [("name", "x"), ("type", "uint8"), ("bitLength", "8")]]]])
    (p := fun f => isUb (maxLength f)) (by decide +kernel)
  exact ⟨f, h1, isUb_spec h2⟩

end Commsdsl.Props
