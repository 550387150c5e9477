import Verif.Model.GenLength
import Verif.Spec.GenLength
import Verif.Props.FieldSer
/-!
# Lengths of the values of generated classes against the lengths the parser and the generator report
-/
namespace Commsdsl.Props
open Commsdsl Fld Spec Text Gen LengthProofs SerProofs

namespace LenProofs

local notation "W" => (18446744073709551616 : Nat)

/-- The place of the field of a slot. -/
def slotPl (pl : Place) : Slot Field → Place
  | .own _ => pl
  | _ => .other

theorem slot_gen {s : Slot Field} {x : Field} (h : s.get? = some x) (g : GVer) (pl : Place) (n : Nat) :
    (genSlot g pl s n ↔ genBytes g (slotPl pl s) x n) ∧ (genOpt g pl s n ↔ genBytes g (slotPl pl s) x n) ∧
    (genPrefixed g pl s n ↔ ∃ a m, genBytes g (slotPl pl s) x a ∧ announces m x ∧ n = a + m) ∧ (∀ m, announcesSlot m s ↔ announces m x) := by
  cases s with
  | none => simp [Slot.get?] at h
  | ext f => simp only [Slot.get?, Option.some.injEq] at h; subst h; simp [genSlot, genOpt, genPrefixed, announcesSlot, genBytes, slotPl]
  | own f => simp only [Slot.get?, Option.some.injEq] at h; subst h; simp [genSlot, genOpt, genPrefixed, announcesSlot, genBytes, slotPl]

theorem slot_firm {s : Slot Field} {x : Field} (h : s.get? = some x) {g : GVer} {pl : Place} (hf : FirmSlot g pl s) : Firm g (slotPl pl s) x := by
  cases s with
  | none => simp [Slot.get?] at h
  | ext f => simp only [Slot.get?, Option.some.injEq] at h; subst h; simpa [FirmSlot, slotPl] using hf
  | own f => simp only [Slot.get?, Option.some.injEq] at h; subst h; simpa [FirmSlot, slotPl] using hf

theorem slot_countable {s : Slot Field} {x : Field} (h : s.get? = some x) {g : GVer} {pl : Place} (hf : CountableSlot g pl s) : Countable g (slotPl pl s) x := by
  cases s with
  | none => simp [Slot.get?] at h
  | ext f => simp only [Slot.get?, Option.some.injEq] at h; subst h; simpa [CountableSlot, slotPl] using hf
  | own f => simp only [Slot.get?, Option.some.injEq] at h; subst h; simpa [CountableSlot, slotPl] using hf

theorem firm_here {g : GVer} {pl : Place} {f : Field} (h : Firm g pl f) : versionOpt g pl f = false ∧ f.common.pseudo = false := by
  cases f <;> simp only [Firm] at h <;> first | exact ⟨h.1, h.2.1⟩ | exact ⟨h.1, h.2⟩

theorem firm_body {g : GVer} {pl : Place} {f : Field} (h : Firm g pl f) (n : Nat) : genBytes g pl f n ↔ genBody g pl f n := by
  unfold genBytes
  rw [(firm_here h).1]
  simp

/-! ## Lower bound -/

theorem lowerF {g : GVer} {pl : Place} (f : Field) (hl : Hered Leaf f) (hf : Firm g pl f) (a n : Nat) (ha : minLength f = .ok a) (hn : genBytes g pl f n) : a ≤ n := by
  induction hl generalizing pl a n with
  | @mk f hleaf hs ih =>
    rw [firm_body hf] at hn
    have hps := (firm_here hf).2
    cases f with
    | int c st =>
      simp only [Field.common] at hps
      simp only [Firm] at hf
      simp only [minLength] at ha
      simp only [genBody, hps, limitedLen, hf.2.2] at hn
      cases ha; exact minLength_num (by simpa using hn)
    | enum c st =>
      simp only [Field.common] at hps
      simp only [Firm] at hf
      simp only [minLength] at ha
      simp only [genBody, hps, limitedLen, hf.2.2] at hn
      cases ha; exact minLength_num (by simpa using hn)
    | set c st =>
      simp only [Field.common] at hps
      simp only [Firm] at hf
      simp only [minLength, SetF.minLength] at ha
      simp only [genBody, hps, limitedLen, hf.2.2, numLen] at hn
      cases ha; simp at hn; omega
    | float c st =>
      simp only [Field.common] at hps
      simp only [minLength] at ha
      simp only [genBody, hps] at hn
      cases ha; simp at hn; omega
    | bitfield c e ms cd =>
      simp only [Field.common] at hps
      simp only [minLength] at ha
      simp only [genBody, hps] at hn
      cases ha; simp at hn
      have := totalBits_le ms
      omega
    | bundle c ms al cd =>
      simp only [Field.common] at hps
      simp only [Firm] at hf
      simp only [minLength] at ha
      simp [genBody, hps] at hn
      have : ∀ (ms : List Field), FirmAll g (.field c.w.since pl) ms → (∀ x ∈ ms, ∀ {pl : Place}, Firm g pl x → ∀ a n, minLength x = .ok a → genBytes g pl x n → a ≤ n) →
          ∀ a n, minSum ms = .ok a → genAll g (.field c.w.since pl) ms n → a ≤ n := by
        intro ms
        induction ms with
        | nil => intro _ _ a n h1 _; simp only [minSum] at h1; cases h1; exact Nat.zero_le _
        | cons m ms ihm =>
          intro h1 h2 a n h3 h4
          simp only [FirmAll] at h1
          simp only [minSum, Res.bind_eq_ok, Res.pure_eq] at h3
          obtain ⟨x, hx, y, hy, h3⟩ := h3
          cases h3
          simp only [genAll] at h4
          obtain ⟨x', y', hx', hy', rfl⟩ := h4
          have h5 := h2 m (by simp) h1.1 x x' hx hx'
          have h6 := ihm h1.2 (fun x hx => h2 x (by simp [hx])) y y' hy hy'
          have := Nat.mod_le (x + y) W
          omega
      exact this ms hf.2.2 (fun x hx pl h => ih x hx h) a n ha hn
    | variant c d ms => simp only [minLength] at ha; cases ha; exact Nat.zero_le _
    | optional c st fs cd => simp only [minLength] at ha; cases ha; exact Nat.zero_le _
    | ref c bl t =>
      simp only [Field.common] at hps
      simp only [Firm] at hf
      obtain ⟨x, e1, e2, e3, _⟩ := slot_has hleaf
      simp only [minLength, e3] at ha
      simp [genBody, hps] at hn
      exact ih x (by simp [Field.subs, e2]) (slot_firm e1 hf.2.2) a n ha ((slot_gen e1 g _ n).1.1 hn)
    | string c st p =>
      simp only [Field.common] at hps
      simp only [Firm] at hf
      simp only [minLength] at ha
      simp only [genBody, hps, Bool.false_eq_true, if_false] at hn
      split at ha
      · rename_i h0; rw [if_pos h0] at hn; cases ha; omega
      · rename_i h0; rw [if_neg h0] at hn
        split at ha
        · rename_i hz; rw [if_pos hz] at hn; cases ha; omega
        · rename_i hz; rw [if_neg hz] at hn
          rcases slot_cases (s := p) with rfl | ⟨x, e1, e2, _, e4, _⟩
          · simp only [minOr0] at ha; cases ha; exact Nat.zero_le _
          · obtain ⟨y, m, h1, _, rfl⟩ := (slot_gen e1 g _ n).2.2.1.1 hn
            have := ih x (by simp [Field.subs, e2]) (slot_firm e1 hf.2.2) a y (by rw [← e4]; exact ha) h1
            omega
    | data c st p =>
      simp only [Field.common] at hps
      simp only [Firm] at hf
      simp only [minLength] at ha
      simp only [genBody, hps, Bool.false_eq_true, if_false] at hn
      split at ha
      · rename_i h0; rw [if_pos h0] at hn; cases ha; omega
      · rename_i h0; rw [if_neg h0] at hn
        rcases slot_cases (s := p) with rfl | ⟨x, e1, e2, _, e4, _⟩
        · simp only [minOr0] at ha; cases ha; exact Nat.zero_le _
        · obtain ⟨y, m, h1, _, rfl⟩ := (slot_gen e1 g _ n).2.2.1.1 hn
          have := ih x (by simp [Field.subs, e2]) (slot_firm e1 hf.2.2) a y (by rw [← e4]; exact ha) h1
          omega
    | list c st e cn l el t =>
      simp only [Field.common] at hps
      simp only [Firm] at hf
      obtain ⟨_, _, fe, fcn, fl, fel, ft⟩ := hf
      obtain ⟨hcount, he⟩ := hleaf
      obtain ⟨eg, e1, e2, e3, _⟩ := slot_has he
      have hem : ∀ em n, minLength eg = .ok em → genSlot g (.field c.w.since pl) e n → em ≤ n := fun em n h1 h2 =>
        ih eg (by simp [Field.subs, e2]) (slot_firm e1 fe) em n h1 ((slot_gen e1 g _ n).1.1 h2)
      have hopt : ∀ x n, minOr0 el = .ok x → genOpt g (.field c.w.since pl) el n → x ≤ n := by
        intro x n h1 h2
        rcases slot_cases (s := el) with rfl | ⟨y, g1, g2, _, g4, _⟩
        · simp only [minOr0] at h1; cases h1; exact Nat.zero_le _
        · exact ih y (by simp [Field.subs, g2]) (slot_firm g1 fel) x n (by rw [← g4]; exact h1) ((slot_gen g1 g _ n).2.1.1 h2)
      simp only [minLength, Res.bind_eq_ok, e3] at ha
      obtain ⟨x, hx, ha⟩ := ha
      simp only [genBody, hps, Bool.false_eq_true, if_false] at hn
      split at ha
      · rename_i h0
        rw [if_pos h0] at hn
        simp only [Res.bind_eq_ok, Res.pure_eq] at ha
        obtain ⟨em, hem', ha⟩ := ha
        cases ha
        have m1 := Nat.mod_le (st.count * em) W
        unfold listBody at hn
        split at hn
        · rename_i hf
          rw [if_pos hf]
          rcases hn with ⟨hk, _⟩ | ⟨b, m, hb, hm, rfl⟩
          · exact absurd hk h0
          · have h3 := le_elems (A := em) (B := 0) (fun a ha => hem em a hem' ha) (fun b _ => Nat.zero_le _) hm
            have h4 := hopt x b hx hb
            have m2 := Nat.mod_le (st.count * em % W + x) W
            omega
        · rename_i hf
          rw [if_neg hf]
          have h3 := le_elems (A := em) (B := x) (fun a ha => hem em a hem' ha) (fun b hb => hopt x b hx hb) hn
          have m2 := Nat.mod_le (st.count * em % W + x * st.count % W) W
          have m3 := Nat.mod_le (x * st.count) W
          rw [Nat.mul_comm st.count x] at h3
          omega
      · rename_i h0
        rw [if_neg h0] at hn
        split at ha
        · rename_i hc
          rw [if_pos hc] at hn
          obtain ⟨x', g1, g2, g3, _⟩ := slot_has hc
          obtain ⟨y, k, m, hy, _, _, rfl⟩ := hn
          have := ih x' (by simp [Field.subs, g2]) (slot_firm g1 fcn) a y (by rw [← g3]; exact ha) ((slot_gen g1 g _ y).1.1 hy)
          omega
        · rename_i hc
          rw [if_neg hc] at hn
          split at ha
          · rename_i hc
            rw [if_pos hc] at hn
            obtain ⟨x', g1, g2, g3, _⟩ := slot_has hc
            obtain ⟨y, m, hy, _, rfl⟩ := (slot_gen g1 g _ n).2.2.1.1 hn
            have := ih x' (by simp [Field.subs, g2]) (slot_firm g1 fl) a y (by rw [← g3]; exact ha) hy
            omega
          · rename_i hc
            rw [if_neg hc] at hn
            rcases slot_cases (s := t) with rfl | ⟨x', g1, g2, _, g4, _⟩
            · simp only [minOr0] at ha; cases ha; exact Nat.zero_le _
            · have ht : t.has = true := by simp [Slot.has, g1]
              rw [if_pos ht] at hn
              obtain ⟨y, m, hy, rfl⟩ := hn
              have := ih x' (by simp [Field.subs, g2]) (slot_firm g1 ft) a y (by rw [← g4]; exact ha) ((slot_gen g1 g _ y).1.1 hy)
              omega

theorem addLength_eq {a b : Nat} (ha : a < W) (hb : b < W) : addLength a b = min (a + b) (W - 1) := by
  unfold addLength maxPossible
  split
  · omega
  · rw [Nat.mod_eq_of_lt (by omega)]; omega

theorem addLength_le (a b : Nat) : addLength a b ≤ a + b := by
  unfold addLength maxPossible
  split
  · omega
  · exact Nat.mod_le _ _

theorem addLength_cases (a b : Nat) : (addLength a b = W - 1 ∧ W - 1 ≤ a + b) ∨ (addLength a b = a + b ∧ a + b < W - 1) := by
  unfold addLength maxPossible
  split
  · left; omega
  · right; rw [Nat.mod_eq_of_lt (by omega)]; omega

/-! ## Upper bound -/

theorem limited_le {lim : Bool} {t : Option IntF.IntType} {l n : Nat} (h : limitedLen lim t l n) : n ≤ l := by
  unfold limitedLen at h
  split at h
  · exact h.2
  · exact num_le h

/-- The upper bound for sequences with a length prefix. -/
theorem prefixed_leG {gv : GVer} {pl : Place} {s : Slot Field} (hl : ∀ g ∈ s.toList, Leaf g) {n : Nat} (hne : prefixedMax s.get? ≠ W - 1) (h : genPrefixed gv pl s n)
    (h0 : ∀ g ∈ s.toList, ∀ a, genBytes gv (slotPl pl s) g a → ∀ b, maxLength g = .ok b → b ≠ W - 1 → a ≤ b) : n ≤ prefixedMax s.get? := by
  rcases slot_cases (s := s) with e | ⟨g, e1, e2, _⟩
  · subst e; exact absurd rfl hne
  · rw [e1] at hne ⊢
    obtain ⟨a, m, ha, hm, rfl⟩ := (slot_gen e1 gv pl n).2.2.1.1 h
    cases g with
    | int c st =>
      have hacc : IntF.Accepted st := hl (.int c st) (by simp [e2])
      have hlen := int_len hacc
      have hn := numLen_good hlen
      have h1 := announces_le hacc hm
      have h2 : a ≤ st.length := h0 _ (by simp [e2]) a ha st.length (by rw [maxLength]; rfl) (by omega)
      simp only [prefixedMax, IntF.maxLength] at hne ⊢
      rw [add_eq (castU64_lt _) hn.2.1] at hne ⊢
      omega
    | _ => exact absurd rfl hne

theorem upperP {gv : GVer} {pl : Place} (f : Field) (hl : Hered Leaf f) (hz : Hered ZeroOk f) (hp : Hered BitsFit f) (b n : Nat) (hb : maxLength f = .ok b) (hne : b ≠ W - 1)
    (hn : genBytes gv pl f n) : n ≤ b := by
  induction hl generalizing pl b n with
  | @mk f hleaf hs ih0 =>
    have ih : ∀ g ∈ f.subs, ∀ {pl : Place} b n, maxLength g = .ok b → b ≠ W - 1 → genBytes gv pl g n → n ≤ b := fun g hg pl b n => ih0 g hg (hz.subs g hg) (hp.subs g hg) b n
    have hgood : ∀ g ∈ f.subs, Good g := fun g hg => good g (hs g hg)
    have hleafs : ∀ g ∈ f.subs, Leaf g := fun g hg => (hs g hg).self
    have hbits := hp.self
    rcases hn with ⟨_, rfl⟩ | hn
    · exact Nat.zero_le _
    by_cases hps : f.common.pseudo = true
    · have : n = 0 := by cases f <;> (simp only [Field.common] at hps; simpa [genBody, hps] using hn)
      omega
    · have hps : f.common.pseudo = false := by simpa using hps
      cases f with
      | int c st =>
        simp only [Field.common] at hps
        simp only [maxLength, IntF.maxLength] at hb
        simp [genBody, hps] at hn
        cases hb; exact limited_le hn
      | enum c st =>
        simp only [Field.common] at hps
        simp only [maxLength, EnumF.maxLength] at hb
        simp [genBody, hps] at hn
        cases hb; exact limited_le hn
      | set c st =>
        simp only [Field.common] at hps
        simp only [maxLength, SetF.minLength] at hb
        simp [genBody, hps] at hn
        cases hb; exact limited_le hn
      | float c st =>
        simp only [Field.common] at hps
        simp only [maxLength] at hb
        simp [genBody, hps] at hn
        cases hb; omega
      | bitfield c e ms cd =>
        simp only [Field.common] at hps
        simp only [maxLength] at hb
        simp [genBody, hps] at hn
        cases hb
        rw [totalBits_eq ms hbits]; omega
      | bundle c ms al cd =>
        simp only [Field.common] at hps
        simp only [maxLength] at hb
        simp [genBody, hps] at hn
        have : ∀ (ms : List Field), (∀ m ∈ ms, Good m) → (∀ g ∈ ms, ∀ b n, maxLength g = .ok b → b ≠ W - 1 → genBytes gv (.field c.w.since pl) g n → n ≤ b) →
            ∀ s b n, s < W → maxSum ms s = .ok b → b ≠ W - 1 → genAll gv (.field c.w.since pl) ms n → s + n ≤ b := by
          intro ms
          induction ms with
          | nil =>
            intro _ _ s b n _ h1 _ h2
            simp only [maxSum] at h1; cases h1
            simp only [genAll] at h2; omega
          | cons m ms ihm =>
            intro h1 h2 s b n hs h3 hne h4
            simp only [maxSum] at h3
            split at h3
            · cases h3; exact absurd rfl hne
            · simp only [Res.bind_eq_ok] at h3
              obtain ⟨x, hx, h3⟩ := h3
              have hxW := (h1 m (by simp)).2.1 x hx
              rw [add_eq hxW hs] at h3
              have h5 := maxSum_bound (fun m hm => h1 m (by simp [hm])) (by omega) h3
              have ihm' := ihm (fun m hm => h1 m (by simp [hm])) (fun g hg => h2 g (by simp [hg])) (min (x + s) (W - 1)) b
              simp only [genAll] at h4
              obtain ⟨x', y', hx', hy', rfl⟩ := h4
              have h6 := h2 m (by simp) x x' hx (by omega) hx'
              have h7 := ihm' y' (by omega) h3 hne hy'
              omega
        have := this ms hgood (fun g hg b n => ih g hg b n) 0 b n (by decide) hb hne hn
        omega
      | variant c d ms =>
        simp only [Field.common] at hps
        simp only [maxLength] at hb
        simp [genBody, hps] at hn
        rcases hn with rfl | hn
        · exact Nat.zero_le _
        have : ∀ (ms : List Field), (∀ m ∈ ms, Good m) → (∀ g ∈ ms, ∀ b n, maxLength g = .ok b → b ≠ W - 1 → genBytes gv (.field c.w.since pl) g n → n ≤ b) →
            ∀ s b, s < W → maxMax ms s = .ok b → b ≠ W - 1 → genAny gv (.field c.w.since pl) ms n → n ≤ b := by
          intro ms
          induction ms with
          | nil => intro _ _ s b _ h1 _ h2; simp [genAny] at h2
          | cons m ms ihm =>
            intro h1 h2 s b hs h3 hne h4
            simp only [maxMax, Res.bind_eq_ok] at h3
            obtain ⟨x, hx, h3⟩ := h3
            have hxW := (h1 m (by simp)).2.1 x hx
            split at h3
            · rename_i he
              cases h3; exact absurd he hne
            · rename_i he
              have h5 := maxMax_bound (fun m hm => h1 m (by simp [hm])) (by omega) h3
              simp only [genAny] at h4
              rcases h4 with h4 | h4
              · have h6 := h2 m (by simp) x n hx (by omega) h4
                omega
              · exact ihm (fun m hm => h1 m (by simp [hm])) (fun g hg => h2 g (by simp [hg])) _ b (by omega) h3 hne h4
        exact this ms hgood (fun g hg b n => ih g hg b n) 0 b (by decide) hb hne hn
      | optional c st fs cd =>
        simp only [Field.common] at hps
        obtain ⟨g, e1, e2, _, _, e5, _⟩ := slot_has hleaf
        simp only [maxLength, e5] at hb
        simp [genBody, hps] at hn
        rcases hn with rfl | hn
        · exact Nat.zero_le _
        · exact ih g (by simp [Field.subs, e2]) b n hb hne ((slot_gen e1 gv _ n).1.1 hn)
      | ref c bl t =>
        simp only [Field.common] at hps
        obtain ⟨g, e1, e2, _, _, e5, _⟩ := slot_has hleaf
        simp only [maxLength, e5] at hb
        simp [genBody, hps] at hn
        exact ih g (by simp [Field.subs, e2]) b n hb hne ((slot_gen e1 gv _ n).1.1 hn)
      | string c st p =>
        simp only [Field.common] at hps
        simp only [maxLength] at hb
        simp only [genBody, hps, Bool.false_eq_true, if_false] at hn
        split at hb
        · rename_i h0; rw [if_pos h0] at hn; cases hb; omega
        · rename_i h0; rw [if_neg h0] at hn
          cases hb
          split at hn
          · rename_i hz1
            have := slot_none (hz.self hz1)
            subst this
            exact absurd rfl hne
          · exact prefixed_leG hleafs hne hn (fun g hg a ha b hb h => ih g hg b a hb h ha)
      | data c st p =>
        simp only [Field.common] at hps
        simp only [maxLength] at hb
        simp only [genBody, hps, Bool.false_eq_true, if_false] at hn
        split at hb
        · rename_i h0; rw [if_pos h0] at hn; cases hb; omega
        · rename_i h0; rw [if_neg h0] at hn
          cases hb
          exact prefixed_leG hleafs hne hn (fun g hg a ha b hb h => ih g hg b a hb h ha)
      | list c st e cn l el t =>
        simp only [Field.common] at hps
        obtain ⟨hcount, he⟩ := hleaf
        obtain ⟨eg, e1, e2, _, _, e5, _⟩ := slot_has he
        have hemG := hgood eg (by simp [Field.subs, e2])
        have hem : ∀ em n, maxLength eg = .ok em → em ≠ W - 1 → genSlot gv (.field c.w.since pl) e n → n ≤ em := fun em n h1 h3 h2 =>
          ih eg (by simp [Field.subs, e2]) em n h1 h3 ((slot_gen e1 gv _ n).1.1 h2)
        have hoptW : ∀ x, maxOr0 el = .ok x → x < W := by
          intro x h1
          rcases slot_cases (s := el) with rfl | ⟨g, g1, g2, _, _, _, g6⟩
          · simp only [maxOr0] at h1; cases h1; decide
          · exact (hgood g (by simp [Field.subs, g2])).2.1 x (by rw [← g6]; exact h1)
        have hopt : ∀ x n, maxOr0 el = .ok x → x ≠ W - 1 → genOpt gv (.field c.w.since pl) el n → n ≤ x := by
          intro x n h1 h3 h2
          rcases slot_cases (s := el) with rfl | ⟨g, g1, g2, _, _, _, g6⟩
          · simp only [genOpt] at h2; omega
          · exact ih g (by simp [Field.subs, g2]) x n (by rw [← g6]; exact h1) h3 ((slot_gen g1 gv _ n).2.1.1 h2)
        -- bytes of `k` elements, given results of the two products
        have body : ∀ {x em ex all k n K : Nat}, maxOr0 el = .ok x → maxLength eg = .ok em → K < W →
            perElem st.elemFixedLength (Length.add x 0) K = .ok ex → Length.mul em K = .ok all → all ≠ W - 1 → ex ≠ W - 1 → k ≤ K →
            listBody st.elemFixedLength (genSlot gv (.field c.w.since pl) e) (genOpt gv (.field c.w.since pl) el) k n → n ≤ all + ex := by
          intro x em ex all k n K hx hem' hK h1 h2 h3 h4 hk hbody
          have hxW := hoptW x hx
          have hemW := hemG.2.1 em hem'
          obtain ⟨hK0, hall⟩ := mul_ok hemW hK h2
          have hemne : em ≠ W - 1 := by
            intro he
            have : W - 1 ≤ em * K := by rw [he]; exact Nat.le_mul_of_pos_right _ hK0
            omega
          have hmul : k * em ≤ em * K := by rw [Nat.mul_comm]; exact Nat.mul_le_mul_left _ hk
          rw [add_eq hxW (by decide)] at h1
          unfold perElem at h1
          unfold listBody at hbody
          split at hbody
          · rename_i hf
            rw [if_pos hf] at h1
            cases h1
            rcases hbody with ⟨_, rfl⟩ | ⟨b, m, hb, hm, rfl⟩
            · exact Nat.zero_le _
            · have h5 := elems_le (A := em) (B := 0) (fun a ha => hem em a hem' hemne ha) (fun b hb => by omega) hm
              have h6 := hopt x b hx (by omega) hb
              omega
          · rename_i hf
            rw [if_neg hf] at h1
            obtain ⟨_, h7⟩ := mul_ok (by omega) hK h1
            have hxne : x ≠ W - 1 := by
              intro he
              have : W - 1 ≤ min (x + 0) (W - 1) * K := by
                rw [show min (x + 0) (W - 1) = W - 1 by omega]; exact Nat.le_mul_of_pos_right _ hK0
              omega
            have h5 := elems_le (A := em) (B := x) (fun a ha => hem em a hem' hemne ha) (fun b hb => hopt x b hx hxne hb) hbody
            have h8 : k * x ≤ min (x + 0) (W - 1) * K := by
              rw [Nat.mul_comm, show min (x + 0) (W - 1) = x by omega]; exact Nat.mul_le_mul_left _ hk
            omega
        simp only [maxLength, Res.bind_eq_ok, e5] at hb
        obtain ⟨x, hx, em, hem', hb⟩ := hb
        have hxW := hoptW x hx
        have hemW := hemG.2.1 em hem'
        simp only [genBody, hps, Bool.false_eq_true, if_false] at hn
        split at hb
        · rename_i h0
          rw [if_pos h0] at hn
          simp only [Res.bind_eq_ok, Res.pure_eq] at hb
          obtain ⟨ex, h1, all, h2, hb⟩ := hb
          cases hb
          have hexW : ex < W := by
            have h1 := h1
            rw [add_eq hxW (by decide)] at h1
            unfold perElem at h1
            split at h1
            · cases h1; omega
            · have := mul_ok (by omega) (by omega) h1
              omega
          have hallW := mul_ok hemW (by omega) h2
          rw [add_eq (by omega) hexW] at hne ⊢
          have := body hx hem' (by omega) h1 h2 (by omega) (by omega) (Nat.le_refl _) hn
          omega
        · rename_i h0
          rw [if_neg h0] at hn
          split at hb
          · rename_i hc
            rw [if_pos hc] at hn
            obtain ⟨g, g1, g2, g3, _⟩ := slot_has hc
            rw [g1] at hb
            simp only [Res.bind_eq_ok, Res.pure_eq] at hb
            obtain ⟨cst, hcst, all, h2, ex, h1, hb⟩ := hb
            cases hb
            cases g with
            | int c' cst' =>
              simp only [countPrefix] at hcst
              cases hcst
              have hlg := hleafs _ (show Field.int c' cst ∈ _ by simp only [Field.subs, List.mem_append, g2]; simp)
              have hnum := numLen_good (int_len hlg)
              obtain ⟨y, k, m, hy, hk, hm, rfl⟩ := hn
              have hk' := announces_le hlg (((slot_gen g1 gv pl y).2.2.2 k).1 hk)
              have hy' : y ≤ cst.length := ih _ (show Field.int c' cst ∈ _ by simp only [Field.subs, List.mem_append, g2]; simp)
                cst.length y (by rw [maxLength]; rfl) (by have := int_len hlg; omega) ((slot_gen g1 gv _ y).1.1 hy)
              have hallW := mul_ok hemW (castU64_lt _) h2
              have hexW : ex < W := by
                have h1 := h1
                rw [add_eq hxW (by decide)] at h1
                unfold perElem at h1
                split at h1
                · cases h1; omega
                · have := mul_ok (by omega) (castU64_lt _) h1
                  omega
              simp only [IntF.maxLength] at hne ⊢
              rw [add_eq hnum.2.1 (by omega), add_eq hexW (by omega)] at hne ⊢
              have := body hx hem' (castU64_lt _) h1 h2 (by omega) (by omega) hk' hm
              omega
            | _ => simp [countPrefix] at hcst
          · rename_i hc
            rw [if_neg hc] at hn
            cases hb
            by_cases hll : l.has = true
            · rw [if_pos hll] at hn
              exact prefixed_leG (fun g hg => hleafs g (by simp [Field.subs, hg])) hne hn
                (fun g hg a ha b hb h => ih g (by simp [Field.subs, hg]) b a hb h ha)
            · have := slot_none (by simpa using hll)
              subst this
              exact absurd rfl hne

/-! ## The lower bound is reached -/

/-- Reached, or not a number of 64 bits. -/
def Reach (P : Nat → Prop) (a : Nat) : Prop := ∃ n, P n ∧ (n = a ∨ W - 1 ≤ n)

theorem elems_reach {elem pfx : Nat → Prop} {A B : Nat} (h1 : Reach elem A) (h2 : Reach pfx B) (k : Nat) :
    ∃ n, elems elem pfx k n ∧ (n = k * A + k * B ∨ W - 1 ≤ n) := by
  obtain ⟨a, ha, ca⟩ := h1
  obtain ⟨b, hb, cb⟩ := h2
  induction k with
  | zero => exact ⟨0, rfl, Or.inl (by omega)⟩
  | succ k ih =>
    obtain ⟨m, hm, cm⟩ := ih
    refine ⟨b + a + m, ⟨a, b, m, ha, hb, hm, rfl⟩, ?_⟩
    simp only [Nat.add_mul, Nat.one_mul]
    omega

theorem numLen_reach {st : IntF.State} (h : 0 < st.length) : numLen st.type st.length (IntF.minLength st) := by
  unfold numLen IntF.minLength
  split <;> omega

theorem attainF {g : GVer} {pl : Place} (f : Field) (hl : Hered Leaf f) (hbits : Hered BitsFit f) (hz : Hered EmptyOk f) (hf : Firm g pl f) (a : Nat)
    (ha : minLength f = .ok a) : Reach (genBytes g pl f) a := by
  induction hl generalizing pl a with
  | @mk f hleaf hs ih0 =>
    have ih : ∀ x ∈ f.subs, ∀ {pl : Place}, Firm g pl x → ∀ a, minLength x = .ok a → Reach (genBytes g pl x) a := fun x hx pl h a h1 =>
      ih0 x hx (hbits.subs x hx) (hz.subs x hx) h a h1
    have hps := (firm_here hf).2
    have hz0 := hz.self
    have hb0 := hbits.self
    suffices h : Reach (genBody g pl f) a by
      obtain ⟨n, h1, h2⟩ := h
      exact ⟨n, (firm_body hf n).2 h1, h2⟩
    cases f with
    | int c st =>
      simp only [Field.common] at hps
      simp only [Firm] at hf
      simp only [minLength] at ha
      cases ha
      refine ⟨_, ?_, Or.inl rfl⟩
      simp only [genBody, hps, limitedLen, hf.2.2]
      exact numLen_reach (int_len hleaf).1
    | enum c st =>
      simp only [Field.common] at hps
      simp only [Firm] at hf
      simp only [minLength] at ha
      cases ha
      refine ⟨_, ?_, Or.inl rfl⟩
      simp only [genBody, hps, limitedLen, hf.2.2]
      obtain ⟨b, hb⟩ := hleaf
      exact numLen_reach (enum_len hb).1
    | set c st =>
      simp only [Field.common] at hps
      simp only [Firm] at hf
      simp only [minLength, SetF.minLength] at ha
      cases ha
      refine ⟨_, ?_, Or.inl rfl⟩
      simp [genBody, hps, limitedLen, hf.2.2, numLen]
    | float c st =>
      simp only [Field.common] at hps
      simp only [minLength] at ha
      cases ha
      exact ⟨_, by simp [genBody, hps], Or.inl rfl⟩
    | bitfield c e ms cd =>
      simp only [Field.common] at hps
      simp only [minLength] at ha
      cases ha
      exact ⟨_, by simp only [genBody, hps]; rw [totalBits_eq ms hb0]; simp, Or.inl rfl⟩
    | bundle c ms al cd =>
      simp only [Field.common] at hps
      simp only [Firm] at hf
      simp only [minLength] at ha
      have : ∀ (ms : List Field), FirmAll g (.field c.w.since pl) ms → (∀ x ∈ ms, ∀ {pl : Place}, Firm g pl x → ∀ a, minLength x = .ok a → Reach (genBytes g pl x) a) →
          ∀ a, minSum ms = .ok a → Reach (genAll g (.field c.w.since pl) ms) a := by
        intro ms
        induction ms with
        | nil => intro _ _ a h1; simp only [minSum] at h1; cases h1; exact ⟨0, rfl, Or.inl rfl⟩
        | cons m ms ihm =>
          intro h1 h2 a h3
          simp only [FirmAll] at h1
          simp only [minSum, Res.bind_eq_ok, Res.pure_eq] at h3
          obtain ⟨x, hx, y, hy, h3⟩ := h3
          cases h3
          obtain ⟨x', hx', h5⟩ := h2 m (by simp) h1.1 x hx
          obtain ⟨y', hy', h6⟩ := ihm h1.2 (fun x hx => h2 x (by simp [hx])) y hy
          refine ⟨x' + y', ⟨x', y', hx', hy', rfl⟩, ?_⟩
          omega
      obtain ⟨n, h1, h2⟩ := this ms hf.2.2 (fun x hx pl h => ih x hx h) a ha
      exact ⟨n, by simp [genBody, hps, h1], h2⟩
    | variant c d ms => simp only [minLength] at ha; cases ha; exact ⟨0, by simp [genBody], Or.inl rfl⟩
    | optional c st fs cd => simp only [minLength] at ha; cases ha; exact ⟨0, by simp [genBody], Or.inl rfl⟩
    | ref c bl t =>
      simp only [Field.common] at hps
      simp only [Firm] at hf
      obtain ⟨x, e1, e2, e3, _⟩ := slot_has hleaf
      simp only [minLength, e3] at ha
      obtain ⟨n, h1, h2⟩ := ih x (by simp [Field.subs, e2]) (slot_firm e1 hf.2.2) a ha
      exact ⟨n, by simp [genBody, hps, (slot_gen e1 g _ n).1.2 h1], h2⟩
    | string c st p =>
      simp only [Field.common] at hps
      simp only [Firm] at hf
      simp only [minLength] at ha
      simp only [genBody, hps, Bool.false_eq_true, if_false]
      split at ha
      · rename_i h0; cases ha; exact ⟨_, by dsimp only; rw [if_pos h0], Or.inl rfl⟩
      · rename_i h0
        split at ha
        · rename_i hz1; cases ha; exact ⟨1, by dsimp only; rw [if_neg h0, if_pos hz1]; exact Nat.le_refl _, Or.inl rfl⟩
        · rename_i hz1
          rcases slot_cases (s := p) with rfl | ⟨x, e1, e2, _, e4, _⟩
          · simp only [minOr0] at ha; cases ha; exact ⟨0, by dsimp only; rw [if_neg h0, if_neg hz1]; simp [genPrefixed], Or.inl rfl⟩
          · obtain ⟨n, h1, h2⟩ := ih x (by simp [Field.subs, e2]) (slot_firm e1 hf.2.2) a (by rw [← e4]; exact ha)
            refine ⟨n, ?_, h2⟩
            dsimp only
            rw [if_neg h0, if_neg hz1]
            exact (slot_gen e1 g _ n).2.2.1.2 ⟨n, 0, h1, ((slot_gen e1 g pl n).2.2.2 0).1 hz0, rfl⟩
    | data c st p =>
      simp only [Field.common] at hps
      simp only [Firm] at hf
      simp only [minLength] at ha
      simp only [genBody, hps, Bool.false_eq_true, if_false]
      split at ha
      · rename_i h0; cases ha; exact ⟨_, by dsimp only; rw [if_pos h0], Or.inl rfl⟩
      · rename_i h0
        rcases slot_cases (s := p) with rfl | ⟨x, e1, e2, _, e4, _⟩
        · simp only [minOr0] at ha; cases ha; exact ⟨0, by dsimp only; rw [if_neg h0]; simp [genPrefixed], Or.inl rfl⟩
        · obtain ⟨n, h1, h2⟩ := ih x (by simp [Field.subs, e2]) (slot_firm e1 hf.2.2) a (by rw [← e4]; exact ha)
          refine ⟨n, ?_, h2⟩
          dsimp only
          rw [if_neg h0]
          exact (slot_gen e1 g _ n).2.2.1.2 ⟨n, 0, h1, ((slot_gen e1 g pl n).2.2.2 0).1 hz0, rfl⟩
    | list c st e cn l el t =>
      simp only [Field.common] at hps
      simp only [Firm] at hf
      obtain ⟨_, _, fe, fcn, fl, fel, ft⟩ := hf
      obtain ⟨hcount, he⟩ := hleaf
      obtain ⟨eg, e1, e2, e3, _⟩ := slot_has he
      have hem : ∀ em, minLength eg = .ok em → Reach (genSlot g (.field c.w.since pl) e) em := fun em h1 => by
        obtain ⟨n, h2, h3⟩ := ih eg (by simp [Field.subs, e2]) (slot_firm e1 fe) em h1
        exact ⟨n, (slot_gen e1 g _ n).1.2 h2, h3⟩
      have hopt : ∀ x, minOr0 el = .ok x → Reach (genOpt g (.field c.w.since pl) el) x := by
        intro x h1
        rcases slot_cases (s := el) with rfl | ⟨y, g1, g2, _, g4, _⟩
        · simp only [minOr0] at h1; cases h1; exact ⟨0, by simp [genOpt], Or.inl rfl⟩
        · obtain ⟨n, h2, h3⟩ := ih y (by simp [Field.subs, g2]) (slot_firm g1 fel) x (by rw [← g4]; exact h1)
          exact ⟨n, (slot_gen g1 g _ n).2.1.2 h2, h3⟩
      simp only [minLength, Res.bind_eq_ok, e3] at ha
      obtain ⟨x, hx, ha⟩ := ha
      simp only [genBody, hps, Bool.false_eq_true, if_false]
      split at ha
      · rename_i h0
        simp only [Res.bind_eq_ok, Res.pure_eq] at ha
        obtain ⟨em, hem', ha⟩ := ha
        cases ha
        obtain ⟨b, hb1, hb2⟩ := hopt x hx
        by_cases hfx : st.elemFixedLength = true
        · obtain ⟨m, hm1, hm2⟩ := elems_reach (hem em hem') (⟨0, rfl, Or.inl rfl⟩ : Reach (· = 0) 0) st.count
          refine ⟨b + m, ?_, ?_⟩
          · dsimp only
            rw [if_pos h0]
            unfold listBody
            rw [if_pos hfx]
            exact Or.inr ⟨b, m, hb1, hm1, rfl⟩
          · rw [if_pos hfx]
            rcases Nat.lt_or_ge (b + m) (W - 1) with h | h
            · left
              have h7 : b = x := by omega
              have h8 : m = st.count * em := by omega
              subst h7; subst h8
              rw [Nat.mod_eq_of_lt (by omega : st.count * em < W), Nat.mod_eq_of_lt (by omega)]
              omega
            · exact Or.inr h
        · obtain ⟨m, hm1, hm2⟩ := elems_reach (hem em hem') (hopt x hx) st.count
          refine ⟨m, ?_, ?_⟩
          · dsimp only
            rw [if_pos h0]
            unfold listBody
            rw [if_neg hfx]
            exact hm1
          · rw [if_neg hfx]
            rcases Nat.lt_or_ge m (W - 1) with h | h
            · left
              have h8 : m = st.count * em + st.count * x := by omega
              rw [Nat.mul_comm x st.count, Nat.mod_eq_of_lt (by omega : st.count * em < W), Nat.mod_eq_of_lt (by omega : st.count * x < W), Nat.mod_eq_of_lt (by omega)]
              exact h8
            · exact Or.inr h
      · rename_i h0
        split at ha
        · rename_i hc
          obtain ⟨x', g1, g2, g3, _⟩ := slot_has hc
          obtain ⟨n, h1, h2⟩ := ih x' (by simp [Field.subs, g2]) (slot_firm g1 fcn) a (by rw [← g3]; exact ha)
          refine ⟨n, ?_, h2⟩
          dsimp only
          rw [if_neg h0, if_pos hc]
          refine ⟨n, 0, 0, (slot_gen g1 g _ n).1.2 h1, hz0.1, ?_, rfl⟩
          unfold listBody
          split
          · exact Or.inl ⟨rfl, rfl⟩
          · rfl
        · rename_i hc
          split at ha
          · rename_i hc2
            obtain ⟨x', g1, g2, g3, _⟩ := slot_has hc2
            obtain ⟨n, h1, h2⟩ := ih x' (by simp [Field.subs, g2]) (slot_firm g1 fl) a (by rw [← g3]; exact ha)
            refine ⟨n, ?_, h2⟩
            dsimp only
            rw [if_neg h0, if_neg hc, if_pos hc2]
            exact (slot_gen g1 g _ n).2.2.1.2 ⟨n, 0, h1, ((slot_gen g1 g pl n).2.2.2 0).1 hz0.2, rfl⟩
          · rename_i hc2
            rcases slot_cases (s := t) with rfl | ⟨x', g1, g2, _, g4, _⟩
            · simp only [minOr0] at ha; cases ha
              exact ⟨0, by dsimp only; rw [if_neg h0, if_neg hc, if_neg hc2]; simp [Slot.has, Slot.get?], Or.inl rfl⟩
            · have ht : t.has = true := by simp [Slot.has, g1]
              obtain ⟨n, h1, h2⟩ := ih x' (by simp [Field.subs, g2]) (slot_firm g1 ft) a (by rw [← g4]; exact ha)
              refine ⟨n, ?_, h2⟩
              dsimp only
              rw [if_neg h0, if_neg hc, if_neg hc2, if_pos ht]
              exact ⟨n, 0, (slot_gen g1 g _ n).1.2 h1, rfl⟩

/-! ## The lengths the generator computes -/

/-- Fields whose minimal length is taken from the parser. -/
def Other : Field → Prop
  | .int .. | .enum .. | .set .. | .bundle .. | .ref .. => False
  | _ => True

instance (f : Field) : Decidable (Other f) := by cases f <;> first | exact .isTrue trivial | exact .isFalse id

theorem countable_firm {g : GVer} {pl : Place} {f : Field} (h : Countable g pl f) (hv : versionOpt g pl f = false)
    (hk : Other f) : Firm g pl f := by
  cases f <;> simp only [Countable, Field.common] at h <;> first | exact hk.elim | exact ⟨hv, h⟩

theorem commsMin_eq {g : GVer} {pl : Place} {f : Field} (hk : Other f) :
    commsMinImpl g pl f = minLength f := by
  cases f <;> first | exact hk.elim | simp only [commsMinImpl]

theorem target_eq {g : GVer} {pl : Place} {s : Slot Field} {x : Field} (h : s.get? = some x) : commsMinTarget g pl s = commsMin g (slotPl pl s) x := by
  cases s with
  | none => simp [Slot.get?] at h
  | ext f => simp only [Slot.get?, Option.some.injEq] at h; subst h; unfold commsMinTarget commsMin slotPl; rfl
  | own f => simp only [Slot.get?, Option.some.injEq] at h; subst h; unfold commsMinTarget commsMin slotPl; rfl

theorem sum_lower {g : GVer} {pl : Place} (ms : List Field) (hc : CountableAll g pl ms)
    (h : ∀ x ∈ ms, ∀ {pl : Place}, Countable g pl x → ∀ a n, commsMin g pl x = .ok a → genBytes g pl x n → a ≤ n) :
    ∀ s a n, commsMinSum g pl ms s = .ok a → genAll g pl ms n → a ≤ s + n := by
  induction ms with
  | nil => intro s a n h1 _; simp only [commsMinSum] at h1; cases h1; omega
  | cons m ms ih =>
    intro s a n h1 h2
    simp only [CountableAll] at hc
    simp only [commsMinSum, Res.bind_eq_ok] at h1
    obtain ⟨x, hx, h1⟩ := h1
    simp only [genAll] at h2
    obtain ⟨x', y', hx', hy', rfl⟩ := h2
    have h3 := h m (by simp) hc.1 x x' hx hx'
    have h4 := ih hc.2 (fun x hx => h x (by simp [hx])) _ a y' h1 hy'
    have := addLength_le s x
    omega

theorem sum_attain {g : GVer} {pl : Place} (ms : List Field) (hc : CountableAll g pl ms)
    (h : ∀ x ∈ ms, ∀ {pl : Place}, Countable g pl x → ∀ a, commsMin g pl x = .ok a → Reach (genBytes g pl x) a) :
    ∀ s a, commsMinSum g pl ms s = .ok a → ∃ n, genAll g pl ms n ∧ (s + n = a ∨ W - 1 ≤ s + n) := by
  induction ms with
  | nil => intro s a h1; simp only [commsMinSum] at h1; cases h1; exact ⟨0, rfl, Or.inl rfl⟩
  | cons m ms ih =>
    intro s a h1
    simp only [CountableAll] at hc
    simp only [commsMinSum, Res.bind_eq_ok] at h1
    obtain ⟨x, hx, h1⟩ := h1
    obtain ⟨x', hx', h3⟩ := h m (by simp) hc.1 x hx
    obtain ⟨y', hy', h4⟩ := ih hc.2 (fun x hx => h x (by simp [hx])) _ a h1
    refine ⟨x' + y', ⟨x', y', hx', hy', rfl⟩, ?_⟩
    rcases addLength_cases s x with ⟨e1, e2⟩ | ⟨e1, e2⟩ <;> rw [e1] at h4 <;> omega

theorem lowerC {g : GVer} {pl : Place} (f : Field) (hl : Hered Leaf f) (hc : Countable g pl f) (a n : Nat) (ha : commsMin g pl f = .ok a)
    (hn : genBytes g pl f n) : a ≤ n := by
  induction hl generalizing pl a n with
  | @mk f hleaf hs ih =>
    unfold commsMin at ha
    split at ha
    · cases ha; exact Nat.zero_le _
    rename_i hv
    have hv : versionOpt g pl f = false := by simpa using hv
    by_cases hk : Other f
    · rw [commsMin_eq hk] at ha
      exact lowerF f (.mk hleaf hs) (countable_firm hc hv hk) a n ha hn
    have hn : genBody g pl f n := by
      rcases hn with ⟨h, _⟩ | h
      · rw [hv] at h; cases h
      · exact h
    cases f with
    | int c st =>
      simp only [Countable, Field.common] at hc
      simp only [commsMinImpl] at ha
      cases ha
      simp [genBody, hc, limitedLen] at hn
      split
      · rename_i h; rw [if_pos h] at hn; exact hn.1
      · rename_i h; rw [if_neg h] at hn; exact minLength_num hn
    | enum c st =>
      simp only [Countable, Field.common] at hc
      simp only [commsMinImpl] at ha
      cases ha
      simp [genBody, hc, limitedLen] at hn
      split
      · rename_i h; rw [if_pos h] at hn; exact hn.1
      · rename_i h; rw [if_neg h] at hn; exact minLength_num hn
    | set c st =>
      simp only [Countable, Field.common] at hc
      simp only [commsMinImpl] at ha
      cases ha
      simp [genBody, hc, limitedLen] at hn
      split
      · rename_i h; rw [if_pos h] at hn; exact hn.1
      · rename_i h; rw [if_neg h] at hn; simp [numLen] at hn; unfold SetF.minLength; omega
    | bundle c ms al cd =>
      simp only [Countable] at hc
      simp only [commsMinImpl] at ha
      simp [genBody, hc.1] at hn
      have := sum_lower ms hc.2 (fun x hx pl h a n => ih x hx h a n) 0 a n ha hn
      omega
    | ref c b t =>
      simp only [Countable] at hc
      obtain ⟨x, e1, e2, _⟩ := slot_has hleaf
      simp only [commsMinImpl, target_eq e1] at ha
      simp [genBody, hc.1] at hn
      exact ih x (by simp [Field.subs, e2]) (slot_countable e1 hc.2) a n ha ((slot_gen e1 g _ n).1.1 hn)
    | _ => exact absurd trivial hk

theorem attainC {g : GVer} {pl : Place} (f : Field) (hl : Hered Leaf f) (hbits : Hered BitsFit f) (hz : Hered EmptyOk f) (hc : Countable g pl f) (a : Nat)
    (ha : commsMin g pl f = .ok a) : Reach (genBytes g pl f) a := by
  induction hl generalizing pl a with
  | @mk f hleaf hs ih0 =>
    have ih : ∀ x ∈ f.subs, ∀ {pl : Place}, Countable g pl x → ∀ a, commsMin g pl x = .ok a → Reach (genBytes g pl x) a := fun x hx pl h a h1 =>
      ih0 x hx (hbits.subs x hx) (hz.subs x hx) h a h1
    unfold commsMin at ha
    split at ha
    · rename_i hv; cases ha; exact ⟨0, Or.inl ⟨hv, rfl⟩, Or.inl rfl⟩
    rename_i hv
    have hv : versionOpt g pl f = false := by simpa using hv
    by_cases hk : Other f
    · rw [commsMin_eq hk] at ha
      exact attainF f (.mk hleaf hs) hbits hz (countable_firm hc hv hk) a ha
    suffices h : Reach (genBody g pl f) a by
      obtain ⟨n, h1, h2⟩ := h
      exact ⟨n, Or.inr h1, h2⟩
    cases f with
    | int c st =>
      simp only [Countable, Field.common] at hc
      simp only [commsMinImpl] at ha
      have hlen := (int_len hleaf).1
      cases ha
      refine ⟨_, ?_, Or.inl rfl⟩
      simp only [genBody, hc, limitedLen, Bool.false_eq_true, if_false]
      split
      · exact ⟨Nat.le_refl _, hlen⟩
      · exact numLen_reach hlen
    | enum c st =>
      simp only [Countable, Field.common] at hc
      simp only [commsMinImpl] at ha
      obtain ⟨b, hb⟩ := hleaf
      have hlen := (enum_len hb).1
      cases ha
      refine ⟨_, ?_, Or.inl rfl⟩
      simp only [genBody, hc, limitedLen, Bool.false_eq_true, if_false]
      split
      · exact ⟨Nat.le_refl _, hlen⟩
      · exact numLen_reach hlen
    | set c st =>
      simp only [Countable, Field.common] at hc
      simp only [commsMinImpl] at ha
      have hlen := (set_len hleaf).1
      cases ha
      refine ⟨_, ?_, Or.inl rfl⟩
      simp only [genBody, hc, limitedLen, Bool.false_eq_true, if_false]
      split
      · exact ⟨Nat.le_refl _, hlen⟩
      · simp [numLen, SetF.minLength]
    | bundle c ms al cd =>
      simp only [Countable] at hc
      simp only [commsMinImpl] at ha
      obtain ⟨n, h1, h2⟩ := sum_attain ms hc.2 (fun x hx pl h a => ih x hx h a) 0 a ha
      exact ⟨n, by simp [genBody, hc.1, h1], by omega⟩
    | ref c b t =>
      simp only [Countable] at hc
      obtain ⟨x, e1, e2, _⟩ := slot_has hleaf
      simp only [commsMinImpl, target_eq e1] at ha
      obtain ⟨n, h1, h2⟩ := ih x (by simp [Field.subs, e2]) (slot_countable e1 hc.2) a ha
      exact ⟨n, by simp [genBody, hc.1, (slot_gen e1 g _ n).1.2 h1], h2⟩
    | _ => exact absurd trivial hk

theorem maxTarget_eq {s : Slot Field} {x : Field} (h : s.get? = some x) : commsMaxTarget s = commsMax x := by
  cases s with
  | none => simp [Slot.get?] at h
  | ext f => simp only [Slot.get?, Option.some.injEq] at h; subst h; simp [commsMaxTarget, commsMax]
  | own f => simp only [Slot.get?, Option.some.injEq] at h; subst h; simp [commsMaxTarget, commsMax]

theorem maxSum_full (ms : List Field) (b : Nat) (h : commsMaxSum ms (W - 1) = .ok b) : b = W - 1 := by
  induction ms with
  | nil => simp only [commsMaxSum] at h; cases h; rfl
  | cons m ms ih =>
    simp only [commsMaxSum, Res.bind_eq_ok] at h
    obtain ⟨x, _, h⟩ := h
    rcases addLength_cases (W - 1) x with ⟨e, _⟩ | ⟨_, e⟩
    · rw [e] at h; exact ih h
    · omega

theorem maxSum_le (ms : List Field) (s b : Nat) (hs : s ≤ W - 1) (h : commsMaxSum ms s = .ok b) : b ≤ W - 1 := by
  induction ms generalizing s with
  | nil => simp only [commsMaxSum] at h; cases h; exact hs
  | cons m ms ih =>
    simp only [commsMaxSum, Res.bind_eq_ok] at h
    obtain ⟨x, _, h⟩ := h
    refine ih _ ?_ h
    rcases addLength_cases s x with ⟨e, _⟩ | ⟨e, _⟩ <;> omega

theorem sum_upper {g : GVer} {pl : Place} (ms : List Field)
    (h : ∀ x ∈ ms, ∀ {pl : Place} b n, commsMax x = .ok b → b < W - 1 → genBytes g pl x n → n ≤ b) :
    ∀ s b n, commsMaxSum ms s = .ok b → b < W - 1 → genAll g pl ms n → s + n ≤ b := by
  induction ms with
  | nil => intro s b n h1 _ h2; simp only [commsMaxSum] at h1; cases h1; simp only [genAll] at h2; omega
  | cons m ms ih =>
    intro s b n h1 hb h2
    simp only [commsMaxSum, Res.bind_eq_ok] at h1
    obtain ⟨x, hx, h1⟩ := h1
    simp only [genAll] at h2
    obtain ⟨x', y', hx', hy', rfl⟩ := h2
    rcases addLength_cases s x with ⟨e, _⟩ | ⟨e, e'⟩
    · rw [e] at h1
      have := maxSum_full ms b h1
      omega
    · rw [e] at h1
      have h3 := ih (fun x hx => h x (by simp [hx])) _ b y' h1 hb hy'
      have h4 := h m (by simp) x x' hx (by omega) hx'
      omega

theorem maxMax_ge (ms : List Field) (s b : Nat) (h : commsMaxMax ms s = .ok b) : s ≤ b := by
  induction ms generalizing s with
  | nil => simp only [commsMaxMax] at h; cases h; exact Nat.le_refl _
  | cons m ms ih =>
    simp only [commsMaxMax, Res.bind_eq_ok] at h
    obtain ⟨x, _, h⟩ := h
    have := ih _ h
    omega

theorem max_upper {g : GVer} {pl : Place} (ms : List Field)
    (h : ∀ x ∈ ms, ∀ {pl : Place} b n, commsMax x = .ok b → b < W - 1 → genBytes g pl x n → n ≤ b) :
    ∀ s b n, commsMaxMax ms s = .ok b → b < W - 1 → genAny g pl ms n → n ≤ b := by
  induction ms with
  | nil => intro s b n _ _ h2; simp [genAny] at h2
  | cons m ms ih =>
    intro s b n h1 hb h2
    simp only [commsMaxMax, Res.bind_eq_ok] at h1
    obtain ⟨x, hx, h1⟩ := h1
    have := maxMax_ge ms _ b h1
    simp only [genAny] at h2
    rcases h2 with h2 | h2
    · have := h m (by simp) x n hx (by omega) h2
      omega
    · exact ih (fun x hx => h x (by simp [hx])) _ b n h1 hb h2

theorem upperC {g : GVer} {pl : Place} (f : Field) (hl : Hered Leaf f) (hz : Hered ZeroOk f) (hp : Hered BitsFit f) (b n : Nat) (hb : commsMax f = .ok b)
    (hlt : b < W - 1) (hn : genBytes g pl f n) : n ≤ b := by
  induction hl generalizing pl b n with
  | @mk f hleaf hs ih0 =>
    have ih : ∀ x ∈ f.subs, ∀ {pl : Place} b n, commsMax x = .ok b → b < W - 1 → genBytes g pl x n → n ≤ b := fun x hx pl b n =>
      ih0 x hx (hz.subs x hx) (hp.subs x hx) b n
    have hP : maxLength f = .ok b → n ≤ b := fun h => upperP f (.mk hleaf hs) hz hp b n h (by omega) hn
    unfold commsMax at hb
    split at hb
    · cases hb; unfold maxPossible at hlt; omega
    rcases hn with ⟨_, rfl⟩ | hn
    · exact Nat.zero_le _
    by_cases hps : f.common.pseudo = true
    · have : n = 0 := by cases f <;> (simp only [Field.common] at hps; simpa [genBody, hps] using hn)
      omega
    have hps : f.common.pseudo = false := by simpa using hps
    cases f with
    | int c st => simp only [commsMaxImpl] at hb; exact hP hb
    | enum c st => simp only [commsMaxImpl] at hb; exact hP hb
    | set c st => simp only [commsMaxImpl] at hb; exact hP hb
    | float c st => simp only [commsMaxImpl] at hb; exact hP hb
    | bitfield c e ms cd => simp only [commsMaxImpl] at hb; exact hP hb
    | string c st p =>
      simp only [commsMaxImpl] at hb
      split at hb
      · exact hP hb
      · cases hb; unfold maxPossible at hlt; omega
    | data c st p =>
      simp only [commsMaxImpl] at hb
      split at hb
      · exact hP hb
      · cases hb; unfold maxPossible at hlt; omega
    | list c st e cn l el t =>
      simp only [commsMaxImpl] at hb
      split at hb
      · exact hP hb
      · cases hb; unfold maxPossible at hlt; omega
    | bundle c ms al cd =>
      simp only [Field.common] at hps
      simp only [commsMaxImpl] at hb
      simp [genBody, hps] at hn
      have := sum_upper ms (fun x hx pl b n => ih x hx b n) 0 b n hb hlt hn
      omega
    | variant c d ms =>
      simp only [Field.common] at hps
      simp only [commsMaxImpl] at hb
      simp [genBody, hps] at hn
      rcases hn with rfl | hn
      · exact Nat.zero_le _
      · exact max_upper ms (fun x hx pl b n => ih x hx b n) 0 b n hb hlt hn
    | ref c bl t =>
      simp only [Field.common] at hps
      obtain ⟨x, e1, e2, _⟩ := slot_has hleaf
      simp only [commsMaxImpl, maxTarget_eq e1] at hb
      simp [genBody, hps] at hn
      exact ih x (by simp [Field.subs, e2]) b n hb hlt ((slot_gen e1 g _ n).1.1 hn)
    | optional c st fs cd =>
      simp only [Field.common] at hps
      obtain ⟨x, e1, e2, _⟩ := slot_has hleaf
      simp only [commsMaxImpl, maxTarget_eq e1] at hb
      simp [genBody, hps] at hn
      rcases hn with rfl | hn
      · exact Nat.zero_le _
      · exact ih x (by simp [Field.subs, e2]) b n hb hlt ((slot_gen e1 g _ n).1.1 hn)

end LenProofs
end Commsdsl.Props
