import Verif.Props.FieldLength
/-!
# C23: reported lengths bound every serialisation
-/
namespace Commsdsl.Props
open Commsdsl Fld Spec Text LengthProofs

namespace SerProofs

local notation "W" => (18446744073709551616 : Nat)

/-- Nothing is missing in version `v`: no pseudo fields, all members exist. -/
def Present (v : Nat) (f : Field) : Prop := f.common.pseudo = false ∧ ∀ m ∈ f.members, existsIn v m = true

/-- The member bits of a bitfield add up to a 64-bit number. -/
def BitsFit : Field → Prop
  | .bitfield _ _ ms _ => bitSum ms < 2 ^ 64
  | _ => True

theorem slot_ser {s : Slot Field} {g : Field} (h : s.get? = some g) (v n : Nat) : (serSlot v s n ↔ ser v g n) ∧ (serOpt v s n ↔ ser v g n) ∧
    (serPrefixed v s n ↔ ∃ a m, ser v g a ∧ announces m g ∧ n = a + m) ∧ (∀ m, announcesSlot m s ↔ announces m g) := by
  cases s with
  | none => simp [Slot.get?] at h
  | ext f => simp only [Slot.get?, Option.some.injEq] at h; subst h; simp [serSlot, serOpt, serPrefixed, announcesSlot]
  | own f => simp only [Slot.get?, Option.some.injEq] at h; subst h; simp [serSlot, serOpt, serPrefixed, announcesSlot]

theorem elems_le {elem pfx : Nat → Prop} {A B : Nat} (h1 : ∀ a, elem a → a ≤ A) (h2 : ∀ b, pfx b → b ≤ B) :
    ∀ {k n : Nat}, elems elem pfx k n → n ≤ k * A + k * B := by
  intro k
  induction k with
  | zero => intro n h; simp only [elems] at h; omega
  | succ k ih =>
    intro n h
    obtain ⟨a, b, m, ha, hb, hm, rfl⟩ := h
    have := ih hm; have := h1 a ha; have := h2 b hb
    simp only [Nat.add_mul, Nat.one_mul]
    omega

theorem le_elems {elem pfx : Nat → Prop} {A B : Nat} (h1 : ∀ a, elem a → A ≤ a) (h2 : ∀ b, pfx b → B ≤ b) :
    ∀ {k n : Nat}, elems elem pfx k n → k * A + k * B ≤ n := by
  intro k
  induction k with
  | zero => intro n h; simp only [elems] at h; omega
  | succ k ih =>
    intro n h
    obtain ⟨a, b, m, ha, hb, hm, rfl⟩ := h
    have := ih hm; have := h1 a ha; have := h2 b hb
    simp only [Nat.add_mul, Nat.one_mul]
    omega

theorem totalBits_le (ms : List Field) : totalBits ms ≤ bitSum ms := by
  induction ms with
  | nil => exact Nat.le_refl _
  | cons m ms ih =>
    simp only [totalBits, bitSum]
    have := Nat.mod_le (m.bitLength + totalBits ms) 18446744073709551616
    omega

theorem totalBits_eq (ms : List Field) (h : bitSum ms < 2 ^ 64) : totalBits ms = bitSum ms := by
  induction ms with
  | nil => rfl
  | cons m ms ih =>
    simp only [totalBits, bitSum] at h ⊢
    rw [ih (by omega), Nat.mod_eq_of_lt (by omega)]

theorem minLength_num {st : IntF.State} {n : Nat} (h : numLen st.type st.length n) : IntF.minLength st ≤ n := by
  unfold numLen at h
  unfold IntF.minLength
  split at h
  · rename_i ht; rw [if_pos ht]; exact h.1
  · rename_i ht; rw [if_neg ht]; omega

theorem num_le {t : Option IntF.IntType} {l n : Nat} (h : numLen t l n) : n ≤ l := by
  unfold numLen at h
  split at h <;> omega

theorem slot_none {s : Slot Field} (h : s.has = false) : s = .none := by
  rcases slot_cases (s := s) with h1 | ⟨g, e1, _⟩
  · exact h1
  · simp [Slot.has, e1] at h

theorem lower {v : Nat} (f : Field) (hl : Hered Leaf f) (hp : Hered (Present v) f) (a n : Nat) (ha : minLength f = .ok a) (hn : ser v f n) :
    a ≤ n := by
  induction hl generalizing a n with
  | @mk f hleaf hs ih0 =>
    have ih : ∀ g ∈ f.subs, ∀ a n, minLength g = .ok a → ser v g n → a ≤ n := fun g hg a n => ih0 g hg (hp.subs g hg) a n
    obtain ⟨hps, hex⟩ := hp.self
    cases f with
    | int c st =>
      simp only [Field.common] at hps
      simp only [minLength] at ha
      simp only [ser, hps] at hn
      cases ha; exact minLength_num (by simpa using hn)
    | enum c st =>
      simp only [Field.common] at hps
      simp only [minLength] at ha
      simp only [ser, hps] at hn
      cases ha; exact minLength_num (by simpa using hn)
    | set c st =>
      simp only [Field.common] at hps
      simp only [minLength, SetF.minLength] at ha
      simp only [ser, hps] at hn
      cases ha; simp at hn; omega
    | float c st =>
      simp only [Field.common] at hps
      simp only [minLength] at ha
      simp only [ser, hps] at hn
      cases ha; simp at hn; omega
    | bitfield c e ms cd =>
      simp only [Field.common] at hps
      simp only [minLength] at ha
      simp only [ser, hps] at hn
      cases ha; simp at hn
      have := totalBits_le ms
      omega
    | bundle c ms al cd =>
      simp only [Field.common] at hps
      simp only [minLength] at ha
      simp [ser, hps] at hn
      have : ∀ (ms : List Field), (∀ m ∈ ms, existsIn v m = true) → (∀ g ∈ ms, ∀ a n, minLength g = .ok a → ser v g n → a ≤ n) →
          ∀ a n, minSum ms = .ok a → serAll v ms n → a ≤ n := by
        intro ms
        induction ms with
        | nil => intro _ _ a n h1 _; simp only [minSum] at h1; cases h1; exact Nat.zero_le _
        | cons m ms ihm =>
          intro h1 h2 a n h3 h4
          simp only [minSum, Res.bind_eq_ok, Res.pure_eq] at h3
          obtain ⟨x, hx, y, hy, h3⟩ := h3
          cases h3
          simp only [serAll, h1 m (by simp), if_true] at h4
          obtain ⟨x', y', hx', hy', rfl⟩ := h4
          have h5 := h2 m (by simp) x x' hx hx'
          have h6 := ihm (fun m hm => h1 m (by simp [hm])) (fun g hg => h2 g (by simp [hg])) y y' hy hy'
          have := Nat.mod_le (x + y) W
          omega
      exact this ms hex ih a n ha hn
    | variant c d ms => simp only [minLength] at ha; cases ha; exact Nat.zero_le _
    | optional c st fs cd => simp only [minLength] at ha; cases ha; exact Nat.zero_le _
    | ref c bl t =>
      simp only [Field.common] at hps
      obtain ⟨g, e1, e2, e3, _⟩ := slot_has hleaf
      simp only [minLength, e3] at ha
      simp [ser, hps] at hn
      exact ih g (by simp [Field.subs, e2]) a n ha ((slot_ser e1 v n).1.1 hn)
    | string c st p =>
      simp only [Field.common] at hps
      simp only [minLength] at ha
      simp only [ser, hps, Bool.false_eq_true, if_false] at hn
      split at ha
      · rename_i h0; rw [if_pos h0] at hn; cases ha; omega
      · rename_i h0; rw [if_neg h0] at hn
        split at ha
        · rename_i hz; rw [if_pos hz] at hn; cases ha; omega
        · rename_i hz; rw [if_neg hz] at hn
          rcases slot_cases (s := p) with rfl | ⟨g, e1, e2, _, e4, _⟩
          · simp only [minOr0] at ha; cases ha; exact Nat.zero_le _
          · obtain ⟨x, m, h1, _, rfl⟩ := (slot_ser e1 v n).2.2.1.1 hn
            have := ih g (by simp [Field.subs, e2]) a x (by rw [← e4]; exact ha) h1
            omega
    | data c st p =>
      simp only [Field.common] at hps
      simp only [minLength] at ha
      simp only [ser, hps, Bool.false_eq_true, if_false] at hn
      split at ha
      · rename_i h0; rw [if_pos h0] at hn; cases ha; omega
      · rename_i h0; rw [if_neg h0] at hn
        rcases slot_cases (s := p) with rfl | ⟨g, e1, e2, _, e4, _⟩
        · simp only [minOr0] at ha; cases ha; exact Nat.zero_le _
        · obtain ⟨x, m, h1, _, rfl⟩ := (slot_ser e1 v n).2.2.1.1 hn
          have := ih g (by simp [Field.subs, e2]) a x (by rw [← e4]; exact ha) h1
          omega
    | list c st e cn l el t =>
      simp only [Field.common] at hps
      obtain ⟨hcount, he⟩ := hleaf
      obtain ⟨eg, e1, e2, e3, _⟩ := slot_has he
      have hem : ∀ em n, minLength eg = .ok em → serSlot v e n → em ≤ n := fun em n h1 h2 =>
        ih eg (by simp [Field.subs, e2]) em n h1 ((slot_ser e1 v n).1.1 h2)
      have hopt : ∀ x n, minOr0 el = .ok x → serOpt v el n → x ≤ n := by
        intro x n h1 h2
        rcases slot_cases (s := el) with rfl | ⟨g, g1, g2, _, g4, _⟩
        · simp only [minOr0] at h1; cases h1; exact Nat.zero_le _
        · exact ih g (by simp [Field.subs, g2]) x n (by rw [← g4]; exact h1) ((slot_ser g1 v n).2.1.1 h2)
      simp only [minLength, Res.bind_eq_ok, e3] at ha
      obtain ⟨x, hx, ha⟩ := ha
      simp only [ser, hps, Bool.false_eq_true, if_false] at hn
      split at ha
      · rename_i h0
        rw [if_pos h0] at hn
        simp only [Res.bind_eq_ok, Res.pure_eq] at ha
        obtain ⟨em, hem', ha⟩ := ha
        cases ha
        have m1 := Nat.mod_le (st.count * em) W
        unfold listBody at hn
        split at hn
        · rename_i hf
          rw [if_pos hf]
          rcases hn with ⟨hk, _⟩ | ⟨b, m, hb, hm, rfl⟩
          · exact absurd hk h0
          · have h3 := le_elems (A := em) (B := 0) (fun a ha => hem em a hem' ha) (fun b hb => Nat.zero_le _) hm
            have h4 := hopt x b hx hb
            have m2 := Nat.mod_le (st.count * em % W + x) W
            omega
        · rename_i hf
          rw [if_neg hf]
          have h3 := le_elems (A := em) (B := x) (fun a ha => hem em a hem' ha) (fun b hb => hopt x b hx hb) hn
          have m2 := Nat.mod_le (st.count * em % W + x * st.count % W) W
          have m3 := Nat.mod_le (x * st.count) W
          rw [Nat.mul_comm st.count x] at h3
          omega
      · rename_i h0
        rw [if_neg h0] at hn
        split at ha
        · rename_i hc
          rw [if_pos hc] at hn
          obtain ⟨g, g1, g2, g3, _⟩ := slot_has hc
          obtain ⟨y, k, m, hy, _, _, rfl⟩ := hn
          have := ih g (by simp [Field.subs, g2]) a y (by rw [← g3]; exact ha) ((slot_ser g1 v y).1.1 hy)
          omega
        · rename_i hc
          rw [if_neg hc] at hn
          split at ha
          · rename_i hc
            rw [if_pos hc] at hn
            obtain ⟨g, g1, g2, g3, _⟩ := slot_has hc
            obtain ⟨y, m, hy, _, rfl⟩ := (slot_ser g1 v n).2.2.1.1 hn
            have := ih g (by simp [Field.subs, g2]) a y (by rw [← g3]; exact ha) hy
            omega
          · rename_i hc
            rw [if_neg hc] at hn
            rcases slot_cases (s := t) with rfl | ⟨g, g1, g2, _, g4, _⟩
            · simp only [minOr0] at ha; cases ha; exact Nat.zero_le _
            · have ht : t.has = true := by simp [Slot.has, g1]
              rw [if_pos ht] at hn
              obtain ⟨y, m, hy, rfl⟩ := hn
              have := ih g (by simp [Field.subs, g2]) a y (by rw [← g4]; exact ha) ((slot_ser g1 v y).1.1 hy)
              omega

theorem announces_le {m : Nat} {c : Common} {st : IntF.State} (ha : IntF.Accepted st) (h : announces m (.int c st)) :
    m ≤ castU64 st.max := by
  obtain ⟨t, _, h⟩ := h
  have := accepted_max_le ha
  unfold Spec.interp at h
  unfold castU64
  split at h <;> omega

/-- The upper bound for sequences with a length prefix. -/
theorem prefixed_le {v : Nat} {s : Slot Field} (hl : ∀ g ∈ s.toList, Leaf g) {n : Nat} (hne : prefixedMax s.get? ≠ W - 1) (h : serPrefixed v s n)
    (h0 : ∀ g ∈ s.toList, ∀ a, ser v g a → ∀ b, maxLength g = .ok b → b ≠ W - 1 → a ≤ b) : n ≤ prefixedMax s.get? := by
  rcases slot_cases (s := s) with rfl | ⟨g, e1, e2, _⟩
  · exact absurd rfl hne
  · rw [e1] at hne ⊢
    obtain ⟨a, m, ha, hm, rfl⟩ := (slot_ser e1 v n).2.2.1.1 h
    cases g with
    | int c st =>
      have hacc : IntF.Accepted st := hl (.int c st) (by simp [e2])
      have hlen := int_len hacc
      have hn := numLen_good hlen
      have h1 := announces_le hacc hm
      have h2 : a ≤ st.length := h0 _ (by simp [e2]) a ha st.length (by rw [maxLength]; rfl) (by omega)
      simp only [prefixedMax, IntF.maxLength] at hne ⊢
      rw [add_eq (castU64_lt _) hn.2.1] at hne ⊢
      omega
    | _ => exact absurd rfl hne

/-- Zero terminated strings have no length prefix. -/
def ZeroOk : Field → Prop
  | .string _ st p => st.zeroSuffix = true → p.has = false
  | _ => True

theorem obj_zero {f : Field} (h : Obj f) : Hered ZeroOk f := by
  refine obj_hered (P := ZeroOk) ?_ ?_ ?_ f h
  · intro f hf
    have hf := hf.self
    cases f <;> simp only [ZeroOk, clone, cloneSlot_has] at hf ⊢ <;> exact hf
  · intro s f hf
    cases f <;> exact hf
  · intro env pc parent node f hf _ _ _
    cases f with
    | string c st p =>
      obtain ⟨b, st0, p0, _, h2⟩ := string_inv hf
      obtain ⟨_, _, _, _, h3, h4, _⟩ := stringImpl_frame h2
      simp only at h3 h4
      intro hz
      cases hp : p.has with
      | false => rfl
      | true =>
        have := (h3 hp).2
        rcases h4 hz with h | h
        · rw [this] at h; cases h
        · rw [hp] at h; cases h.2
    | _ => trivial

theorem upper {v : Nat} (f : Field) (hl : Hered Leaf f) (hz : Hered ZeroOk f) (hp : Hered BitsFit f) (b n : Nat) (hb : maxLength f = .ok b) (hne : b ≠ W - 1)
    (hn : ser v f n) : n ≤ b := by
  induction hl generalizing b n with
  | @mk f hleaf hs ih0 =>
    have ih : ∀ g ∈ f.subs, ∀ b n, maxLength g = .ok b → b ≠ W - 1 → ser v g n → n ≤ b := fun g hg b n => ih0 g hg (hz.subs g hg) (hp.subs g hg) b n
    have hgood : ∀ g ∈ f.subs, Good g := fun g hg => good g (hs g hg)
    have hleafs : ∀ g ∈ f.subs, Leaf g := fun g hg => (hs g hg).self
    have hbits := hp.self
    by_cases hps : f.common.pseudo = true
    · have : n = 0 := by cases f <;> (simp only [Field.common] at hps; simpa [ser, hps] using hn)
      omega
    · have hps : f.common.pseudo = false := by simpa using hps
      cases f with
      | int c st =>
        simp only [Field.common] at hps
        simp only [maxLength, IntF.maxLength] at hb
        simp [ser, hps] at hn
        cases hb; exact num_le hn
      | enum c st =>
        simp only [Field.common] at hps
        simp only [maxLength, EnumF.maxLength] at hb
        simp [ser, hps] at hn
        cases hb; exact num_le hn
      | set c st =>
        simp only [Field.common] at hps
        simp only [maxLength, SetF.minLength] at hb
        simp [ser, hps] at hn
        cases hb; omega
      | float c st =>
        simp only [Field.common] at hps
        simp only [maxLength] at hb
        simp [ser, hps] at hn
        cases hb; omega
      | bitfield c e ms cd =>
        simp only [Field.common] at hps
        simp only [maxLength] at hb
        simp [ser, hps] at hn
        cases hb
        rw [totalBits_eq ms hbits]; omega
      | bundle c ms al cd =>
        simp only [Field.common] at hps
        simp only [maxLength] at hb
        simp [ser, hps] at hn
        have : ∀ (ms : List Field), (∀ m ∈ ms, Good m) → (∀ g ∈ ms, ∀ b n, maxLength g = .ok b → b ≠ W - 1 → ser v g n → n ≤ b) →
            ∀ s b n, s < W → maxSum ms s = .ok b → b ≠ W - 1 → serAll v ms n → s + n ≤ b := by
          intro ms
          induction ms with
          | nil =>
            intro _ _ s b n _ h1 _ h2
            simp only [maxSum] at h1; cases h1
            simp only [serAll] at h2; omega
          | cons m ms ihm =>
            intro h1 h2 s b n hs h3 hne h4
            simp only [maxSum] at h3
            split at h3
            · cases h3; exact absurd rfl hne
            · simp only [Res.bind_eq_ok] at h3
              obtain ⟨x, hx, h3⟩ := h3
              have hxW := (h1 m (by simp)).2.1 x hx
              rw [add_eq hxW hs] at h3
              have h5 := maxSum_bound (fun m hm => h1 m (by simp [hm])) (by omega) h3
              have ihm' := ihm (fun m hm => h1 m (by simp [hm])) (fun g hg => h2 g (by simp [hg])) (min (x + s) (W - 1)) b
              simp only [serAll] at h4
              split at h4
              · obtain ⟨x', y', hx', hy', rfl⟩ := h4
                have h6 := h2 m (by simp) x x' hx (by omega) hx'
                have h7 := ihm' y' (by omega) h3 hne hy'
                omega
              · have h7 := ihm' n (by omega) h3 hne h4
                omega
        have := this ms hgood ih 0 b n (by decide) hb hne hn
        omega
      | variant c d ms =>
        simp only [Field.common] at hps
        simp only [maxLength] at hb
        simp [ser, hps] at hn
        rcases hn with rfl | hn
        · exact Nat.zero_le _
        have : ∀ (ms : List Field), (∀ m ∈ ms, Good m) → (∀ g ∈ ms, ∀ b n, maxLength g = .ok b → b ≠ W - 1 → ser v g n → n ≤ b) →
            ∀ s b, s < W → maxMax ms s = .ok b → b ≠ W - 1 → serAny v ms n → n ≤ b := by
          intro ms
          induction ms with
          | nil => intro _ _ s b _ h1 _ h2; simp [serAny] at h2
          | cons m ms ihm =>
            intro h1 h2 s b hs h3 hne h4
            simp only [maxMax, Res.bind_eq_ok] at h3
            obtain ⟨x, hx, h3⟩ := h3
            have hxW := (h1 m (by simp)).2.1 x hx
            split at h3
            · rename_i he
              cases h3; exact absurd he hne
            · rename_i he
              have h5 := maxMax_bound (fun m hm => h1 m (by simp [hm])) (by omega) h3
              simp only [serAny] at h4
              rcases h4 with h4 | h4
              · have h6 := h2 m (by simp) x n hx (by omega) h4
                omega
              · exact ihm (fun m hm => h1 m (by simp [hm])) (fun g hg => h2 g (by simp [hg])) _ b (by omega) h3 hne h4
        exact this ms hgood ih 0 b (by decide) hb hne hn
      | optional c st fs cd =>
        simp only [Field.common] at hps
        obtain ⟨g, e1, e2, _, _, e5, _⟩ := slot_has hleaf
        simp only [maxLength, e5] at hb
        simp [ser, hps] at hn
        rcases hn with rfl | hn
        · exact Nat.zero_le _
        · exact ih g (by simp [Field.subs, e2]) b n hb hne ((slot_ser e1 v n).1.1 hn)
      | ref c bl t =>
        simp only [Field.common] at hps
        obtain ⟨g, e1, e2, _, _, e5, _⟩ := slot_has hleaf
        simp only [maxLength, e5] at hb
        simp [ser, hps] at hn
        exact ih g (by simp [Field.subs, e2]) b n hb hne ((slot_ser e1 v n).1.1 hn)
      | string c st p =>
        simp only [Field.common] at hps
        simp only [maxLength] at hb
        simp only [ser, hps, Bool.false_eq_true, if_false] at hn
        split at hb
        · rename_i h0; rw [if_pos h0] at hn; cases hb; omega
        · rename_i h0; rw [if_neg h0] at hn
          cases hb
          split at hn
          · rename_i hz1
            have := slot_none (hz.self hz1)
            subst this
            exact absurd rfl hne
          · exact prefixed_le hleafs hne hn (fun g hg a ha b hb h => ih g hg b a hb h ha)
      | data c st p =>
        simp only [Field.common] at hps
        simp only [maxLength] at hb
        simp only [ser, hps, Bool.false_eq_true, if_false] at hn
        split at hb
        · rename_i h0; rw [if_pos h0] at hn; cases hb; omega
        · rename_i h0; rw [if_neg h0] at hn
          cases hb
          exact prefixed_le hleafs hne hn (fun g hg a ha b hb h => ih g hg b a hb h ha)
      | list c st e cn l el t =>
        simp only [Field.common] at hps
        obtain ⟨hcount, he⟩ := hleaf
        obtain ⟨eg, e1, e2, _, _, e5, _⟩ := slot_has he
        have hemG := hgood eg (by simp [Field.subs, e2])
        have hem : ∀ em n, maxLength eg = .ok em → em ≠ W - 1 → serSlot v e n → n ≤ em := fun em n h1 h3 h2 =>
          ih eg (by simp [Field.subs, e2]) em n h1 h3 ((slot_ser e1 v n).1.1 h2)
        have hoptW : ∀ x, maxOr0 el = .ok x → x < W := by
          intro x h1
          rcases slot_cases (s := el) with rfl | ⟨g, g1, g2, _, _, _, g6⟩
          · simp only [maxOr0] at h1; cases h1; decide
          · exact (hgood g (by simp [Field.subs, g2])).2.1 x (by rw [← g6]; exact h1)
        have hopt : ∀ x n, maxOr0 el = .ok x → x ≠ W - 1 → serOpt v el n → n ≤ x := by
          intro x n h1 h3 h2
          rcases slot_cases (s := el) with rfl | ⟨g, g1, g2, _, _, _, g6⟩
          · simp only [serOpt] at h2; omega
          · exact ih g (by simp [Field.subs, g2]) x n (by rw [← g6]; exact h1) h3 ((slot_ser g1 v n).2.1.1 h2)
        -- bytes of `k` elements, given results of the two products
        have body : ∀ {x em ex all k n K : Nat}, maxOr0 el = .ok x → maxLength eg = .ok em → K < W →
            perElem st.elemFixedLength (Length.add x 0) K = .ok ex → Length.mul em K = .ok all → all ≠ W - 1 → ex ≠ W - 1 → k ≤ K →
            listBody st.elemFixedLength (serSlot v e) (serOpt v el) k n → n ≤ all + ex := by
          intro x em ex all k n K hx hem' hK h1 h2 h3 h4 hk hbody
          have hxW := hoptW x hx
          have hemW := hemG.2.1 em hem'
          obtain ⟨hK0, hall⟩ := mul_ok hemW hK h2
          have hemne : em ≠ W - 1 := by
            intro he
            have : W - 1 ≤ em * K := by rw [he]; exact Nat.le_mul_of_pos_right _ hK0
            omega
          have hmul : k * em ≤ em * K := by rw [Nat.mul_comm]; exact Nat.mul_le_mul_left _ hk
          rw [add_eq hxW (by decide)] at h1
          unfold perElem at h1
          unfold listBody at hbody
          split at hbody
          · rename_i hf
            rw [if_pos hf] at h1
            cases h1
            rcases hbody with ⟨_, rfl⟩ | ⟨b, m, hb, hm, rfl⟩
            · exact Nat.zero_le _
            · have h5 := elems_le (A := em) (B := 0) (fun a ha => hem em a hem' hemne ha) (fun b hb => by omega) hm
              have h6 := hopt x b hx (by omega) hb
              omega
          · rename_i hf
            rw [if_neg hf] at h1
            obtain ⟨_, h7⟩ := mul_ok (by omega) hK h1
            have hxne : x ≠ W - 1 := by
              intro he
              have : W - 1 ≤ min (x + 0) (W - 1) * K := by
                rw [show min (x + 0) (W - 1) = W - 1 by omega]; exact Nat.le_mul_of_pos_right _ hK0
              omega
            have h5 := elems_le (A := em) (B := x) (fun a ha => hem em a hem' hemne ha) (fun b hb => hopt x b hx hxne hb) hbody
            have h8 : k * x ≤ min (x + 0) (W - 1) * K := by
              rw [Nat.mul_comm, show min (x + 0) (W - 1) = x by omega]; exact Nat.mul_le_mul_left _ hk
            omega
        simp only [maxLength, Res.bind_eq_ok, e5] at hb
        obtain ⟨x, hx, em, hem', hb⟩ := hb
        have hxW := hoptW x hx
        have hemW := hemG.2.1 em hem'
        simp only [ser, hps, Bool.false_eq_true, if_false] at hn
        split at hb
        · rename_i h0
          rw [if_pos h0] at hn
          simp only [Res.bind_eq_ok, Res.pure_eq] at hb
          obtain ⟨ex, h1, all, h2, hb⟩ := hb
          cases hb
          have hexW : ex < W := by
            have h1 := h1
            rw [add_eq hxW (by decide)] at h1
            unfold perElem at h1
            split at h1
            · cases h1; omega
            · have := mul_ok (by omega) (by omega) h1
              omega
          have hallW := mul_ok hemW (by omega) h2
          rw [add_eq (by omega) hexW] at hne ⊢
          have := body hx hem' (by omega) h1 h2 (by omega) (by omega) (Nat.le_refl _) hn
          omega
        · rename_i h0
          rw [if_neg h0] at hn
          split at hb
          · rename_i hc
            rw [if_pos hc] at hn
            obtain ⟨g, g1, g2, g3, _⟩ := slot_has hc
            rw [g1] at hb
            simp only [Res.bind_eq_ok, Res.pure_eq] at hb
            obtain ⟨cst, hcst, all, h2, ex, h1, hb⟩ := hb
            cases hb
            cases g with
            | int c' cst' =>
              simp only [countPrefix] at hcst
              cases hcst
              have hlg := hleafs _ (show Field.int c' cst ∈ _ by simp only [Field.subs, List.mem_append, g2]; simp)
              have hnum := numLen_good (int_len hlg)
              obtain ⟨y, k, m, hy, hk, hm, rfl⟩ := hn
              have hk' := announces_le hlg (((slot_ser g1 v y).2.2.2 k).1 hk)
              have hy' : y ≤ cst.length := ih _ (show Field.int c' cst ∈ _ by simp only [Field.subs, List.mem_append, g2]; simp)
                cst.length y (by rw [maxLength]; rfl) (by have := int_len hlg; omega) ((slot_ser g1 v y).1.1 hy)
              have hallW := mul_ok hemW (castU64_lt _) h2
              have hexW : ex < W := by
                have h1 := h1
                rw [add_eq hxW (by decide)] at h1
                unfold perElem at h1
                split at h1
                · cases h1; omega
                · have := mul_ok (by omega) (castU64_lt _) h1
                  omega
              simp only [IntF.maxLength] at hne ⊢
              rw [add_eq hnum.2.1 (by omega), add_eq hexW (by omega)] at hne ⊢
              have := body hx hem' (castU64_lt _) h1 h2 (by omega) (by omega) hk' hm
              omega
            | _ => simp [countPrefix] at hcst
          · rename_i hc
            rw [if_neg hc] at hn
            cases hb
            by_cases hll : l.has = true
            · rw [if_pos hll] at hn
              exact prefixed_le (fun g hg => hleafs g (by simp [Field.subs, hg])) hne hn
                (fun g hg a ha b hb h => ih g (by simp [Field.subs, hg]) b a hb h ha)
            · have := slot_none (by simpa using hll)
              subst this
              exact absurd rfl hne

end SerProofs

open SerProofs

/-- C23, lower bound, partial: no value takes fewer bytes than the reported minimal length. Missing from the full claim: fields that contain a
    pseudo field, or a bundle with a member that does not exist in version `v`; for these the claim is false, see the theorems below. -/
theorem C23_lower_partial (v : Nat) (f : Field) (h : Obj f) (hp : Hered (Present v) f) (a n : Nat) (ha : minLength f = .ok a)
    (hn : ser v f n) : a ≤ n :=
  lower f (obj_leaf h) hp a n ha hn

/-- C23, upper bound, partial: no value, in any version, takes more bytes than the reported maximal length, unless that is the "unlimited"
    value. Missing from the full claim: bitfields whose bit lengths add up to 2^64 or more. -/
theorem C23_upper_partial (v : Nat) (f : Field) (h : Obj f) (hp : Hered BitsFit f) (b n : Nat) (hb : maxLength f = .ok b)
    (hne : b ≠ 2 ^ 64 - 1) (hn : ser v f n) : n ≤ b :=
  upper f (obj_leaf h) (obj_zero h) hp b n hb hne hn

open Sample in
/-- A bundle of a number, an optional and a string: between 2 and 261 bytes; both bounds apply. -/
example : ∃ f, Accepted f ∧ Hered (Present 3) f ∧ Hered BitsFit f ∧ minLength f = .ok 2 ∧ maxLength f = .ok 261 := by
  let good : Field → Bool := fun f => !f.common.pseudo && f.members.all (existsIn 3) &&
    (match f with | .bitfield .. => false | _ => true)
  obtain ⟨f, h1, h2⟩ := accepted env0_ok (parent := .top)
    (x := el "bundle" [("name", "b")] [el "int" [("name", "i"), ("type", "uint8"), ("sinceVersion", "2")],
      el "optional" [("name", "o")] [el "field" [] [el "int" [("name", "f"), ("type", "int32")]]],
      el "string" [("name", "s")] [el "lengthPrefix" [] [el "int" [("name", "l"), ("type", "uint8")]]]])
    (p := fun f => allB good f && (isNum (minLength f) 2 && isNum (maxLength f) 261)) (by decide +kernel)
  simp only [Bool.and_eq_true] at h2
  refine ⟨f, h1, (hered h2.1).mono ?_, (hered h2.1).mono ?_, isNum_spec h2.2.1, isNum_spec h2.2.2⟩
  · intro g hg
    simp only [good, Bool.and_eq_true, Bool.not_eq_true', List.all_eq_true] at hg
    exact ⟨hg.1.1, hg.1.2⟩
  · intro g hg
    cases g with
    | bitfield => simp [good] at hg
    | _ => trivial

open Sample in
/-- Refutation of the full lower bound: a bundle of one byte and a pseudo field of one byte reports at least 2 bytes but takes 1. -/
theorem C23_pseudo_witness : ∃ f, Accepted f ∧ minLength f = .ok 2 ∧ ser 3 f 1 := by
  let shape : Field → Bool := fun f => match f with
    | .bundle c [.int c1 st1, .int c2 _] _ _ => !c.pseudo && !c1.pseudo && c2.pseudo && decide (c1.w.since = 0) && decide (c2.w.since = 0) &&
        !c1.w.removed && !c2.w.removed && decide (st1.type = some .uint8) && decide (st1.length = 1)
    | _ => false
  obtain ⟨f, h1, h2⟩ := accepted env0_ok (parent := .top)
    (x := el "bundle" [("name", "b")] [el "int" [("name", "i"), ("type", "uint8")],
      el "int" [("name", "p"), ("type", "uint8"), ("pseudo", "true")]])
    (p := fun f => shape f && isNum (minLength f) 2) (by decide +kernel)
  simp only [Bool.and_eq_true] at h2
  refine ⟨f, h1, isNum_spec h2.2, ?_⟩
  have h3 := h2.1
  simp only [shape] at h3
  split at h3
  · simp only [Bool.and_eq_true, Bool.not_eq_true', decide_eq_true_eq] at h3
    obtain ⟨⟨⟨⟨⟨⟨⟨⟨a1, a2⟩, a3⟩, a4⟩, a5⟩, a6⟩, a7⟩, a8⟩, a9⟩ := h3
    simp [ser, serAll, existsIn, Field.since, Field.removed, Field.common, a1, a2, a3, a4, a5, a6, a7, a8, a9, numLen]
  · simp at h3

open Sample in
/-- The other one: a bundle with a member added in version 2 reports the length of the latest version, values of version 1 are shorter. -/
theorem C23_later_member_witness : ∃ f, Accepted f ∧ minLength f = .ok 2 ∧ ser 1 f 1 := by
  let shape : Field → Bool := fun f => match f with
    | .bundle c [.int c1 st1, .int c2 _] _ _ => !c.pseudo && !c1.pseudo && decide (c1.w.since = 0) && decide (c2.w.since = 2) &&
        !c1.w.removed && decide (st1.type = some .uint8) && decide (st1.length = 1)
    | _ => false
  obtain ⟨f, h1, h2⟩ := accepted env0_ok (parent := .top)
    (x := el "bundle" [("name", "b")] [el "int" [("name", "i"), ("type", "uint8")],
      el "int" [("name", "p"), ("type", "uint8"), ("sinceVersion", "2")]])
    (p := fun f => shape f && isNum (minLength f) 2) (by decide +kernel)
  simp only [Bool.and_eq_true] at h2
  refine ⟨f, h1, isNum_spec h2.2, ?_⟩
  have h3 := h2.1
  simp only [shape] at h3
  split at h3
  · simp only [Bool.and_eq_true, Bool.not_eq_true', decide_eq_true_eq] at h3
    obtain ⟨⟨⟨⟨⟨⟨a1, a2⟩, a4⟩, a5⟩, a6⟩, a8⟩, a9⟩ := h3
    simp [ser, serAll, existsIn, Field.since, Field.removed, Field.common, a1, a2, a4, a5, a6, a8, a9, numLen]
  · simp at h3

end Commsdsl.Props
