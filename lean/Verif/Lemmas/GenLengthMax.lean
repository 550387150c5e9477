import Verif.Lemmas.GenLength
/-!
# The maximal lengths of generated classes are reached
-/
namespace Commsdsl.Props
open Commsdsl Fld Spec Text Gen LengthProofs SerProofs

namespace LenProofs

local notation "W" => (18446744073709551616 : Nat)

/-- The field is not pseudo. -/
def Real (f : Field) : Prop := f.common.pseudo = false

theorem elems_full {elem pfx : Nat → Prop} {A B : Nat} (h1 : elem A) (h2 : pfx B) (k : Nat) : elems elem pfx k (k * A + k * B) := by
  induction k with
  | zero => simp [elems]
  | succ k ih =>
    refine ⟨A, B, k * A + k * B, h1, h2, ih, ?_⟩
    simp only [Nat.add_mul, Nat.one_mul]
    omega

theorem num_full {t : Option IntF.IntType} {l : Nat} {lim : Bool} (h : 0 < l) : limitedLen lim t l l := by
  unfold limitedLen numLen
  split
  · omega
  · split
    · omega
    · rfl

theorem announces_full {c : Common} {st : IntF.State} (ha : IntF.Accepted st) (h : announces 0 (.int c st)) : announces (castU64 st.max) (.int c st) := by
  obtain ⟨t, h1, h⟩ := h
  refine ⟨t, h1, ?_⟩
  have := accepted_max_le ha
  unfold Spec.interp at h ⊢
  unfold castU64
  split at h
  · rename_i ht; rw [if_pos ht]; omega
  · rename_i ht; rw [if_neg ht]; omega

theorem prefixed_full {gv : GVer} {pl : Place} {s : Slot Field} (hl : ∀ g ∈ s.toList, Leaf g) (hne : prefixedMax s.get? < W - 1) (h0 : announcesSlot 0 s)
    (h : ∀ g ∈ s.toList, ∀ {pl : Place} b, maxLength g = .ok b → b < W - 1 → genBytes gv pl g b) : genPrefixed gv pl s (prefixedMax s.get?) := by
  rcases slot_cases (s := s) with e | ⟨x, e1, e2, _⟩
  · subst e; exact absurd hne (by decide)
  · have h0 := ((slot_gen e1 gv pl 0).2.2.2 0).1 h0
    rw [(slot_gen e1 gv pl _).2.2.1]
    rw [e1] at hne ⊢
    cases x with
    | int c st =>
      have hacc : IntF.Accepted st := hl (.int c st) (by simp [e2])
      have hlen := int_len hacc
      have hn := numLen_good hlen
      refine ⟨st.length, castU64 st.max, h _ (by simp [e2]) st.length (by rw [maxLength]; rfl) (by omega), announces_full hacc h0, ?_⟩
      simp only [prefixedMax, IntF.maxLength] at hne ⊢
      rw [add_eq (castU64_lt _) hn.2.1] at hne ⊢
      omega
    | _ => exact absurd hne (by simp [prefixedMax, Length.maxPossible])

theorem attainMaxP {gv : GVer} {pl : Place} (f : Field) (hl : Hered Leaf f) (hzo : Hered ZeroOk f) (hbits : Hered BitsFit f) (hz : Hered EmptyOk f)
    (hr : Hered Real f) (b : Nat) (hb : maxLength f = .ok b) (hlt : b < W - 1) : genBytes gv pl f b := by
  induction hl generalizing pl b with
  | @mk f hleaf hs ih0 =>
    have ih : ∀ x ∈ f.subs, ∀ {pl : Place} b, maxLength x = .ok b → b < W - 1 → genBytes gv pl x b := fun x hx pl b =>
      ih0 x hx (hzo.subs x hx) (hbits.subs x hx) (hz.subs x hx) (hr.subs x hx) b
    have hgood : ∀ g ∈ f.subs, Good g := fun g hg => good g (hs g hg)
    have hleafs : ∀ g ∈ f.subs, Leaf g := fun g hg => (hs g hg).self
    have hbit := hbits.self
    have hz0 := hz.self
    have hzo0 := hzo.self
    have hps : f.common.pseudo = false := hr.self
    refine Or.inr ?_
    cases f with
    | int c st =>
      simp only [Field.common] at hps
      simp only [maxLength, IntF.maxLength] at hb
      cases hb
      simp only [genBody, hps]
      exact num_full (int_len hleaf).1
    | enum c st =>
      simp only [Field.common] at hps
      simp only [maxLength, EnumF.maxLength] at hb
      cases hb
      obtain ⟨b, hb⟩ := hleaf
      simp only [genBody, hps]
      exact num_full (enum_len hb).1
    | set c st =>
      simp only [Field.common] at hps
      simp only [maxLength, SetF.minLength] at hb
      cases hb
      simp only [genBody, hps]
      exact num_full (set_len hleaf).1
    | float c st =>
      simp only [Field.common] at hps
      simp only [maxLength] at hb
      cases hb
      simp [genBody, hps]
    | bitfield c e ms cd =>
      simp only [Field.common] at hps
      simp only [maxLength] at hb
      cases hb
      simp only [genBody, hps]
      rw [totalBits_eq ms hbit]
      simp
    | bundle c ms al cd =>
      simp only [Field.common] at hps
      simp only [maxLength] at hb
      have : ∀ (ms : List Field), (∀ m ∈ ms, Good m) → (∀ x ∈ ms, ∀ {pl : Place} b, maxLength x = .ok b → b < W - 1 → genBytes gv pl x b) →
          ∀ s b, s < W → maxSum ms s = .ok b → b < W - 1 → ∃ n, genAll gv (.field c.w.since pl) ms n ∧ b = s + n := by
        intro ms
        induction ms with
        | nil => intro _ _ s b _ h1 _; simp only [maxSum] at h1; cases h1; exact ⟨0, rfl, rfl⟩
        | cons m ms ihm =>
          intro h1 h2 s b hs h3 hne
          simp only [maxSum] at h3
          split at h3
          · cases h3; exact absurd hne (by decide)
          · simp only [Res.bind_eq_ok] at h3
            obtain ⟨x, hx, h3⟩ := h3
            have hxW := (h1 m (by simp)).2.1 x hx
            rw [add_eq hxW hs] at h3
            have h5 := maxSum_bound (fun m hm => h1 m (by simp [hm])) (by omega) h3
            obtain ⟨n, h6, h7⟩ := ihm (fun m hm => h1 m (by simp [hm])) (fun g hg => h2 g (by simp [hg])) (min (x + s) (W - 1)) b (by omega) h3 hne
            exact ⟨x + n, ⟨x, n, h2 m (by simp) x hx (by omega), h6, rfl⟩, by omega⟩
      obtain ⟨n, h1, h2⟩ := this ms hgood (fun x hx pl b => ih x hx b) 0 b (by decide) hb hlt
      simp only [genBody, hps]
      rw [h2, Nat.zero_add]
      exact h1
    | variant c d ms =>
      simp only [Field.common] at hps
      simp only [maxLength] at hb
      have : ∀ (ms : List Field), (∀ m ∈ ms, Good m) → (∀ x ∈ ms, ∀ {pl : Place} b, maxLength x = .ok b → b < W - 1 → genBytes gv pl x b) →
          ∀ s b, maxMax ms s = .ok b → b < W - 1 → b = s ∨ genAny gv (.field c.w.since pl) ms b := by
        intro ms
        induction ms with
        | nil => intro _ _ s b h1 _; simp only [maxMax] at h1; cases h1; exact Or.inl rfl
        | cons m ms ihm =>
          intro h1 h2 s b h3 hne
          simp only [maxMax, Res.bind_eq_ok] at h3
          obtain ⟨x, hx, h3⟩ := h3
          split at h3
          · rename_i he
            cases h3; rw [he] at hne; exact absurd hne (by decide)
          · rcases ihm (fun m hm => h1 m (by simp [hm])) (fun g hg => h2 g (by simp [hg])) _ b h3 hne with h5 | h5
            · rcases Nat.le_total x s with h6 | h6
              · left; omega
              · right; left
                have : b = x := by omega
                subst this
                exact h2 m (by simp) b hx hne
            · exact Or.inr (Or.inr h5)
      simp only [genBody, hps]
      exact this ms hgood (fun x hx pl b => ih x hx b) 0 b hb hlt
    | optional c st fs cd =>
      simp only [Field.common] at hps
      obtain ⟨x, e1, e2, _, _, e5, _⟩ := slot_has hleaf
      simp only [maxLength, e5] at hb
      simp only [genBody, hps]
      exact Or.inr ((slot_gen e1 gv _ b).1.2 (ih x (by simp [Field.subs, e2]) b hb hlt))
    | ref c bl t =>
      simp only [Field.common] at hps
      obtain ⟨x, e1, e2, _, _, e5, _⟩ := slot_has hleaf
      simp only [maxLength, e5] at hb
      simp only [genBody, hps]
      exact (slot_gen e1 gv _ b).1.2 (ih x (by simp [Field.subs, e2]) b hb hlt)
    | string c st p =>
      simp only [Field.common] at hps
      simp only [maxLength] at hb
      simp only [genBody, hps, Bool.false_eq_true, if_false]
      split at hb
      · rename_i h0; cases hb; rw [if_pos h0]
      · rename_i h0
        cases hb
        rw [if_neg h0]
        split
        · rename_i hz1
          have := slot_none (hzo0 hz1)
          subst this
          exact absurd hlt (by decide)
        · exact prefixed_full hleafs hlt hz0 (fun g hg pl b h1 h2 => ih g hg b h1 h2)
    | data c st p =>
      simp only [Field.common] at hps
      simp only [maxLength] at hb
      simp only [genBody, hps, Bool.false_eq_true, if_false]
      split at hb
      · rename_i h0; cases hb; rw [if_pos h0]
      · rename_i h0
        cases hb
        rw [if_neg h0]
        exact prefixed_full hleafs hlt hz0 (fun g hg pl b h1 h2 => ih g hg b h1 h2)
    | list c st e cn l el t =>
      simp only [Field.common] at hps
      obtain ⟨hcount, he⟩ := hleaf
      obtain ⟨eg, e1, e2, _, _, e5, _⟩ := slot_has he
      have hemG := hgood eg (by simp [Field.subs, e2])
      have hem : ∀ em, maxLength eg = .ok em → em < W - 1 → genSlot gv (.field c.w.since pl) e em := fun em h1 h3 =>
        (slot_gen e1 gv _ em).1.2 (ih eg (by simp [Field.subs, e2]) em h1 h3)
      have hoptW : ∀ x, maxOr0 el = .ok x → x < W := by
        intro x h1
        rcases slot_cases (s := el) with rfl | ⟨g, g1, g2, _, _, _, g6⟩
        · simp only [maxOr0] at h1; cases h1; decide
        · exact (hgood g (by simp [Field.subs, g2])).2.1 x (by rw [← g6]; exact h1)
      have hopt : ∀ x, maxOr0 el = .ok x → x < W - 1 → genOpt gv (.field c.w.since pl) el x := by
        intro x h1 h3
        rcases slot_cases (s := el) with rfl | ⟨g, g1, g2, _, _, _, g6⟩
        · simp only [maxOr0] at h1; cases h1; rfl
        · exact (slot_gen g1 gv _ x).2.1.2 (ih g (by simp [Field.subs, g2]) x (by rw [← g6]; exact h1) h3)
      have body : ∀ {x em ex all K : Nat}, maxOr0 el = .ok x → maxLength eg = .ok em → K < W →
          perElem st.elemFixedLength (Length.add x 0) K = .ok ex → Length.mul em K = .ok all → all + ex < W - 1 →
          listBody st.elemFixedLength (genSlot gv (.field c.w.since pl) e) (genOpt gv (.field c.w.since pl) el) K (all + ex) := by
        intro x em ex all K hx hem' hK h1 h2 h3
        have hxW := hoptW x hx
        have hemW := hemG.2.1 em hem'
        obtain ⟨hK0, hall⟩ := mul_ok hemW hK h2
        have hem2 : em ≤ em * K := Nat.le_mul_of_pos_right _ hK0
        rw [add_eq hxW (by decide)] at h1
        unfold perElem at h1
        unfold listBody
        split
        · rename_i hf
          rw [if_pos hf] at h1
          cases h1
          refine Or.inr ⟨x, K * em, hopt x hx (by omega), ?_, ?_⟩
          · have := elems_full (pfx := fun x => x = 0) (hem em hem' (by omega)) rfl K
            rw [Nat.mul_zero, Nat.add_zero] at this
            exact this
          · rw [Nat.mul_comm K em]; omega
        · rename_i hf
          rw [if_neg hf] at h1
          obtain ⟨_, h7⟩ := mul_ok (by omega) hK h1
          have hx2 : min (x + 0) (W - 1) ≤ min (x + 0) (W - 1) * K := Nat.le_mul_of_pos_right _ hK0
          have hxe : min (x + 0) (W - 1) = x := by omega
          rw [hxe] at h7 hx2
          have := elems_full (hem em hem' (by omega)) (hopt x hx (by omega)) K
          rw [Nat.mul_comm K em, Nat.mul_comm K x] at this
          rw [show all + ex = em * K + x * K by omega]
          exact this
      simp only [maxLength, Res.bind_eq_ok, e5] at hb
      obtain ⟨x, hx, em, hem', hb⟩ := hb
      have hxW := hoptW x hx
      have hemW := hemG.2.1 em hem'
      simp only [genBody, hps, Bool.false_eq_true, if_false]
      split at hb
      · rename_i h0
        rw [if_pos h0]
        simp only [Res.bind_eq_ok, Res.pure_eq] at hb
        obtain ⟨ex, h1, all, h2, hb⟩ := hb
        cases hb
        have hexW : ex < W := by
          have h1 := h1
          rw [add_eq hxW (by decide)] at h1
          unfold perElem at h1
          split at h1
          · cases h1; omega
          · have := mul_ok (by omega) (by omega) h1
            omega
        have hallW := mul_ok hemW (by omega) h2
        rw [add_eq (by omega) hexW] at hlt ⊢
        rw [show min (all + ex) (W - 1) = all + ex by omega]
        exact body hx hem' (by omega) h1 h2 (by omega)
      · rename_i h0
        rw [if_neg h0]
        split at hb
        · rename_i hc
          rw [if_pos hc]
          obtain ⟨x', g1, g2, g3, _⟩ := slot_has hc
          rw [g1] at hb
          simp only [Res.bind_eq_ok, Res.pure_eq] at hb
          obtain ⟨cst, hcst, all, h2, ex, h1, hb⟩ := hb
          cases hb
          cases x' with
          | int c' cst' =>
            simp only [countPrefix] at hcst
            cases hcst
            have hmem : Field.int c' cst ∈ (Field.list c st e cn l el t).subs := by simp only [Field.subs, List.mem_append, g2]; simp
            have hlg := hleafs _ hmem
            have hnum := numLen_good (int_len hlg)
            have hallW := mul_ok hemW (castU64_lt _) h2
            have hexW : ex < W := by
              have h1 := h1
              rw [add_eq hxW (by decide)] at h1
              unfold perElem at h1
              split at h1
              · cases h1; omega
              · have := mul_ok (by omega) (castU64_lt _) h1
                omega
            simp only [IntF.maxLength] at hlt ⊢
            rw [add_eq hnum.2.1 (by omega), add_eq hexW (by omega)] at hlt ⊢
            refine ⟨cst.length, castU64 cst.max, all + ex, (slot_gen g1 gv _ _).1.2 (ih _ hmem cst.length (by rw [maxLength]; rfl) (by have := int_len hlg; omega)),
              ((slot_gen g1 gv pl 0).2.2.2 _).2 (announces_full hlg (((slot_gen g1 gv pl 0).2.2.2 0).1 hz0.1)), body hx hem' (castU64_lt _) h1 h2 (by omega), by omega⟩
          | _ => simp [countPrefix] at hcst
        · rename_i hc
          rw [if_neg hc]
          cases hb
          by_cases hll : l.has = true
          · rw [if_pos hll]
            exact prefixed_full (fun g hg => hleafs g (by simp [Field.subs, hg])) hlt hz0.2 (fun g hg pl b h1 h2 => ih g (by simp [Field.subs, hg]) b h1 h2)
          · have := slot_none (by simpa using hll)
            subst this
            exact absurd hlt (by decide)

theorem sum_reach {gv : GVer} {pl : Place} (ms : List Field)
    (h : ∀ x ∈ ms, ∀ {pl : Place} b, commsMax x = .ok b → b < W - 1 → genBytes gv pl x b) :
    ∀ s b, commsMaxSum ms s = .ok b → b < W - 1 → ∃ n, genAll gv pl ms n ∧ b = s + n := by
  induction ms with
  | nil => intro s b h1 _; simp only [commsMaxSum] at h1; cases h1; exact ⟨0, rfl, rfl⟩
  | cons m ms ih =>
    intro s b h1 hb
    simp only [commsMaxSum, Res.bind_eq_ok] at h1
    obtain ⟨x, hx, h1⟩ := h1
    rcases addLength_cases s x with ⟨e, _⟩ | ⟨e, e'⟩
    · rw [e] at h1
      have := maxSum_full ms b h1
      omega
    · rw [e] at h1
      obtain ⟨n, h3, h4⟩ := ih (fun x hx => h x (by simp [hx])) _ b h1 hb
      exact ⟨x + n, ⟨x, n, h m (by simp) x hx (by omega), h3, rfl⟩, by omega⟩

theorem max_reach {gv : GVer} {pl : Place} (ms : List Field)
    (h : ∀ x ∈ ms, ∀ {pl : Place} b, commsMax x = .ok b → b < W - 1 → genBytes gv pl x b) :
    ∀ s b, commsMaxMax ms s = .ok b → b < W - 1 → b = s ∨ genAny gv pl ms b := by
  induction ms with
  | nil => intro s b h1 _; simp only [commsMaxMax] at h1; cases h1; exact Or.inl rfl
  | cons m ms ih =>
    intro s b h1 hb
    simp only [commsMaxMax, Res.bind_eq_ok] at h1
    obtain ⟨x, hx, h1⟩ := h1
    rcases ih (fun x hx => h x (by simp [hx])) _ b h1 hb with h5 | h5
    · rcases Nat.le_total x s with h6 | h6
      · left; omega
      · right; left
        have : b = x := by omega
        subst this
        exact h m (by simp) b hx hb
    · exact Or.inr (Or.inr h5)

theorem attainMaxC {gv : GVer} {pl : Place} (f : Field) (hl : Hered Leaf f) (hzo : Hered ZeroOk f) (hbits : Hered BitsFit f) (hz : Hered EmptyOk f)
    (hr : Hered Real f) (b : Nat) (hb : commsMax f = .ok b) (hlt : b < W - 1) : genBytes gv pl f b := by
  induction hl generalizing pl b with
  | @mk f hleaf hs ih0 =>
    have ih : ∀ x ∈ f.subs, ∀ {pl : Place} b, commsMax x = .ok b → b < W - 1 → genBytes gv pl x b := fun x hx pl b =>
      ih0 x hx (hzo.subs x hx) (hbits.subs x hx) (hz.subs x hx) (hr.subs x hx) b
    have hP : maxLength f = .ok b → genBytes gv pl f b := fun h => attainMaxP f (.mk hleaf hs) hzo hbits hz hr b h hlt
    have hps : f.common.pseudo = false := hr.self
    unfold commsMax at hb
    split at hb
    · cases hb; unfold maxPossible at hlt; omega
    cases f with
    | int c st => simp only [commsMaxImpl] at hb; exact hP hb
    | enum c st => simp only [commsMaxImpl] at hb; exact hP hb
    | set c st => simp only [commsMaxImpl] at hb; exact hP hb
    | float c st => simp only [commsMaxImpl] at hb; exact hP hb
    | bitfield c e ms cd => simp only [commsMaxImpl] at hb; exact hP hb
    | string c st p =>
      simp only [commsMaxImpl] at hb
      split at hb
      · exact hP hb
      · cases hb; unfold maxPossible at hlt; omega
    | data c st p =>
      simp only [commsMaxImpl] at hb
      split at hb
      · exact hP hb
      · cases hb; unfold maxPossible at hlt; omega
    | list c st e cn l el t =>
      simp only [commsMaxImpl] at hb
      split at hb
      · exact hP hb
      · cases hb; unfold maxPossible at hlt; omega
    | bundle c ms al cd =>
      simp only [Field.common] at hps
      simp only [commsMaxImpl] at hb
      refine Or.inr ?_
      have h := sum_reach (gv := gv) (pl := .field c.w.since pl) ms (fun x hx pl b => ih x hx b) 0 b hb hlt
      obtain ⟨n, h1, h2⟩ := h
      simp only [genBody, hps]
      rw [h2, Nat.zero_add]
      exact h1
    | variant c d ms =>
      simp only [Field.common] at hps
      simp only [commsMaxImpl] at hb
      refine Or.inr ?_
      simp only [genBody, hps]
      exact max_reach ms (fun x hx pl b => ih x hx b) 0 b hb hlt
    | ref c bl t =>
      simp only [Field.common] at hps
      obtain ⟨x, e1, e2, _⟩ := slot_has hleaf
      simp only [commsMaxImpl, maxTarget_eq e1] at hb
      refine Or.inr ?_
      simp only [genBody, hps]
      exact (slot_gen e1 gv _ b).1.2 (ih x (by simp [Field.subs, e2]) b hb hlt)
    | optional c st fs cd =>
      simp only [Field.common] at hps
      obtain ⟨x, e1, e2, _⟩ := slot_has hleaf
      simp only [commsMaxImpl, maxTarget_eq e1] at hb
      refine Or.inr ?_
      simp only [genBody, hps]
      exact Or.inr ((slot_gen e1 gv _ b).1.2 (ih x (by simp [Field.subs, e2]) b hb hlt))

end LenProofs
end Commsdsl.Props
