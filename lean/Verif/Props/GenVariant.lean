import Verif.Spec.Wire
import Verif.Spec.GenVariant
import Verif.Props.GenWire
import Verif.Props.GenRead
/-!
# The generated read function of variants (C102)
-/
namespace Commsdsl.Props
open Commsdsl Text Fld Gen Spec IntF CondProofs Fld.CondRef

namespace VariantProofs

theorem res_bind {α β : Type} {r : Res α} {f : α → Res β} {b : β} : r.bind f = .ok b ↔ ∃ a, r = .ok a ∧ f a = .ok b := Res.bind_eq_ok

theorem follows_unique {f g h : Field} (h1 : Follows f g) (h2 : Follows f h) : g = h := by
  induction h1 with
  | self hk =>
    cases h2 with
    | self => rfl
    | ref => simp [Field.kind] at hk
  | @ref c b s t g ht _ ih =>
    cases h2 with
    | self hk => simp [Field.kind] at hk
    | @ref _ _ _ t' _ ht' h2 =>
      have : t = t' := by
        cases s <;> simp [Slot.toList] at ht ht'
        · rw [ht, ht']
        · rw [ht, ht']
      subst this
      exact ih h2

/-! ## Labels -/

/-- The value of the key. -/
def val (k : Key) : Int := match k.st.type with | some t => interp t k.st.default | none => 0

theorem interp_cast {t : IntType} (hu : isUnsigned t = true) {d : Int} (hd : typeLo t ≤ interp t d) (hh : interp t d ≤ typeHi t) : (castU64 d : Int) = interp t d := by
  unfold castU64 interp at *
  cases t <;> simp [isUnsigned] at hu <;> simp [typeLo, typeHi, Signed, typeBits] at hd hh ⊢ <;> omega

theorem signed_interp {t : IntType} (hu : isUnsigned t = false) (d : Int) : interp t d = d := by
  cases t <;> simp [isUnsigned] at hu <;> simp [interp]

theorem digit_star (up : Bool) (n : Nat) (h : n < 16) : '*' ≠ digitChar up n := by
  have : ∀ up : Bool, ∀ n : Fin 16, '*' ≠ digitChar up n.1 := by decide
  exact this up ⟨n, h⟩

theorem digits_star (base : Nat) (hb : base ≤ 16) (h0 : 0 < base) (up : Bool) (fuel n : Nat) : '*' ∉ digitsLoop base up fuel n := by
  induction fuel generalizing n with
  | zero => simp [digitsLoop]
  | succ fuel ih =>
    unfold digitsLoop
    split
    · simpa using digit_star up n (by omega)
    · have := Nat.mod_lt n h0
      simp only [List.mem_append, List.mem_singleton, not_or]
      exact ⟨ih _, digit_star up _ (by omega)⟩

theorem hex_star (n w : Nat) : '*' ∉ numToStringU n w := by
  have h1 := digits_star 10 (by omega) (by omega) false 64 n
  have h2 := digits_star 16 (by omega) (by omega) true 64 n
  unfold numToStringU toDec toHex padZero
  split
  · exact h1
  · split
    · simpa using h1
    · split
      · simpa using h2
      · split <;> simpa using h2

theorem label_value {st : IntF.State} (h : IntF.Accepted st) {t : IntType} (ht : st.type = some t) {l : Str} (hl : keyLabel t st = .ok l) :
    CaseValue l (interp t st.default) := by
  obtain ⟨t', ht', ⟨hd, hh⟩, -⟩ := C10_default_specials_of_type_partial st h
  rw [ht] at ht'
  cases ht'
  unfold keyLabel at hl
  cases hu : isUnsigned t with
  | false =>
    simp only [hu, Bool.not_false, if_true] at hl
    rw [signed_interp hu] at hd hh ⊢
    have hne : st.default ≠ -2 ^ 63 := by
      intro e
      rw [e, (C51_min_undefined).1] at hl
      simp at hl
    have hlo : -2 ^ 63 ≤ typeLo t := by cases t <;> simp [typeLo, Signed, typeBits]
    have hhi : isUnsigned t = false → typeHi t < 2 ^ 63 := by cases t <;> simp [typeHi, Signed, typeBits, isUnsigned]
    have hhi := hhi hu
    obtain ⟨s, e, hs⟩ := C51_signed_partial st.default (by omega) (by omega)
    rw [e] at hl
    cases hl
    exact ⟨l, [], by simp, hs, Or.inl rfl⟩
  | true =>
    simp only [hu, Bool.not_true, Bool.false_eq_true, if_false, Res.ok.injEq] at hl
    subst hl
    have hc := interp_cast hu hd hh
    obtain ⟨sg, hs⟩ := C51_unsigned (castU64 st.default) 0 (by unfold castU64; omega)
    refine ⟨_, " /* ".toList ++ numToStringU (castU64 st.default) (IntF.maxLength st * 2) ++ " */".toList, by simp only [List.append_assoc], Or.inl ⟨_, sg, hs, hc.symm⟩, Or.inr ⟨_, rfl, hex_star _ _⟩⟩

/-! ## Equal classes have equal lengths -/

/-- The option is about the length. -/
def isLen (s : Str) : Bool := "comms::option::def::VarLength<".toList.isPrefixOf s || "comms::option::def::FixedLength<".toList.isPrefixOf s

theorem num_small : ∀ a b : Fin 11, ∀ x y : Bool, numToStringU a.1 0 ++ signParam x ++ ">".toList = numToStringU b.1 0 ++ signParam y ++ ">".toList → a = b := by decide

theorem var_text (a b : Nat) (h1 : a ≤ 10) (h2 : b ≤ 10) (h : numToStringU a 0 ++ ">".toList = numToStringU b 0 ++ ">".toList) : a = b := by
  have := num_small ⟨a, by omega⟩ ⟨b, by omega⟩ true true (by simpa [signParam] using h)
  simpa using this

theorem map_type : ∀ t t' : IntType, ¬ VarLen t → ¬ VarLen t' → cppIntType t (lengthMap t) = cppIntType t' (lengthMap t') → lengthMap t = lengthMap t' := by
  intro t t' h h' he
  cases t <;> simp [VarLen] at h <;> cases t' <;> simp [VarLen] at h' <;> simp [cppIntType, lengthMap] at he ⊢

theorem type_len {t : IntType} (h : ¬ VarLen t) (a b : Nat) : cppIntType t a = cppIntType t b := by
  cases t <;> simp [VarLen] at h <;> rfl

theorem len_eq {t t' : IntType} {len len' : Nat} {e e' : Bool} (h1 : len ≤ 10) (h2 : len' ≤ 10) (hty : cppIntType t len = cppIntType t' len')
    (ho : lengthOpts t (if VarLen t then 1 else len) len 0 e = lengthOpts t' (if VarLen t' then 1 else len') len' 0 e') : len = len' := by
  unfold lengthOpts at ho
  by_cases hv : VarLen t
  · rw [if_pos (show t = .intvar ∨ t = .uintvar from hv), if_pos hv] at ho
    by_cases hv' : VarLen t'
    · rw [if_pos (show t' = .intvar ∨ t' = .uintvar from hv'), if_pos hv'] at ho
      simp only [List.cons.injEq, and_true, List.append_assoc, List.append_cancel_left_eq] at ho
      exact var_text _ _ h1 h2 ho
    · rw [if_neg (show ¬(t' = .intvar ∨ t' = .uintvar) from hv'), if_neg hv', if_neg (show ¬ (0 ≠ 0) by simp)] at ho
      split at ho
      · simp only [List.cons.injEq, and_true] at ho
        have := congrArg (fun l : Str => l[20]?) ho
        simp at this
      · simp at ho
  · rw [if_neg (show ¬(t = .intvar ∨ t = .uintvar) from hv), if_neg hv, if_neg (show ¬ (0 ≠ 0) by simp)] at ho
    by_cases hv' : VarLen t'
    · rw [if_pos (show t' = .intvar ∨ t' = .uintvar from hv'), if_pos hv'] at ho
      split at ho
      · simp only [List.cons.injEq, and_true] at ho
        have := congrArg (fun l : Str => l[20]?) ho
        simp at this
      · simp at ho
    · rw [if_neg (show ¬(t' = .intvar ∨ t' = .uintvar) from hv'), if_neg hv', if_neg (show ¬ (0 ≠ 0) by simp)] at ho
      split at ho
      · split at ho
        · simp only [List.cons.injEq, and_true, List.append_assoc, List.append_cancel_left_eq] at ho
          have := num_small ⟨len, by omega⟩ ⟨len', by omega⟩ e e' (by simpa only [List.append_assoc] using ho)
          simpa using this
        · simp at ho
      · split at ho
        · simp at ho
        · rename_i a b
          simp only [ne_eq, Decidable.not_not] at a b
          rw [← a, ← b] at hty ⊢
          exact map_type t t' hv hv' hty

theorem filter_num {name : String} {v : Int} {o : List Str} (h : numOpt name v = .ok o) (hn : ∀ s : Str, isLen ("comms::option::def::".toList ++ name.toList ++ s) = false) :
    o.filter isLen = [] := by
  unfold numOpt at h
  simp only [Res.bind_eq_ok, Res.pure_eq] at h
  obtain ⟨s, _, h⟩ := h
  cases h
  have := hn ("<".toList ++ s ++ ">".toList)
  simp only [List.append_assoc] at this ⊢
  simp only [List.filter, this]

theorem filter_ser {st : IntF.State} {o : List Str} (h : serOffsetOpts st = .ok o) : o.filter isLen = [] := by
  unfold serOffsetOpts at h
  split at h
  · cases h; rfl
  · exact filter_num h fun s => rfl

theorem filter_disp {st : IntF.State} {o : List Str} (h : displayOffsetOpts st = .ok o) : o.filter isLen = [] := by
  unfold displayOffsetOpts at h
  split at h
  · cases h; rfl
  · exact filter_num h fun s => rfl

theorem filter_sc {st : IntF.State} {o : List Str} (h : scalingOpts st = .ok o) : o.filter isLen = [] := by
  unfold scalingOpts at h
  split at h
  · cases h; rfl
  · split at h
    · cases h; rfl
    · simp only [Res.bind_eq_ok, Res.pure_eq] at h
      obtain ⟨a, _, b, _, h⟩ := h
      cases h
      rfl

theorem filter_units (u : Units) : (if (unitsOpt u).isEmpty then [] else [unitsOpt u]).filter isLen = [] := by cases u <;> decide

theorem filter_def {cust : List Str} (hc : Custom cust) (c : Common) : (fieldDefOpts cust c).filter isLen = [] := by
  have h1 : cust.filter isLen = [] := by
    rw [List.filter_eq_nil_iff]
    intro s hs h
    have ht := hc s hs
    cases s with
    | nil => simp at ht
    | cons x xs =>
      simp only [List.head?_cons, Option.some.injEq] at ht
      subst ht
      simp [isLen, List.isPrefixOf] at h
  have h2 : ∀ b : Bool, (if b then ["comms::option::def::FailOnInvalid<>".toList] else []).filter isLen = [] := by decide
  have h3 : ∀ b : Bool, (if b then ["comms::option::def::EmptySerialization".toList] else []).filter isLen = [] := by decide
  have h4 : ∀ b : Bool, (if b then ["comms::option::def::FixedValue".toList] else []).filter isLen = [] := by decide
  unfold fieldDefOpts
  rw [List.filter_append, List.filter_append, List.filter_append, h1, h2, h3, h4]
  rfl

theorem filter_len {t : IntType} {a b : Nat} {e : Bool} : (lengthOpts t a b 0 e).filter isLen = lengthOpts t a b 0 e := by
  unfold lengthOpts
  split
  · rfl
  · rw [if_neg (show ¬ (0 ≠ 0) by simp)]
    split <;> rfl

theorem class_len {cust : List Str} (hc : Custom cust) {c : Common} {t : IntType} {st : IntF.State} {K : KeyClass} (h : keyClass cust c t st = .ok K) :
    K.ty = cppIntType t st.length ∧ K.opts.filter isLen = intLengthOpts t st false := by
  unfold keyClass at h
  simp only [Res.bind_eq_ok, Res.pure_eq] at h
  obtain ⟨o1, h1, o2, h2, o3, h3, h⟩ := h
  cases h
  refine ⟨rfl, ?_⟩
  simp only [List.filter_append]
  rw [filter_def hc, filter_ser h1, filter_disp h2, filter_sc h3]
  simp only [List.nil_append, List.append_nil]
  rw [filter_units]
  unfold intLengthOpts
  simp only [Bool.false_eq_true, if_false, filter_len, List.append_nil]

theorem unsigned_of_type {t t' : IntType} {a b : Nat} (h : cppIntType t a = cppIntType t' b) : isUnsigned t = isUnsigned t' := by
  have : ∀ (t : IntType) (a : Nat), isUnsigned t = !(cppIntType t a).1 := by intro t a; cases t <;> rfl
  rw [this t a, this t' b, h]

theorem same_label {cust cust' : List Str} (hc : Custom cust) (hc' : Custom cust') {c c' : Common} {t t' : IntType} {st st' : IntF.State} {K : KeyClass}
    (h : keyClass cust c t st = .ok K) (h' : keyClass cust' c' t' st' = .ok K) (ha : IntF.Accepted st) (ha' : IntF.Accepted st')
    (ht : st.type = some t) (ht' : st'.type = some t') (hv : interp t st.default = interp t' st'.default) : keyLabel t st = keyLabel t' st' := by
  obtain ⟨a1, a2⟩ := class_len hc h
  obtain ⟨b1, b2⟩ := class_len hc' h'
  rw [a1] at b1
  rw [a2] at b2
  have hu := unsigned_of_type b1
  unfold keyLabel
  cases hU : isUnsigned t with
  | false =>
    rw [hU] at hu
    rw [signed_interp hU, signed_interp hu.symm] at hv
    simp [← hu, hv]
  | true =>
    rw [hU] at hu
    obtain ⟨x, hx, ⟨h1, h2⟩, -⟩ := C10_default_specials_of_type_partial st ha
    rw [ht] at hx; cases hx
    obtain ⟨x, hx, ⟨h3, h4⟩, -⟩ := C10_default_specials_of_type_partial st' ha'
    rw [ht'] at hx; cases hx
    have e1 := interp_cast hU h1 h2
    have e2 := interp_cast hu.symm h3 h4
    have e : castU64 st.default = castU64 st'.default := by omega
    obtain ⟨x, hx, _, hl, _⟩ := C09_accepted_length st ha
    rw [ht] at hx; cases hx
    obtain ⟨x, hx, _, hl', _⟩ := C09_accepted_length st' ha'
    rw [ht'] at hx; cases hx
    have hm : ∀ t : IntType, maxTypeLength t ≤ 10 := by intro t; cases t <;> decide
    have := hm t
    have := hm t'
    have hmin : ∀ (st : IntF.State) (t : IntType), st.type = some t → IntF.minLength st = if VarLen t then 1 else st.length := by
      intro st t ht
      unfold IntF.minLength
      rw [ht]
      simp only [Option.some.injEq]
      rfl
    unfold intLengthOpts at b2
    simp only [Bool.false_eq_true, if_false] at b2
    rw [hmin st t ht, hmin st' t' ht'] at b2
    have hlen := len_eq (by omega) (by omega) b1 b2
    simp only [← hu, e, IntF.maxLength, hlen]
    rfl

/-! ## The loops -/

/-- A member with a key. -/
def Keyed (m : Field) (k : Key) (l : Str) : Prop :=
  ∃ c bs al cd t, throughRefs m = some (.bundle c (.int k.c k.st :: bs) al cd) ∧ isPropKey k.c k.st = true ∧ k.st.type = some t ∧ keyLabel t k.st = .ok l

/-- The members from index `i` on: their keys with labels, and whether the last one has none. -/
inductive Run : Nat → List Field → List (Key × Str) → Bool → Prop where
  | done {i : Nat} : Run i [] [] false
  | rest {i : Nat} {m : Field} {c : Common} {bs : List Field} {al : List Alias} {cd : Option CondM.Cond} : throughRefs m = some (.bundle c bs al cd) →
      bundleKey bs = none → Run i [m] [] true
  | key {i : Nat} {m : Field} {ms : List Field} {k : Key} {l : Str} {ps : List (Key × Str)} {b : Bool} : Keyed m k l → k.idx = i → Run (i + 1) ms ps b →
      Run i (m :: ms) ((k, l) :: ps) b

/-- All keys have the same class as the first one. -/
def Alike (cust : Nat → List Str) (ps : List (Key × Str)) : Prop := ∀ p ps', ps = p :: ps' → ∀ q ∈ ps', ∃ a, p.1.cls cust = .ok a ∧ q.1.cls cust = .ok a

theorem bundleKey_some {bs : List Field} {c : Common} {st : IntF.State} (h : bundleKey bs = some (c, st)) : ∃ r, bs = .int c st :: r ∧ isPropKey c st = true := by
  unfold bundleKey at h
  split at h
  · split at h
    · simp only [Option.some.injEq, Prod.mk.injEq] at h
      obtain ⟨rfl, rfl⟩ := h
      rename_i hp
      exact ⟨_, rfl, hp⟩
    · simp at h
  · simp at h

theorem keyLoop_run (cust : Nat → List Str) (ms : List Field) (i : Nat) (first : Option Key) (seen : List Str) (r : Option Key)
    (h : keyLoop cust i first seen ms = .ok (some r)) :
    ∃ ps b, Run i ms ps b ∧ (ps.map Prod.snd).Nodup ∧ (∀ l ∈ ps.map Prod.snd, l ∉ seen) ∧ (match first with
      | some k0 => r = some k0 ∧ ∀ q ∈ ps, ∃ a, k0.cls cust = .ok a ∧ q.1.cls cust = .ok a
      | none => r = ps.head?.map Prod.fst ∧ Alike cust ps) := by
  induction ms generalizing i first seen with
  | nil =>
    simp only [keyLoop, Res.ok.injEq, Option.some.injEq] at h
    subst h
    refine ⟨[], false, .done, by simp, by simp, ?_⟩
    cases first <;> simp [Alike]
  | cons m ms ih =>
    unfold keyLoop at h
    split at h
    · rename_i c bs al cd hm
      split at h
      · rename_i hk
        split at h
        · rename_i hms
          simp only [Res.ok.injEq, Option.some.injEq] at h
          subst h
          rw [List.isEmpty_iff] at hms
          subst hms
          refine ⟨[], true, .rest hm hk, by simp, by simp, ?_⟩
          cases first <;> simp [Alike]
        · simp at h
      · rename_i ci st hk
        obtain ⟨rs, rfl, hp⟩ := bundleKey_some hk
        split at h
        · simp at h
        · rename_i t ht
          rw [res_bind] at h
          obtain ⟨l, hl, h⟩ := h
          split at h
          · simp at h
          · rename_i hseen
            have hkd : Keyed m ⟨i, ci, st⟩ l := ⟨c, rs, al, cd, t, hm, hp, ht, hl⟩
            have hseen : l ∉ seen := by simpa using hseen
            split at h
            · obtain ⟨ps, b, h1, h2, h3, h4, h5⟩ := ih _ _ _ h
              refine ⟨(⟨i, ci, st⟩, l) :: ps, b, .key hkd rfl h1, ?_, ?_, by simp [h4], ?_⟩
              · simp only [List.map_cons, List.nodup_cons]
                exact ⟨fun hm => h3 l hm (by simp), h2⟩
              · intro l' hl'
                simp only [List.map_cons, List.mem_cons] at hl'
                rcases hl' with rfl | hl'
                · exact hseen
                · exact fun hm => h3 l' hl' (by simp [hm])
              · intro p ps' e
                cases e
                exact h5
            · rename_i k0
              rw [res_bind] at h
              obtain ⟨a, ha, h⟩ := h
              rw [res_bind] at h
              obtain ⟨b', hb, h⟩ := h
              split at h
              · rename_i hab
                subst hab
                obtain ⟨ps, b, h1, h2, h3, h4, h5⟩ := ih _ _ _ h
                refine ⟨(⟨i, ci, st⟩, l) :: ps, b, .key hkd rfl h1, ?_, ?_, h4, ?_⟩
                · simp only [List.map_cons, List.nodup_cons]
                  exact ⟨fun hm => h3 l hm (by simp), h2⟩
                · intro l' hl'
                  simp only [List.map_cons, List.mem_cons] at hl'
                  rcases hl' with rfl | hl'
                  · exact hseen
                  · exact fun hm => h3 l' hl' (by simp [hm])
                · intro q hq
                  rcases List.mem_cons.1 hq with rfl | hq
                  · exact ⟨a, ha, hb⟩
                  · exact h5 q hq
              · simp at h
    · simp at h
    · simp at h

theorem caseLoop_run {ms : List Field} {i : Nat} {ps : List (Key × Str)} {b : Bool} (h : Run i ms ps b) {cs : List (Str × Nat)} {d : Option Nat}
    (hc : caseLoop i ms = .ok (cs, d)) : cs = ps.map (fun p => (p.2, p.1.idx)) ∧ d = (if b then some (i + ps.length) else none) := by
  induction h generalizing cs d with
  | done =>
    simp only [caseLoop, Res.ok.injEq, Prod.mk.injEq] at hc
    obtain ⟨rfl, rfl⟩ := hc
    simp
  | @rest i m c bs al cd hm hk =>
    unfold caseLoop at hc
    split at hc
    · rename_i c' ci st bs' al' cd' hm'
      rw [hm] at hm'
      simp only [Option.some.injEq, Field.bundle.injEq] at hm'
      obtain ⟨rfl, rfl, rfl, rfl⟩ := hm'
      simp only [bundleKey] at hk
      have hp : isPropKey ci st = false := by
        cases h : isPropKey ci st with
        | true => simp [h] at hk
        | false => rfl
      simp only [hp, List.isEmpty_nil, Bool.not_true, Bool.or_self, Bool.false_eq_true, if_false, Res.ok.injEq, Prod.mk.injEq] at hc
      obtain ⟨rfl, rfl⟩ := hc
      simp
    · simp at hc
  | @key i m ms k l ps b hk hi _ ih =>
    obtain ⟨c, bs, al, cd, t, hm, hp, ht, hl⟩ := hk
    unfold caseLoop at hc
    rw [hm] at hc
    simp only [hp, Bool.or_true, if_true, ht] at hc
    rw [res_bind] at hc
    obtain ⟨l', hl', hc⟩ := hc
    rw [hl] at hl'
    cases hl'
    rw [res_bind] at hc
    obtain ⟨⟨cs', d'⟩, hr, hc⟩ := hc
    obtain ⟨e1, e2⟩ := ih hr
    simp only [Res.ok.injEq, Prod.mk.injEq] at hc
    obtain ⟨rfl, rfl⟩ := hc
    refine ⟨by simp [e1, hi], ?_⟩
    rw [e2]
    simp [Nat.add_comm, Nat.add_left_comm]

/-- Everything about an optimized read. -/
structure Facts (cust : Nat → List Str) (ms : List Field) (sw : KeySwitch) (ps : List (Key × Str)) (b : Bool) : Prop where
  run : Run 0 ms ps b
  nodup : (ps.map Prod.snd).Nodup
  cls : ∀ p ∈ ps, p.1.cls cust = .ok sw.key
  cases : sw.cases = ps.map (fun p => (p.2, p.1.idx))
  dflt : sw.dflt = if b then some ps.length else none
  two : 2 ≤ ms.length
  ne : ps ≠ []

theorem facts {cust : Nat → List Str} {ms : List Field} {sw : KeySwitch} (h : variantRead cust ms = .ok (some sw)) : ∃ ps b, Facts cust ms sw ps b := by
  unfold variantRead at h
  rw [res_bind] at h
  obtain ⟨k, hk, h⟩ := h
  cases k with
  | none => simp at h
  | some K =>
    simp only at h
    rw [res_bind] at h
    obtain ⟨⟨cs, d⟩, hc, h⟩ := h
    simp only [Res.ok.injEq, Option.some.injEq] at h
    subst h
    unfold optimizedKey at hk
    split at hk
    · simp at hk
    · rename_i h2
      rw [res_bind] at hk
      obtain ⟨r, hr, hk⟩ := hk
      cases r with
      | none => simp at hk
      | some r =>
        cases r with
        | none => simp at hk
        | some k =>
          simp only at hk
          rw [res_bind] at hk
          obtain ⟨a, ha, hk⟩ := hk
          simp only [Res.ok.injEq, Option.some.injEq] at hk
          subst hk
          obtain ⟨ps, b, h1, h3, -, h4, h5⟩ := keyLoop_run cust ms 0 none [] (some k) hr
          obtain ⟨e1, e2⟩ := caseLoop_run h1 hc
          cases ps with
          | nil => simp at h4
          | cons p ps =>
            simp only [List.head?_cons, Option.map_some, Option.some.injEq] at h4
            subst h4
            refine ⟨p :: ps, b, h1, h3, ?_, e1, by rw [e2]; simp, by omega, by simp⟩
            intro q hq
            rcases List.mem_cons.1 hq with rfl | hq
            · exact ha
            · obtain ⟨a', x, y⟩ := h5 p ps rfl q hq
              rw [ha] at x
              cases x
              exact y

/-! ## Reading -/

variable {ι α ε : Type} (r : VReader ι α ε)

theorem leaf_of {m : Field} (hm : Obj m) {g : Field} (hf : Follows m g) : Obj g := by
  induction hf with
  | self => exact hm
  | @ref c b s t g ht _ ih => exact ih (.inner hm (by simpa [Field.subs] using ht))

theorem key_accepted {m : Field} (hm : Obj m) {k : Key} {l : Str} (hk : Keyed m k l) : IntF.Accepted k.st := by
  obtain ⟨c, bs, al, cd, t, h, _⟩ := hk
  have := (obj_leaf (f := .int k.c k.st) (.inner (leaf_of hm (through_follows m _ h)) (by simp [Field.subs]))).self
  exact this

theorem keyed_accepts {cust : List Str} {m : Field} {k : Key} {l : Str} (hk : Keyed m k l) {km : KMember} (hm : MemberIs cust m km) (v : Int) :
    km.accepts v = decide (val k = v) := by
  obtain ⟨c, bs, al, cd, t, h, hp, ht, _⟩ := hk
  obtain ⟨c', bs', al', cd', ci, st, t', hf, ht', _, ha, _⟩ := hm
  have e := follows_unique hf (through_follows m _ h)
  simp only [Field.bundle.injEq, List.cons.injEq, Field.int.injEq] at e
  obtain ⟨_, ⟨⟨rfl, rfl⟩, _⟩, _⟩ := e
  rw [ht] at ht'
  cases ht'
  unfold isPropKey at hp
  simp only [Bool.and_eq_true] at hp
  obtain ⟨⟨hf, _⟩, hr⟩ := hp
  have hv : val k = interp t k.st.default := by simp [val, ht]
  split at hr
  · rename_i x hx
    simp only [Bool.and_eq_true, beq_iff_eq] at hr
    have h1 := ha v
    rw [hx] at h1
    simp only [hf, ne_eq, List.cons_ne_nil, not_false_eq_true, forall_const, List.mem_singleton, exists_eq_left, ← hr.1, hr.2] at h1
    rw [Bool.eq_iff_iff, h1, decide_eq_true_eq, hv]
    constructor
    · intro h; omega
    · intro h; omega
  · simp at hr

theorem keyed_class {cust : Nat → List Str} {m : Field} {k : Key} {l : Str} (hk : Keyed m k l) {km : KMember} (hm : MemberIs (cust k.idx) m km) :
    k.cls cust = .ok km.key := by
  obtain ⟨c, bs, al, cd, t, h, hp, ht, _⟩ := hk
  obtain ⟨c', bs', al', cd', ci, st, t', hf, ht', hk, _⟩ := hm
  have e := follows_unique hf (through_follows m _ h)
  simp only [Field.bundle.injEq, List.cons.injEq, Field.int.injEq] at e
  obtain ⟨_, ⟨⟨rfl, rfl⟩, _⟩, _⟩ := e
  rw [ht] at ht'
  cases ht'
  unfold Key.cls
  rw [ht]
  exact hk

/-- What is read if the key is among the given ones. -/
def selected (K : KeyClass) (cs : List (Nat × Int)) (inp : ι) : Option (Nat × α) :=
  match r.key K inp with
  | .error _ => none
  | .ok (v, inp') => match cs.find? (fun p => p.2 == v) with
    | some p => (r.rest p.1 v inp').toOption.map fun a => (p.1, a)
    | none => none

theorem tried_run {cust : Nat → List Str} {ms : List Field} {i : Nat} {ps : List (Key × Str)} {b : Bool} {K : KeyClass} (h : Run i ms ps b) {ks : List KMember}
    (hk : MembersAre cust i ms ks) (hc : ∀ p ∈ ps, p.1.cls cust = .ok K) (hp : ∀ k ∈ ks, k.plain = true) (hn : (ps.map fun p => val p.1).Nodup) (inp : ι) :
    r.tried i ks inp = (match selected r K (ps.map fun p => (p.1.idx, val p.1)) inp with
      | some x => some x
      | none => r.tried (i + ps.length) (ks.drop ps.length) inp) := by
  induction h generalizing ks with
  | done => simp only [selected, List.map_nil, List.find?_nil, List.length_nil, Nat.add_zero, List.drop_zero]; cases r.key K inp <;> rfl
  | rest => simp only [selected, List.map_nil, List.find?_nil, List.length_nil, Nat.add_zero, List.drop_zero]; cases r.key K inp <;> rfl
  | @key i m ms k l ps b hkd hi _ ih =>
    cases ks with
    | nil => simp [MembersAre] at hk
    | cons km ks =>
      obtain ⟨hm, hk⟩ := hk
      subst hi
      have hcl := hc (k, l) (by simp)
      rw [keyed_class hkd hm] at hcl
      simp only [Res.ok.injEq] at hcl
      have hacc := keyed_accepts hkd hm
      simp only [List.map_cons, List.nodup_cons] at hn
      have ih := ih hk (fun p hp => hc p (by simp [hp])) (fun x hx => hp x (by simp [hx])) hn.2
      simp only [VReader.tried, VReader.one, hcl, hacc, hp km (by simp), if_true, List.map_cons, selected]
      cases hr : r.key K inp with
      | error e =>
        simp only [selected, hr] at ih
        simp only [ih, List.length_cons, List.drop_succ_cons]
        rw [show k.idx + 1 + ps.length = k.idx + (ps.length + 1) by omega]
      | ok x =>
        obtain ⟨v, inp'⟩ := x
        simp only [selected, hr] at ih
        by_cases hv : val k = v
        · subst hv
          simp only [decide_true, if_true, List.find?_cons, beq_self_eq_true]
          cases hrest : r.rest k.idx (val k) inp' with
          | ok a => rfl
          | error e =>
            simp only [Except.toOption, Option.map_none]
            rw [ih]
            have : (ps.map fun p => (p.1.idx, val p.1)).find? (fun p => p.2 == val k) = none := by
              rw [List.find?_eq_none]
              intro p hp he
              simp only [List.mem_map] at hp
              obtain ⟨q, hq, rfl⟩ := hp
              simp only [beq_iff_eq] at he
              exact hn.1 (List.mem_map.2 ⟨q, hq, he⟩)
            rw [this]
            simp only [List.length_cons, List.drop_succ_cons]
            rw [show k.idx + 1 + ps.length = k.idx + (ps.length + 1) by omega]
        · have hv' : (val k == v) = false := by simpa using hv
          simp only [hv, decide_false, Bool.false_eq_true, if_false, List.find?_cons, hv']
          rw [ih]
          simp only [List.length_cons, List.drop_succ_cons]
          rw [show k.idx + 1 + ps.length = k.idx + (ps.length + 1) by omega]

theorem run_length {i : Nat} {ms : List Field} {ps : List (Key × Str)} {b : Bool} (h : Run i ms ps b) : ms.length = ps.length + if b then 1 else 0 := by
  induction h with
  | done => rfl
  | rest => rfl
  | key _ _ _ ih => simp [ih]; omega

theorem members_length {cust : Nat → List Str} {i : Nat} {ms : List Field} {ks : List KMember} (h : MembersAre cust i ms ks) : ks.length = ms.length := by
  induction ms generalizing i ks with
  | nil => cases ks <;> simp [MembersAre] at h ⊢
  | cons m ms ih =>
    cases ks with
    | nil => simp [MembersAre] at h
    | cons k ks => simp [ih h.2]

theorem run_keyed {i : Nat} {ms : List Field} {ps : List (Key × Str)} {b : Bool} (h : Run i ms ps b) : ∀ p ∈ ps, ∃ m ∈ ms, Keyed m p.1 p.2 := by
  induction h with
  | done => simp
  | rest => simp
  | key hk _ _ ih =>
    intro p hp
    rcases List.mem_cons.1 hp with rfl | hp
    · exact ⟨_, by simp, hk⟩
    · obtain ⟨m, hm, h⟩ := ih p hp
      exact ⟨m, by simp [hm], h⟩

theorem vals_nodup {cust : Nat → List Str} (hcust : ∀ i, Custom (cust i)) {ms : List Field} {sw : KeySwitch} {ps : List (Key × Str)} {b : Bool} (hf : Facts cust ms sw ps b)
    (ho : ∀ m ∈ ms, Obj m) : (ps.map fun p => val p.1).Nodup := by
  have key : ∀ p ∈ ps, ∀ q ∈ ps, val p.1 = val q.1 → p.2 = q.2 := by
    intro p hp q hq hv
    obtain ⟨m, hm, hk⟩ := run_keyed hf.run p hp
    obtain ⟨m', hm', hk'⟩ := run_keyed hf.run q hq
    have ha := key_accepted (ho m hm) hk
    have ha' := key_accepted (ho m' hm') hk'
    have hc := hf.cls p hp
    have hc' := hf.cls q hq
    obtain ⟨_, _, _, _, t, _, _, ht, hl⟩ := hk
    obtain ⟨_, _, _, _, t', _, _, ht', hl'⟩ := hk'
    simp only [Key.cls, ht] at hc
    simp only [Key.cls, ht'] at hc'
    simp only [val, ht, ht'] at hv
    have := same_label (hcust _) (hcust _) hc hc' ha ha' ht ht' hv
    rw [hl, hl'] at this
    simpa using this
  have hn := hf.nodup
  have gen : ∀ ps : List (Key × Str), (ps.map Prod.snd).Nodup → (∀ p ∈ ps, ∀ q ∈ ps, val p.1 = val q.1 → p.2 = q.2) → (ps.map fun p => val p.1).Nodup := by
    intro ps
    induction ps with
    | nil => simp
    | cons p ps ih =>
      intro h1 h2
      simp only [List.map_cons, List.nodup_cons] at h1 ⊢
      refine ⟨?_, ih h1.2 fun p hp q hq => h2 p (by simp [hp]) q (by simp [hq])⟩
      intro hm
      obtain ⟨q, hq, he⟩ := List.mem_map.1 hm
      exact h1.1 (List.mem_map.2 ⟨q, hq, h2 q (by simp [hq]) p (by simp) he⟩)
  exact gen ps hn key

theorem zip_vals (ps : List (Key × Str)) : ((ps.map (fun p => (p.2, p.1.idx))).map Prod.snd).zip (ps.map fun p => val p.1) = ps.map fun p => (p.1.idx, val p.1) := by
  induction ps with
  | nil => rfl
  | cons p ps ih => simpa using ih

theorem vals_labels {cust : Nat → List Str} {ms : List Field} {sw : KeySwitch} {ps : List (Key × Str)} {b : Bool} (hf : Facts cust ms sw ps b)
    (ho : ∀ m ∈ ms, Obj m) : ∀ (j : Nat) (c : Str × Nat) (v : Int), sw.cases[j]? = some c → (ps.map fun p => val p.1)[j]? = some v → CaseValue c.1 v := by
  intro j c v h1 h2
  rw [hf.cases, List.getElem?_map] at h1
  rw [List.getElem?_map] at h2
  cases hp : ps[j]? with
  | none => rw [hp] at h1; simp at h1
  | some p =>
    rw [hp] at h1 h2
    simp only [Option.map_some, Option.some.injEq] at h1 h2
    subst h1 h2
    obtain ⟨m, hm, hk⟩ := run_keyed hf.run p (List.mem_of_getElem? hp)
    have ha := key_accepted (ho m hm) hk
    obtain ⟨_, _, _, _, t, _, _, ht, hl⟩ := hk
    simp only [val, ht]
    exact label_value ha ht hl

end VariantProofs

open VariantProofs

namespace VariantProofs

/-- An option for the offset. -/
def isOff (s : Str) : Bool := "comms::option::def::NumValueSerOffset".toList.isPrefixOf s

theorem off_len {t : IntType} {a b c : Nat} {e : Bool} : (lengthOpts t a b c e).filter isOff = [] := by
  unfold lengthOpts
  repeat' split
  all_goals rfl

theorem off_ser {st : IntF.State} {o : List Str} (h : serOffsetOpts st = .ok o) : o.filter isOff = o := by
  unfold serOffsetOpts at h
  split at h
  · cases h; rfl
  · unfold numOpt at h
    simp only [Res.bind_eq_ok, Res.pure_eq] at h
    obtain ⟨s, _, h⟩ := h
    cases h
    rfl

theorem off_disp {st : IntF.State} {o : List Str} (h : displayOffsetOpts st = .ok o) : o.filter isOff = [] := by
  unfold displayOffsetOpts at h
  split at h
  · cases h; rfl
  · unfold numOpt at h
    simp only [Res.bind_eq_ok, Res.pure_eq] at h
    obtain ⟨s, _, h⟩ := h
    cases h
    rfl

theorem off_sc {st : IntF.State} {o : List Str} (h : scalingOpts st = .ok o) : o.filter isOff = [] := by
  unfold scalingOpts at h
  split at h
  · cases h; rfl
  · split at h
    · cases h; rfl
    · simp only [Res.bind_eq_ok, Res.pure_eq] at h
      obtain ⟨a, _, b, _, h⟩ := h
      cases h
      rfl

theorem off_units (u : Units) : (if (unitsOpt u).isEmpty then [] else [unitsOpt u]).filter isOff = [] := by cases u <;> decide

theorem off_def {cust : List Str} (hc : Custom cust) (c : Common) : (fieldDefOpts cust c).filter isOff = [] := by
  have h1 : cust.filter isOff = [] := by
    rw [List.filter_eq_nil_iff]
    intro s hs h
    have ht := hc s hs
    cases s with
    | nil => simp at ht
    | cons x xs =>
      simp only [List.head?_cons, Option.some.injEq] at ht
      subst ht
      simp [isOff, List.isPrefixOf] at h
  have h2 : ∀ b : Bool, (if b then ["comms::option::def::FailOnInvalid<>".toList] else []).filter isOff = [] := by decide
  have h3 : ∀ b : Bool, (if b then ["comms::option::def::EmptySerialization".toList] else []).filter isOff = [] := by decide
  have h4 : ∀ b : Bool, (if b then ["comms::option::def::FixedValue".toList] else []).filter isOff = [] := by decide
  unfold fieldDefOpts
  rw [List.filter_append, List.filter_append, List.filter_append, h1, h2, h3, h4]
  rfl

end VariantProofs

/-- C102, keys of one class are put on the wire in the same way: in the same byte order, C++ type, length and with the same offset. -/
theorem C102_key_wire (cust cust' : List Str) (hc : Custom cust) (hc' : Custom cust') (c c' : Common) (t t' : IntType) (st st' : IntF.State) (K : KeyClass)
    (h : keyClass cust c t st = .ok K) (h' : keyClass cust' c' t' st' = .ok K) :
    st.endian = st'.endian ∧ cppIntType t st.length = cppIntType t' st'.length ∧
      (∀ w, WireOf (cppIntType t st.length) (intLengthOpts t st false) w ↔ WireOf (cppIntType t' st'.length) (intLengthOpts t' st' false) w) ∧
      ∀ o o', serOffsetOpts st = .ok o → serOffsetOpts st' = .ok o' → ∀ v, NumOpt "NumValueSerOffset" 0 o v ↔ NumOpt "NumValueSerOffset" 0 o' v := by
  obtain ⟨a1, a2⟩ := class_len hc h
  obtain ⟨b1, b2⟩ := class_len hc' h'
  have off : ∀ {cust : List Str} {c : Common} {t : IntType} {st : IntF.State}, Custom cust → keyClass cust c t st = .ok K → st.endian = K.endian ∧
      ∀ o, serOffsetOpts st = .ok o → K.opts.filter isOff = o := by
    intro cust c t st hc h
    unfold keyClass at h
    simp only [Res.bind_eq_ok, Res.pure_eq] at h
    obtain ⟨o1, h1, o2, h2, o3, h3, h⟩ := h
    cases h
    refine ⟨rfl, fun o ho => ?_⟩
    rw [h1] at ho
    cases ho
    simp only [List.filter_append]
    rw [off_def hc, off_ser h1, off_disp h2, off_sc h3]
    simp only [List.nil_append, List.append_nil]
    rw [off_units]
    unfold intLengthOpts
    rw [off_len, List.nil_append, List.append_nil]
  obtain ⟨c1, c2⟩ := off hc h
  obtain ⟨d1, d2⟩ := off hc' h'
  refine ⟨c1.trans d1.symm, a1.symm.trans b1, fun w => by rw [← a1, ← a2, ← b1, ← b2], fun o o' ho ho' v => ?_⟩
  rw [← c2 o ho, ← d2 o' ho']

/-- C102, variants all members of which have a key, partial: the case labels are pairwise different, and for every input the generated function reads the same member with the
    same result as trying all members in order. Missing: members that prepare their own members (see `C102_prepared_witness`), a last member without key (see below);
    which error is reported. -/
theorem C102_keys_partial (cust : Nat → List Str) (hcust : ∀ i, Custom (cust i)) (ms : List Field) (ho : ∀ m ∈ ms, Obj m) (sw : KeySwitch)
    (h : variantRead cust ms = .ok (some sw)) (hd : sw.dflt = none) :
    ∃ vals : List Int, vals.length = sw.cases.length ∧ (∀ (j : Nat) (c : Str × Nat) (v : Int), sw.cases[j]? = some c → vals[j]? = some v → CaseValue c.1 v) ∧ vals.Nodup ∧
      ∀ ks, MembersAre cust 0 ms ks → (∀ k ∈ ks, k.plain = true) → ∀ {ι α ε : Type} (r : VReader ι α ε) (inp : ι),
        r.switched sw vals inp = r.tried 0 ks inp := by
  obtain ⟨ps, b, hf⟩ := facts h
  refine ⟨ps.map fun p => val p.1, by simp [hf.cases], vals_labels hf ho, vals_nodup hcust hf ho, ?_⟩
  intro ks hk hp ι α ε r inp
  have hb : b = false := by
    have := hf.dflt
    rw [hd] at this
    cases b <;> simp at this ⊢
  subst hb
  rw [tried_run r hf.run hk hf.cls hp (vals_nodup hcust hf ho) inp]
  have hl : ks.drop ps.length = [] := by
    have h1 := run_length hf.run
    have h2 := members_length hk
    simp at h1
    rw [List.drop_eq_nil_iff]
    omega
  rw [hl]
  simp only [VReader.switched, selected, hf.cases, zip_vals, hd, VReader.tried]
  cases r.key sw.key inp with
  | error e => rfl
  | ok x =>
    obtain ⟨v, inp'⟩ := x
    simp only
    cases (ps.map fun p => (p.1.idx, val p.1)).find? (fun p => p.2 == v) with
    | none => rfl
    | some p => simp only; cases (r.rest p.1 v inp').toOption <;> rfl

/-- C102, variants the last member of which has no key, partial: if its first field is read like the keys and takes every value, then what is read by the
    generated function is what trying all members in order gives; and if that gives a member with a key, or the input does not start with a key, then the generated
    function reads the same. Missing: other first fields of the last member (see `C102_other_witness`), inputs that start with a key but whose rest can be read by the last
    member only (see `C102_fallback_witness`). -/
theorem C102_last_partial (cust : Nat → List Str) (hcust : ∀ i, Custom (cust i)) (ms : List Field) (ho : ∀ m ∈ ms, Obj m) (sw : KeySwitch)
    (h : variantRead cust ms = .ok (some sw)) (n : Nat) (hd : sw.dflt = some n) :
    n + 1 = ms.length ∧ ∃ vals : List Int, vals.length = sw.cases.length ∧
      (∀ (j : Nat) (c : Str × Nat) (v : Int), sw.cases[j]? = some c → vals[j]? = some v → CaseValue c.1 v) ∧ vals.Nodup ∧
      ∀ ks, MembersAre cust 0 ms ks → (∀ k ∈ ks, k.plain = true) → ∀ {ι α ε : Type} (r : VReader ι α ε) (inp : ι),
        (∀ k, ks[n]? = some k → r.key k.key inp = r.key sw.key inp ∧ ∀ v, k.accepts v = true) →
        (∀ x, r.switched sw vals inp = some x → r.tried 0 ks inp = some x) ∧
        ∀ i a, r.tried 0 ks inp = some (i, a) → (i < n ∨ ∀ v inp', r.key sw.key inp = .ok (v, inp') → v ∉ vals) → r.switched sw vals inp = some (i, a) := by
  obtain ⟨ps, b, hf⟩ := facts h
  have hb : b = true ∧ n = ps.length := by
    have := hf.dflt
    rw [hd] at this
    cases b <;> simp at this ⊢
    exact this
  obtain ⟨rfl, rfl⟩ := hb
  refine ⟨by have := run_length hf.run; simp at this; omega, ps.map fun p => val p.1, by simp [hf.cases], vals_labels hf ho, vals_nodup hcust hf ho, ?_⟩
  intro ks hk hp ι α ε r inp hlast
  have h1 := run_length hf.run
  have h2 := members_length hk
  simp only [if_true] at h1
  obtain ⟨kl, hkl⟩ : ∃ k, ks[ps.length]? = some k := ⟨_, List.getElem?_eq_getElem (by omega)⟩
  have hdrop : ks.drop ps.length = [kl] := by
    have hlt : ps.length < ks.length := by omega
    rw [List.drop_eq_getElem_cons hlt, List.drop_eq_nil_of_le (by omega)]
    rw [List.getElem?_eq_getElem hlt] at hkl
    simpa using hkl
  obtain ⟨e1, e2⟩ := hlast kl hkl
  have e3 := hp kl (List.mem_of_getElem? hkl)
  rw [tried_run r hf.run hk hf.cls hp (vals_nodup hcust hf ho) inp, hdrop]
  simp only [VReader.switched, selected, hf.cases, zip_vals, hd, VReader.tried, VReader.one, e1, e2, e3, if_true, Nat.zero_add]
  cases hkey : r.key sw.key inp with
  | error e => simp
  | ok x =>
    obtain ⟨v, inp'⟩ := x
    simp only
    cases hfind : (ps.map fun p => (p.1.idx, val p.1)).find? (fun p => p.2 == v) with
    | none =>
      simp only
      cases (r.rest ps.length v inp').toOption with
      | none => simp
      | some a =>
        simp only [Option.map_some, Option.some.injEq]
        exact ⟨fun x h => h, fun i a h _ => h⟩
    | some p =>
      simp only
      cases (r.rest p.1 v inp').toOption with
      | some a =>
        simp only [Option.map_some, Option.some.injEq]
        exact ⟨fun x h => h, fun i a h _ => h⟩
      | none =>
        simp only [Option.map_none, reduceCtorEq, false_implies, implies_true, true_and]
        intro i a ht hor
        exfalso
        have hm := List.mem_of_find?_eq_some hfind
        have hv := List.find?_some hfind
        simp only [beq_iff_eq] at hv
        obtain ⟨q, hq, rfl⟩ := List.mem_map.1 hm
        rcases hor with hi | hall
        · cases hl : (r.rest ps.length v inp').toOption with
          | none => rw [hl] at ht; simp at ht
          | some a' => rw [hl] at ht; simp at ht; omega
        · exact hall v inp' rfl (List.mem_map.2 ⟨q, hq, hv⟩)

namespace VariantSample
open Sample

def key (v : String) : Xml := el "int" [("name", "k"), ("type", "uint8"), ("defaultValue", v), ("validValue", v), ("failOnInvalid", "true")]

def u8 (n : String) : Xml := el "int" [("name", n), ("type", "uint8")]

def bu (n : String) (ms : List Xml) : Xml := el "bundle" [("name", n)] ms

/-- Two bundles with keys 1 and 2, and others. -/
def vr (last : List Xml) : Xml := el "variant" [("name", "x")] ([bu "a" [key "1", u8 "d"], bu "b" [key "2", u8 "d"]] ++ last)

/-- Bytes; keys are read with the lowest byte first. The rest of bundle `i` is `lens[i]` bytes; the bundle itself takes one byte for the length of the rest. -/
def rd (lens : List Nat) : VReader (List Nat) (List Nat) String where
  key K inp := if inp.length < K.ty.2 / 8 then .error "NotEnoughData" else
    .ok ((inp.take (K.ty.2 / 8)).foldr (fun (b : Nat) (a : Int) => b + 256 * a) 0, inp.drop (K.ty.2 / 8))
  rest i _ inp := if inp.length < lens.getD i 0 then .error "NotEnoughData" else .ok (inp.take (lens.getD i 0))
  own _ _ inp := match inp with
    | [] => .error "NotEnoughData"
    | n :: inp => if inp.length < n then .error "NotEnoughData" else .ok (n :: inp.take n)

/-- The description of a member that is a bundle. -/
def memberOf : Field → Option KMember
  | .bundle _ (.int ci st :: bs) _ _ =>
    match st.type with
    | none => none
    | some t => match keyClass [] ci t st with
      | .ok K => some ⟨K, fun v => !ci.failOnInvalid || st.validRanges.isEmpty || st.validRanges.any fun r => decide (interp t r.min ≤ v ∧ v ≤ interp t r.max),
          (bundleRead (.int ci st :: bs)).isNone⟩
      | _ => none
  | _ => none

theorem memberOf_is {f : Field} {k : KMember} (h : memberOf f = some k) : MemberIs [] f k := by
  unfold memberOf at h
  split at h
  · rename_i c ci st bs al cd
    split at h
    · simp at h
    · rename_i t ht
      split at h
      · rename_i K hK
        simp only [Option.some.injEq] at h
        subst h
        refine ⟨c, bs, al, cd, ci, st, t, .self (by simp [Field.kind]), ht, hK, ?_, by simp⟩
        intro v
        cases hf : ci.failOnInvalid <;> cases hr : st.validRanges <;> simp
      · simp at h
  · simp at h

def membersOf : List Field → Option (List KMember)
  | [] => some []
  | m :: ms => match memberOf m, membersOf ms with
    | some k, some ks => some (k :: ks)
    | _, _ => none

theorem membersOf_are {ms : List Field} {ks : List KMember} (h : membersOf ms = some ks) (i : Nat) : MembersAre (fun _ => []) i ms ks := by
  induction ms generalizing ks i with
  | nil => simp [membersOf] at h; subst h; trivial
  | cons m ms ih =>
    unfold membersOf at h
    split at h
    · rename_i k ks' h1 h2
      simp only [Option.some.injEq] at h
      subst h
      exact ⟨memberOf_is h1, ih h2 _⟩
    · simp at h

/-- The variant is accepted, and its case labels have the values 1 and 2. -/
structure Shown (f : Field) (ks : List KMember) (sw : KeySwitch) : Prop where
  acc : Accepted f
  kind : f.kind = .variant
  are : MembersAre (fun _ => []) 0 f.members ks
  read : variantRead (fun _ => []) f.members = .ok (some sw)
  labels : sw.cases = [("1 /* 0x01 */".toList, 0), ("2 /* 0x02 */".toList, 1)]

def check (p : List KMember → KeySwitch → Bool) (f : Field) : Bool :=
  decide (f.kind = .variant) && match membersOf f.members, variantRead (fun _ => []) f.members with
    | some ks, .ok (some sw) => decide (sw.cases = [("1 /* 0x01 */".toList, 0), ("2 /* 0x02 */".toList, 1)]) && p ks sw
    | _, _ => false

theorem check_spec {p : List KMember → KeySwitch → Bool} {f : Field} (h1 : Spec.Accepted f) (h2 : check p f = true) : ∃ ks sw, Shown f ks sw ∧ p ks sw = true := by
  unfold check at h2
  simp only [Bool.and_eq_true, decide_eq_true_eq] at h2
  obtain ⟨h2, h3⟩ := h2
  split at h3
  · rename_i ks sw h4 h5
    simp only [Bool.and_eq_true, decide_eq_true_eq] at h3
    exact ⟨ks, sw, ⟨h1, h2, membersOf_are h4 0, h5, h3.1⟩, h3.2⟩
  · simp at h3

theorem shown {x : Xml} {p : List KMember → KeySwitch → Bool} (h : Sample.okWith (parseField env0 9 .top x) (check p) = true) : ∃ f ks sw, Shown f ks sw ∧ p ks sw = true := by
  obtain ⟨f, h1, h2⟩ := accepted env0_ok h
  exact ⟨f, check_spec h1 h2⟩

end VariantSample

open VariantSample

/-- Two bundles with keys: all members are left to the library; there is no default case. -/
example : ∃ f ks sw, Shown f ks sw ∧ sw.dflt = none ∧ (∀ k ∈ ks, k.plain = true) ∧ (rd [1, 1]).switched sw [1, 2] [2, 7] = some (1, [7]) := by
  obtain ⟨f, ks, sw, h1, h2⟩ := shown (x := vr [])
    (p := fun ks sw => decide (sw.dflt = none) && (ks.all (·.plain) && decide ((rd [1, 1]).switched sw [1, 2] [2, 7] = some (1, [7])))) (by decide +kernel)
  simp only [Bool.and_eq_true, decide_eq_true_eq, List.all_eq_true] at h2
  exact ⟨f, ks, sw, h1, h2⟩

theorem VariantSample.free {m : Field} {cust : List Str} {k : KMember} (h : MemberIs cust m k) {c al cd ci st bs} (hm : m = .bundle c (.int ci st :: bs) al cd)
    (hf : ci.failOnInvalid = false) (v : Int) : k.accepts v = true := by
  subst hm
  obtain ⟨_, _, _, _, _, _, _, hfl, _, _, ha, _⟩ := h
  have e := follows_unique hfl (.self (by simp [Field.kind]))
  simp only [Field.bundle.injEq, List.cons.injEq, Field.int.injEq] at e
  obtain ⟨_, ⟨⟨rfl, rfl⟩, _⟩, _⟩ := e
  rw [ha v]
  simp [hf]

theorem VariantSample.third {m0 m1 : Field} {cust : Nat → List Str} {ks : List KMember} {c al cd ci st bs}
    (h : MembersAre cust 0 [m0, m1, .bundle c (.int ci st :: bs) al cd] ks) {k : KMember} (hk : ks[2]? = some k)
    (hf : ci.failOnInvalid = false) (v : Int) : k.accepts v = true := by
  cases ks with
  | nil => simp at hk
  | cons k0 ks => cases ks with
    | nil => simp at hk
    | cons k1 ks => cases ks with
      | nil => simp at hk
      | cons k2 ks =>
        simp only [List.getElem?_cons_succ, List.getElem?_cons_zero, Option.some.injEq] at hk
        subst hk
        exact free h.2.2.1 rfl hf v

open Sample in
/-- A third one without: its first field is read like the keys, and takes every value. -/
example : ∃ f ks sw, Shown f ks sw ∧ sw.dflt = some 2 ∧ (∀ k ∈ ks, k.plain = true) ∧
    (∃ k, ks[2]? = some k ∧ (∀ inp, (rd [1, 1, 1]).key k.key inp = (rd [1, 1, 1]).key sw.key inp) ∧ ∀ v, k.accepts v = true) ∧
    (rd [1, 1, 1]).switched sw [1, 2] [9, 7] = some (2, [7]) := by
  obtain ⟨f, h1, h2⟩ := accepted env0_ok (x := vr [bu "c" [u8 "k", u8 "d"]]) (parent := .top) (p := fun f => check
    (fun ks sw => decide (sw.dflt = some 2) && (ks.all (·.plain) && (decide ((rd [1, 1, 1]).switched sw [1, 2] [9, 7] = some (2, [7])) &&
      decide (ks[2]?.map (·.key.ty) = some sw.key.ty)))) f &&
    match f.members with
      | [_, _, .bundle _ (.int c _ :: _) _ _] => !c.failOnInvalid
      | _ => false) (by decide +kernel)
  simp only [Bool.and_eq_true] at h2
  obtain ⟨h2, h3⟩ := h2
  split at h3
  · rename_i m0 m1 c ci st bs al cd hm
    simp only [Bool.not_eq_true'] at h3
    obtain ⟨ks, sw, hsh, h2⟩ := check_spec h1 h2
    simp only [Bool.and_eq_true, decide_eq_true_eq, List.all_eq_true] at h2
    obtain ⟨hd, hp, hs, hty⟩ := h2
    refine ⟨f, ks, sw, hsh, hd, hp, ?_, hs⟩
    have are := hsh.are
    rw [hm] at are
    cases hk : ks[2]? with
    | none => rw [hk] at hty; simp at hty
    | some k =>
      refine ⟨k, rfl, ?_, third are hk h3⟩
      intro inp
      have : k.key.ty = sw.key.ty := by rw [hk] at hty; simpa using hty
      simp only [rd, this]
  · simp at h3

/-- C102, the first field of the last member is not compared with the keys: here it has two bytes, and is not read as such. -/
theorem C102_other_witness : ∃ f ks sw, Shown f ks sw ∧ (∀ k ∈ ks, k.plain = true) ∧ (rd [1, 1, 1]).tried 0 ks [9, 1, 7] = some (2, [7]) ∧
    (rd [1, 1, 1]).switched sw [1, 2] [9, 1, 7] = some (2, [1]) := by
  obtain ⟨f, ks, sw, h1, h2⟩ := shown (x := vr [bu "c" [Sample.el "int" [("name", "k"), ("type", "uint16")], u8 "d"]])
    (p := fun ks sw => ks.all (·.plain) && (decide ((rd [1, 1, 1]).tried 0 ks [9, 1, 7] = some (2, [7])) &&
      decide ((rd [1, 1, 1]).switched sw [1, 2] [9, 1, 7] = some (2, [1])))) (by decide +kernel)
  simp only [Bool.and_eq_true, decide_eq_true_eq, List.all_eq_true] at h2
  exact ⟨f, ks, sw, h1, h2⟩

/-- C102, the first field of the last member may take some values only, and fail on others: the generated function takes those, too. -/
theorem C102_invalid_witness : ∃ f ks sw, Shown f ks sw ∧ (∀ k ∈ ks, k.plain = true) ∧ (rd [1, 1, 1]).tried 0 ks [9, 7] = none ∧
    (rd [1, 1, 1]).switched sw [1, 2] [9, 7] = some (2, [7]) := by
  obtain ⟨f, ks, sw, h1, h2⟩ := shown
    (x := vr [bu "c" [Sample.el "int" [("name", "k"), ("type", "uint8"), ("validRange", "[3, 4]"), ("failOnInvalid", "true")], u8 "d"]])
    (p := fun ks sw => ks.all (·.plain) && (decide ((rd [1, 1, 1]).tried 0 ks [9, 7] = none) &&
      decide ((rd [1, 1, 1]).switched sw [1, 2] [9, 7] = some (2, [7])))) (by decide +kernel)
  simp only [Bool.and_eq_true, decide_eq_true_eq, List.all_eq_true] at h2
  exact ⟨f, ks, sw, h1, h2⟩

/-- C102, an input that starts with a key but is too short for its bundle: it can be read by the last member, but not by the generated function. -/
theorem C102_fallback_witness : ∃ f ks sw, Shown f ks sw ∧ (∀ k ∈ ks, k.plain = true) ∧ (rd [2, 1, 1]).tried 0 ks [1, 7] = some (2, [7]) ∧
    (rd [2, 1, 1]).switched sw [1, 2] [1, 7] = none := by
  obtain ⟨f, ks, sw, h1, h2⟩ := shown (x := vr [bu "c" [u8 "k", u8 "d"]])
    (p := fun ks sw => ks.all (·.plain) && (decide ((rd [2, 1, 1]).tried 0 ks [1, 7] = some (2, [7])) &&
      decide ((rd [2, 1, 1]).switched sw [1, 2] [1, 7] = none))) (by decide +kernel)
  simp only [Bool.and_eq_true, decide_eq_true_eq, List.all_eq_true] at h2
  exact ⟨f, ks, sw, h1, h2⟩

/-- C102, a bundle with a read function of its own (data whose length is another member): the generated function of the variant does not use it. -/
theorem C102_prepared_witness : ∃ f ks sw, Shown f ks sw ∧ (∃ k, ks[2]? = some k ∧ k.plain = false) ∧
    (rd [1, 1, 1]).tried 0 ks [9, 2, 7, 8] = some (2, [2, 7, 8]) ∧ (rd [1, 1, 1]).switched sw [1, 2] [9, 2, 7, 8] = some (2, [2]) := by
  obtain ⟨f, ks, sw, h1, h2⟩ := shown (x := vr [bu "c" [u8 "k", u8 "n", Sample.el "data" [("name", "d"), ("lengthPrefix", "$n")]]])
    (p := fun ks sw => (match ks[2]? with | some k => !k.plain | none => false) && (decide ((rd [1, 1, 1]).tried 0 ks [9, 2, 7, 8] = some (2, [2, 7, 8])) &&
      decide ((rd [1, 1, 1]).switched sw [1, 2] [9, 2, 7, 8] = some (2, [2])))) (by decide +kernel)
  simp only [Bool.and_eq_true, decide_eq_true_eq] at h2
  refine ⟨f, ks, sw, h1, ?_, h2.2⟩
  have h3 := h2.1
  split at h3
  · rename_i k hk
    exact ⟨k, hk, by simpa using h3⟩
  · simp at h3

/-- C102, the last member starts with an `<enum>`: it is taken for an `<int>`. -/
theorem C102_enum_witness : ∃ f, Spec.Accepted f ∧ f.kind = .variant ∧ variantRead (fun _ => []) f.members = .ub := by
  obtain ⟨f, h1, h2⟩ := Sample.accepted Sample.env0_ok (parent := .top)
    (x := vr [bu "c" [Sample.el "enum" [("name", "k"), ("type", "uint8")] [Sample.el "validValue" [("name", "v"), ("val", "3")]], u8 "d"]])
    (p := fun f => decide (f.kind = .variant) && decide (variantRead (fun _ => []) f.members = .ub)) (by decide +kernel)
  simp only [Bool.and_eq_true, decide_eq_true_eq] at h2
  exact ⟨f, h1, h2⟩

end Commsdsl.Props
