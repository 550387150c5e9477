import Verif.Model.SetField
import Verif.Lemmas.MultiMap
/-!
# Properties C18, C61: `<set>` fields
-/
namespace Commsdsl.Props
open Commsdsl IntF Text

namespace SetProofs
open SetF

/-- The two bits exist in a common protocol version. -/
def Overlap (a b : BitInfo) : Prop := a.since < b.depr ∧ b.since < a.depr

/-- What holds of the table of bits. -/
structure Table (st : SetF.State) : Prop where
  names : (st.bits.map Prod.fst).Nodup
  valid : ∀ p ∈ st.bits, isValidName p.1 = true
  perm : st.rev.Perm (st.bits.map fun p => (p.2.idx, p.1))
  sorted : (st.rev.map Prod.fst).Pairwise (· ≤ ·)
  uniq : st.nonUnique = false → (st.rev.map Prod.fst).Nodup
  cons : st.bits.Pairwise fun p q => p.2.idx = q.2.idx → Overlap p.2 q.2 →
    p.2.default = q.2.default ∧ p.2.reserved = q.2.reserved ∧ p.2.reservedValue = q.2.reservedValue

theorem Table.congr {s s' : SetF.State} (h : Table s) (h1 : s'.bits = s.bits) (h2 : s'.rev = s.rev) (h3 : s'.nonUnique = s.nonUnique) :
    Table s' := by
  constructor
  · rw [h1]; exact h.names
  · rw [h1]; exact h.valid
  · rw [h1, h2]; exact h.perm
  · rw [h2]; exact h.sorted
  · rw [h2, h3]; exact h.uniq
  · rw [h1]; exact h.cons

theorem find_some {l : List (Str × BitInfo)} (hn : (l.map Prod.fst).Nodup) {p : Str × BitInfo} (hp : p ∈ l) :
    findBit l p.1 = some p.2 := by
  unfold findBit
  induction l with
  | nil => simp at hp
  | cons a r ih =>
    simp only [List.map_cons, List.nodup_cons] at hn
    rcases List.mem_cons.1 hp with rfl | hp
    · simp
    · have : a.1 ≠ p.1 := fun e => hn.1 (e ▸ List.mem_map_of_mem hp)
      rw [List.find?_cons_of_neg (by simpa using this)]
      exact ih hn.2 hp

theorem allConsistent_spec (info : BitInfo) (l : List (Option BitInfo)) :
    (allConsistent info l = .ok true → ∀ o ∈ l, ∀ old, o = some old → consistent info old = true) ∧
    (none ∉ l → allConsistent info l ≠ .ub) := by
  induction l with
  | nil => simp [allConsistent]
  | cons a r ih =>
    cases a with
    | none => simp [allConsistent]
    | some old =>
      unfold allConsistent
      split
      · rename_i hc
        constructor
        · intro h o ho old' ho'
          rcases List.mem_cons.1 ho with rfl | ho
          · cases ho'; exact hc
          · exact ih.1 h o ho old' ho'
        · intro h
          exact ih.2 (fun hm => h (List.mem_cons_of_mem _ hm))
      · simp

theorem consistent_spec {info old : BitInfo} (h : consistent info old = true) (ho : Overlap old info) :
    old.default = info.default ∧ old.reserved = info.reserved ∧ old.reservedValue = info.reservedValue := by
  unfold consistent at h
  unfold Overlap at ho
  rw [if_neg (by omega), if_neg (by omega)] at h
  simp only [Bool.and_eq_true, beq_iff_eq] at h
  exact ⟨h.1.1.symm, h.1.2.symm, h.2.symm⟩

/-- All bits found through the reverse table are there. -/
theorem sameIdx_mem {st : SetF.State} (hi : Table st) (idx : Nat) :
    (∀ p ∈ st.bits, p.2.idx = idx → some p.2 ∈ sameIdx st idx) ∧ none ∉ sameIdx st idx := by
  unfold sameIdx
  constructor
  · intro p hp he
    rw [List.mem_map]
    refine ⟨(p.2.idx, p.1), ?_, find_some hi.names hp⟩
    rw [List.mem_filter]
    exact ⟨hi.perm.mem_iff.2 (List.mem_map.2 ⟨p, hp, rfl⟩), by simp [he]⟩
  · intro hm
    obtain ⟨e, he, hf⟩ := List.mem_map.1 hm
    have := hi.perm.mem_iff.1 (List.mem_filter.1 he).1
    obtain ⟨p, hp, rfl⟩ := List.mem_map.1 this
    rw [find_some hi.names hp] at hf
    cases hf

theorem step {env : Env} {c : Ctx} {x : Xml} {st st' : SetF.State} (h : bitStep env c x st = .ok st') (hi : Table st) :
    ∃ name info, st' = { st with bits := st.bits ++ [(name, info)], rev := MultiMap.insert info.idx name st.rev } ∧
      info.idx < st.bitLength ∧ Table st' := by
  unfold bitStep at h
  simp only [Res.bind_eq_ok] at h
  obtain ⟨props, _, _, _, _, _, _, _, _, _, _, _, _, _, _, _, _, _, _, _, _, hvn, _, hns, idx, _, _, hidx, _, huniq, dflt, _, resv, _,
    rv, _, ⟨since, depr⟩, _, _, _, ok, hok, _, hok', disp, _, h⟩ := h
  rw [Res.check_eq_ok] at hns huniq hidx hok' hvn
  subst hok'
  simp only [Res.pure_eq, Res.ok.injEq] at h
  refine ⟨_, _, h.symm, by simpa using hidx, ?_⟩
  subst h
  have hP := MultiMap.insert_perm idx (props.getStr "name".toList) st.rev
  refine ⟨?_, ?_, ?_, MultiMap.insert_sorted _ _ _ hi.sorted, ?_, ?_⟩
  · simp only [List.map_append, List.map_cons, List.map_nil]
    rw [List.nodup_append]
    refine ⟨hi.names, by simp, ?_⟩
    intro a ha b hb hab
    simp only [List.mem_singleton] at hb
    subst hb; subst hab
    obtain ⟨p, hp, hpe⟩ := List.mem_map.1 ha
    unfold findBit at hns
    rw [Option.isNone_iff_eq_none, Option.map_eq_none_iff] at hns
    have := List.find?_eq_none.1 hns p hp
    simp [hpe] at this
  · intro p hp
    rcases List.mem_append.1 hp with hp | hp
    · exact hi.valid p hp
    · simp only [List.mem_singleton] at hp
      subst hp
      exact hvn
  · simp only [List.map_append, List.map_cons, List.map_nil]
    exact hP.trans ((hi.perm.cons _).trans (List.perm_append_singleton _ _).symm)
  · intro hn
    simp only at hn
    rw [hn] at huniq
    simp only [Bool.false_or, Bool.not_eq_true'] at huniq
    simp only
    rw [(hP.map Prod.fst).nodup_iff]
    simp only [List.map_cons, List.nodup_cons]
    refine ⟨?_, hi.uniq hn⟩
    intro hm
    rw [(MultiMap.has_iff _ _).2 hm] at huniq
    simp at huniq
  · simp only
    rw [List.pairwise_append]
    refine ⟨hi.cons, by simp, ?_⟩
    intro p hp q hq hidx' hov
    simp only [List.mem_singleton] at hq
    subst hq
    simp only at hidx'
    by_cases hn : st.nonUnique = false
    · exfalso
      rw [hn] at huniq
      simp only [Bool.false_or, Bool.not_eq_true'] at huniq
      have : MultiMap.has idx st.rev = true := by
        rw [MultiMap.has_iff]
        exact ((hi.perm.map Prod.fst).mem_iff).2 (List.mem_map.2 ⟨(p.2.idx, p.1), List.mem_map.2 ⟨p, hp, rfl⟩, hidx'⟩)
      rw [this] at huniq
      simp at huniq
    · have hn : st.nonUnique = true := by simpa using hn
      unfold checkSame at hok
      rw [hn] at hok
      simp only [Bool.not_true, Bool.false_eq_true, if_false] at hok
      have hc := (allConsistent_spec _ _).1 hok (some p.2) ((sameIdx_mem hi idx).1 p hp hidx') p.2 rfl
      have := consistent_spec hc (by unfold Overlap at hov ⊢; exact hov)
      exact this

theorem step_no_ub {env : Env} {c : Ctx} {x : Xml} {st : SetF.State} (hi : Table st) : bitStep env c x st ≠ .ub := by
  have hub : ∀ {α β : Type} {a : Res α} {f : α → Res β}, a ≠ .ub → (∀ x, a = .ok x → f x ≠ .ub) → (a >>= f) ≠ .ub := by
    intro α β a f h1 h2 h
    cases a with
    | ok x => exact h2 x rfl h
    | err => cases h
    | ub => exact h1 rfl
  have hof : ∀ {α : Type} (o : Option α), Res.ofOption o ≠ .ub := by intro α o; cases o <;> simp [Res.ofOption]
  have hck : ∀ (b : Bool), Res.check b ≠ .ub := by intro b; cases b <;> simp [Res.check]
  unfold bitStep
  refine hub (hof _) fun props _ => ?_
  iterate 11 refine hub (hck _) fun _ _ => ?_
  refine hub (hof _) fun idx _ => ?_
  iterate 2 refine hub (hck _) fun _ _ => ?_
  iterate 3 refine hub (hof _) fun _ _ => ?_
  refine hub (hof _) fun vers _ => ?_
  obtain ⟨since, depr⟩ := vers
  refine hub (hck _) fun _ _ => ?_
  refine hub ?_ fun _ _ => ?_
  · unfold checkSame
    split
    · simp
    · exact (allConsistent_spec _ _).2 (sameIdx_mem hi idx).2
  · refine hub (hck _) fun _ _ => ?_
    refine hub (hof _) fun _ _ => ?_
    simp

theorem loop {env : Env} {c : Ctx} (xs : List Xml) : ∀ {st : SetF.State}, Table st →
    (∀ st', bitsLoop env c xs st = .ok st' → Table st' ∧ ∃ new rev, st' = { st with bits := st.bits ++ new, rev := rev } ∧
      ∀ p ∈ new, p.2.idx < st.bitLength) ∧ bitsLoop env c xs st ≠ .ub := by
  induction xs with
  | nil =>
    intro st hi
    refine ⟨?_, by simp [bitsLoop]⟩
    intro st' h
    simp only [bitsLoop, Res.ok.injEq] at h
    subst h
    exact ⟨hi, [], st.rev, by simp, by simp⟩
  | cons x xs ih =>
    intro st hi
    unfold bitsLoop
    constructor
    · intro st' h
      rw [Res.bind_eq_ok] at h
      obtain ⟨s1, h1, h2⟩ := h
      obtain ⟨name, info, rfl, hlt, ht⟩ := step h1 hi
      obtain ⟨ht', new, rev, rfl, hb⟩ := (ih ht).1 st' h2
      refine ⟨ht', (name, info) :: new, rev, by simp, ?_⟩
      intro p hp
      rcases List.mem_cons.1 hp with rfl | hp
      · exact hlt
      · exact hb p hp
    · cases h1 : bitStep env c x st with
      | ok s1 =>
        obtain ⟨name, info, rfl, hlt, ht⟩ := step h1 hi
        exact (ih ht).2
      | err => simp
      | ub => exact absurd h1 (step_no_ub hi)

/-- Invariant of accepted sets. -/
structure Inv (st : SetF.State) : Prop where
  ty : ∃ t, st.type = some t ∧ isUnsigned t = true ∧ st.length ≤ maxTypeLength t
  len : 0 < st.length
  bits : 0 < st.bitLength ∧ st.bitLength ≤ 8 * st.length
  table : Table st
  idx : ∀ p ∈ st.bits, p.2.idx < 8 * st.length

def Pre (st : SetF.State) : Prop := st = {} ∨ Inv st

theorem table_init : Table {} := by constructor <;> simp

/-- The states before the bits are read. -/
theorem head_ok {env : Env} {c : Ctx} {st0 s1 s2 s3 : SetF.State} (hp : Pre st0) (h1 : SetF.updateEndian env c st0 = .ok s1)
    (h2 : SetF.updateType c s1 = .ok s2) (h3 : SetF.updateLength c s2 = .ok s3) :
    ∃ t e len bits, s3 = { st0 with type := some t, endian := e, length := len, bitLength := bits } ∧ isUnsigned t = true ∧
      0 < len ∧ len ≤ maxTypeLength t ∧ 0 < bits ∧ bits ≤ 8 * len ∧ (st0 = {} ∨ len = st0.length) := by
  have e1 : ∃ e, s1 = { st0 with endian := e } := by
    unfold SetF.updateEndian at h1
    split at h1
    · simp at h1
    simp only at h1
    split at h1
    · simp only [Res.ok.injEq] at h1; exact ⟨st0.endian, by rw [← h1]⟩
    split at h1
    · simp at h1
    · simp only [Res.ok.injEq] at h1; exact ⟨_, h1.symm⟩
  obtain ⟨e, rfl⟩ := e1
  have e2 : ∃ ty, s2 = { st0 with endian := e, type := ty } ∧ (∀ t, ty = some t → isUnsigned t = true) ∧
      (st0.type = none ∨ ty = st0.type) := by
    have hst0 : ∀ t, st0.type = some t → isUnsigned t = true := by
      intro t ht
      rcases hp with rfl | hi
      · cases ht
      · obtain ⟨t', ht', hu, _⟩ := hi.ty
        rw [ht] at ht'; cases ht'; exact hu
    unfold SetF.updateType at h2
    split at h2
    · simp at h2
    split at h2
    · simp only [Res.ok.injEq] at h2; exact ⟨st0.type, by rw [← h2], hst0, Or.inr rfl⟩
    split at h2
    · simp at h2
    split at h2
    · simp at h2
    rename_i t _ hu
    split at h2
    · simp only [Res.ok.injEq] at h2; exact ⟨st0.type, by rw [← h2], hst0, Or.inr rfl⟩
    split at h2
    · simp at h2
    · rename_i hn
      simp only [Res.ok.injEq] at h2
      refine ⟨_, h2.symm, ?_, Or.inl (by simpa using hn)⟩
      intro t' ht'; cases ht'; simpa using hu
  obtain ⟨ty, rfl, hty, hty0⟩ := e2
  unfold SetF.updateLength at h3
  simp only [Res.bind_eq_ok] at h3
  obtain ⟨s4, h4, s5, h5, h6⟩ := h3
  have hmax : ∀ t, 0 < maxTypeLength t := by intro t; cases t <;> decide
  have e4 : ∃ len, s4 = { st0 with endian := e, type := ty, length := len } ∧
      (∀ t, ty = some t → len ≤ maxTypeLength t ∧ 0 < len) ∧ (ty = none → len ≤ 8) ∧ (st0 = {} ∨ len = st0.length) := by
    have hinv : st0.length ≠ 0 → ∃ t, ty = some t ∧ st0.length ≤ maxTypeLength t := by
      intro hl
      rcases hp with rfl | hi
      · exact absurd rfl hl
      · obtain ⟨t', ht', hu, hle⟩ := hi.ty
        rcases hty0 with h | h
        · rw [h] at ht'; cases ht'
        · exact ⟨t', by rw [h, ht'], hle⟩
    have hlen0 : st0.length = 0 → st0 = {} := by
      intro hl
      rcases hp with h | hi
      · exact h
      · have := hi.len; omega
    unfold SetF.updateByteLength at h4
    simp only at h4
    split at h4
    · simp at h4
    split at h4
    · split at h4
      · rename_i hc
        simp only [Res.ok.injEq] at h4
        refine ⟨_, h4.symm, ?_, ?_, Or.inl (hlen0 hc.1)⟩
        · intro t ht
          simp only [ht, lengthLimit]
          exact ⟨Nat.le_refl _, hmax t⟩
        · intro ht
          simp [ht] at hc
      · rename_i hc
        simp only [Res.ok.injEq] at h4
        refine ⟨st0.length, by rw [← h4], ?_, ?_, Or.inr rfl⟩
        · intro t ht
          have hl : st0.length ≠ 0 := fun h0 => hc ⟨h0, by simp [ht]⟩
          obtain ⟨t', ht', hle⟩ := hinv hl
          rw [ht] at ht'; cases ht'
          exact ⟨hle, by omega⟩
        · intro ht
          by_cases hl : st0.length = 0
          · omega
          · obtain ⟨t', ht', _⟩ := hinv hl
            rw [ht] at ht'; cases ht'
    split at h4
    · simp at h4
    rename_i n _
    split at h4
    · simp at h4
    rename_i hbad
    split at h4
    · rename_i heq
      simp only [Res.ok.injEq] at h4
      refine ⟨st0.length, by rw [← h4], ?_, ?_, Or.inr rfl⟩
      · intro t ht
        have : st0.length = n := heq
        simp only [ht, lengthLimit] at hbad
        omega
      · intro ht
        have : st0.length = n := heq
        simp only [ht, lengthLimit] at hbad
        omega
    split at h4
    · simp at h4
    · rename_i hz
      simp only [Res.ok.injEq] at h4
      refine ⟨n, h4.symm, ?_, ?_, Or.inl (hlen0 (by simpa using hz))⟩
      · intro t ht
        simp only [ht, lengthLimit] at hbad
        omega
      · intro ht
        simp only [ht, lengthLimit] at hbad
        omega
  obtain ⟨len, rfl, hlen1, hlen2, hlen3⟩ := e4
  have e5 : ∃ bits, s5 = { st0 with endian := e, type := ty, length := len, bitLength := bits } ∧
      (len ≠ 0 → 0 < bits ∧ bits ≤ 8 * len) := by
    have hb0 : st0.bitLength ≠ 0 → st0.bitLength ≤ 8 * len := by
      intro hb
      rcases hp with rfl | hi
      · exact absurd rfl hb
      · rcases hlen3 with rfl | h
        · exact absurd rfl hb
        · have := hi.bits; omega
    unfold SetF.updateBitLength at h5
    simp only at h5
    split at h5
    · simp at h5
    split at h5
    · split at h5
      · simp only [Res.ok.injEq] at h5; exact ⟨_, h5.symm, by intro; omega⟩
      · rename_i hb
        simp only [Res.ok.injEq] at h5
        exact ⟨st0.bitLength, by rw [← h5], fun _ => ⟨Nat.pos_of_ne_zero hb, hb0 hb⟩⟩
    split at h5
    · simp only [Res.ok.injEq] at h5; exact ⟨_, h5.symm, by intro; omega⟩
    split at h5
    · simp at h5
    split at h5
    · simp at h5
    split at h5
    · simp at h5
    · rename_i b _ hb hc
      simp only [Res.ok.injEq] at h5
      refine ⟨b, h5.symm, fun hl => ⟨Nat.pos_of_ne_zero hb, ?_⟩⟩
      have : ¬ (len * 8 < b) := fun h => hc ⟨hl, h⟩
      omega
  obtain ⟨bits, rfl, hbits⟩ := e5
  unfold deriveType at h6
  simp only at h6
  have mapOk : ∀ n t, typeMap[n]? = some t → isUnsigned t = true ∧ n + 1 ≤ maxTypeLength t := by
    intro n t h
    match n with
    | 0 | 1 | 2 | 3 | 4 | 5 | 6 | 7 => simp only [typeMap] at h; cases h; decide
    | n + 8 => simp [typeMap] at h
  by_cases hl : len = 0
  · by_cases hb : bits = 0
    · rw [if_neg (by simp [hb])] at h6
      cases hty' : ty with
      | none => rw [hty'] at h6; simp [hl] at h6
      | some t => have := hlen1 t hty'; omega
    · rw [if_pos ⟨hl, hb⟩] at h6
      cases hty' : ty with
      | none =>
        rw [hty'] at h6
        simp only at h6
        rw [if_neg (by omega)] at h6
        split at h6
        · simp at h6
        · rename_i t hm
          simp only [Res.ok.injEq] at h6
          obtain ⟨hu, hle⟩ := mapOk _ _ hm
          refine ⟨t, e, _, bits, h6.symm, hu, by omega, by omega, by omega, by omega, ?_⟩
          rcases hlen3 with h | h
          · exact Or.inl h
          · rcases hp with h' | hi
            · exact Or.inl h'
            · have := hi.len; omega
      | some t => have := hlen1 t hty'; omega
  · rw [if_neg (by simp [hl])] at h6
    obtain ⟨hb1, hb2⟩ := hbits hl
    cases hty' : ty with
    | none =>
      rw [hty'] at h6
      simp only at h6
      rw [if_neg hl] at h6
      split at h6
      · simp at h6
      · rename_i t hm
        simp only [Res.ok.injEq] at h6
        obtain ⟨hu, hle⟩ := mapOk _ _ hm
        exact ⟨t, e, len, bits, h6.symm, hu, by omega, by omega, hb1, hb2, hlen3⟩
    | some t =>
      rw [hty'] at h6
      simp only [Res.ok.injEq] at h6
      exact ⟨t, e, len, bits, h6.symm, hty t hty', by omega, (hlen1 t hty').1, hb1, hb2, hlen3⟩

theorem nonUnique_ok {env : Env} {c : Ctx} {st st' : SetF.State} (h : SetF.updateNonUnique env c st = .ok st') (hi : Table st) :
    Table st' ∧ ∃ b, st' = { st with nonUnique := b } := by
  unfold SetF.updateNonUnique at h
  rw [Res.bind_eq_ok] at h
  obtain ⟨b, _, h⟩ := h
  split at h
  · simp only [Res.pure_eq, Res.ok.injEq] at h
    subst h
    exact ⟨hi, st.nonUnique, rfl⟩
  split at h
  · simp at h
  · rename_i hc
    simp only [Res.pure_eq, Res.ok.injEq] at h
    subst h
    refine ⟨⟨hi.names, hi.valid, hi.perm, hi.sorted, ?_, hi.cons⟩, b, rfl⟩
    intro hb
    simp only at hb
    subst hb
    by_cases hn : st.nonUnique = false
    · exact hi.uniq hn
    · have hn : st.nonUnique = true := by simpa using hn
      rw [hn] at hc
      have : SetF.isUnique st = true := by simpa using hc
      exact (MultiMap.isUnique_iff _ hi.sorted).1 this

/-- Both acceptance and the way to it. -/
theorem parse_ok {env : Env} {c : Ctx} {st0 st : SetF.State} (hp : Pre st0) (h : SetF.parseImpl env c st0 = .ok st) :
    Inv st ∧ ∃ new, st.bits = st0.bits ++ new ∧ ∀ p ∈ new, p.2.idx < st.bitLength := by
  unfold SetF.parseImpl at h
  simp only [Res.bind_eq_ok] at h
  obtain ⟨s1, h1, s2, h2, s3, h3, s4, h4, vcv, _, db, _, rb, _, alim, _, h⟩ := h
  obtain ⟨t, e, len, bits, rfl, hu, hl, hlm, hb, hbl, hl0⟩ := head_ok hp h1 h2 h3
  have ht0 : Table st0 := by
    rcases hp with rfl | hi
    · exact table_init
    · exact hi.table
  obtain ⟨ht4, nu, rfl⟩ := nonUnique_ok h4 ⟨ht0.names, ht0.valid, ht0.perm, ht0.sorted, ht0.uniq, ht0.cons⟩
  obtain ⟨ht, new, rev, rfl, hnew⟩ := (loop _ (ht4.congr (by rfl) (by rfl) (by rfl))).1 st h
  refine ⟨⟨⟨t, rfl, hu, hlm⟩, hl, ⟨hb, hbl⟩, ht, ?_⟩, new, rfl, hnew⟩
  intro p hpm
  rcases List.mem_append.1 hpm with hpm | hpm
  · have hpm : p ∈ st0.bits := hpm
    rcases hp with h0 | hi
    · rw [h0] at hpm; simp at hpm
    · rcases hl0 with h0 | h0
      · rw [h0] at hpm; simp at hpm
      · simp only [h0]; exact hi.idx p hpm
  · have := hnew p hpm
    simp only at this ⊢
    omega

theorem accepted_inv {st : SetF.State} (h : SetF.Accepted st) : Inv st := by
  induction h with
  | fresh h => exact (parse_ok (Or.inl rfl) h).1
  | reuse _ h ih => exact (parse_ok (Or.inr ih) h).1

end SetProofs

open SetProofs

/-! ## C18 -/

/-- Bit names of an accepted set differ. -/
theorem C18_names_unique (st : SetF.State) (h : SetF.Accepted st) : (st.bits.map Prod.fst).Nodup := (accepted_inv h).table.names

/-- The names of the bits are valid names. -/
theorem C18_names_valid (st : SetF.State) (h : SetF.Accepted st) : ∀ p ∈ st.bits, isValidName p.1 = true := (accepted_inv h).table.valid

/-- Bit indices differ unless the field allows non-unique bits, inherited ones included. -/
theorem C18_indices_unique (st : SetF.State) (h : SetF.Accepted st) (hn : st.nonUnique = false) :
    (st.bits.map fun p => p.2.idx).Nodup := by
  have hi := (accepted_inv h).table
  have := (hi.perm.map Prod.fst).nodup_iff.1 (hi.uniq hn)
  simpa [List.map_map, Function.comp_def] using this

/-- All bits are inside the serialised bytes, and the type is an unsigned one with room for them. -/
theorem C18_indices_in_bytes (st : SetF.State) (h : SetF.Accepted st) :
    (∀ p ∈ st.bits, p.2.idx < 8 * st.length) ∧ 0 < st.bitLength ∧ st.bitLength ≤ 8 * st.length ∧
      ∃ t, st.type = some t ∧ isUnsigned t = true ∧ st.length ≤ maxTypeLength t := by
  have hi := accepted_inv h
  exact ⟨hi.idx, hi.bits.1, hi.bits.2, hi.ty⟩

/-- All bits of a new definition, and all bits added by a reusing one, are below the bit length. Missing from the full claim: inherited bits
    when the bit length was reduced, see `C18_inherited_bit_witness`. -/
theorem C18_indices_below_bit_length_partial (env : Env) (c : Ctx) (st0 st : SetF.State) (h0 : st0 = {} ∨ SetF.Accepted st0)
    (h : SetF.parseImpl env c st0 = .ok st) : ∃ new, st.bits = st0.bits ++ new ∧ ∀ p ∈ new, p.2.idx < st.bitLength :=
  (parse_ok (h0.elim Or.inl fun h => Or.inr (accepted_inv h)) h).2

/-- The reverse table holds exactly the (index, name) pairs, ordered by index, and the field reports to be unique exactly if no index occurs
    twice. -/
theorem C18_reverse_table (st : SetF.State) (h : SetF.Accepted st) :
    st.rev.Perm (st.bits.map fun p => (p.2.idx, p.1)) ∧ (st.rev.map Prod.fst).Pairwise (· ≤ ·) ∧
      (SetF.isUnique st = true ↔ (st.bits.map fun p => p.2.idx).Nodup) := by
  have hi := (accepted_inv h).table
  refine ⟨hi.perm, hi.sorted, ?_⟩
  unfold SetF.isUnique
  rw [MultiMap.isUnique_iff _ hi.sorted, (hi.perm.map Prod.fst).nodup_iff]
  simp [List.map_map, Function.comp_def]

/-- `parseImpl` gives a state in which `p` holds. -/
def okWithS (r : Res SetF.State) (p : SetF.State → Bool) : Bool := match r with
  | .ok st => p st
  | _ => false

theorem okWithS_spec {r : Res SetF.State} {p : SetF.State → Bool} (h : okWithS r p = true) : ∃ st, r = .ok st ∧ p st = true := by
  cases r with
  | ok st => exact ⟨st, rfl, h⟩
  | err => simp [okWithS] at h
  | ub => simp [okWithS] at h

private def ctx (attrs : List (Str × Str)) (children : List Xml := []) (bitfieldMember : Bool := false) : Ctx :=
  { node := .elem "set".toList attrs children, props := attrs, since := 0, depr := Versions.notYet, bitfieldMember := bitfieldMember }
private def env0 : Env := { dsl := 7, schemaVersion := 5, schemaEndian := .little, strToNumeric := fun _ => none }
private def bit (n v : String) : Xml := .elem "bit".toList [("name".toList, n.toList), ("idx".toList, v.toList)] []

/-- Refutation of "below the bit length": a bitfield member of 4 bits that reuses a set with bit 7. -/
theorem C18_inherited_bit_witness : ∃ st, SetF.Accepted st ∧ st.bitLength = 4 ∧ st.bits.map (fun p => p.2.idx) = [7] := by
  have h : okWithS (SetF.parseImpl env0 (ctx [("length".toList, "1".toList)] [bit "A" "7"]) {}) (fun st =>
        okWithS (SetF.parseImpl env0 (ctx [("bitLength".toList, "4".toList)] [] true) st)
        (fun st => decide (st.bitLength = 4 ∧ st.bits.map (fun p => p.2.idx) = [7]))) = true := by decide +kernel
  obtain ⟨st, h1, h2⟩ := okWithS_spec h
  obtain ⟨st', h3, h4⟩ := okWithS_spec h2
  exact ⟨st', .reuse (.fresh h1) h3, of_decide_eq_true h4⟩

/-- Refutation of "rejected without undefined behaviour": a bitfield member without type and length and more than 64 bits reads beyond the
    table of types, and so does an empty `length`. -/
theorem C18_type_table_witness :
    SetF.parseImpl env0 (ctx [("bitLength".toList, "65".toList)] [] true) {} = .ub ∧
    SetF.parseImpl env0 (ctx [("length".toList, [])]) {} = .ub := by decide +kernel

/-- With an accepted field to reuse, a type or a non-empty length there is no undefined behaviour. -/
theorem C18_no_undefined_partial (env : Env) (c : Ctx) (st0 : SetF.State)
    (h0 : SetF.Accepted st0 ∨ (st0 = {} ∧ ((c.props.find "type".toList).isSome ∨ c.props.getStr "length".toList ≠ []))) :
    SetF.parseImpl env c st0 ≠ .ub := by
  have hp : Pre st0 := by
    rcases h0 with h | h
    · exact Or.inr (accepted_inv h)
    · exact Or.inl h.1
  have hub : ∀ {α β : Type} {a : Res α} {f : α → Res β}, a ≠ .ub → (∀ x, a = .ok x → f x ≠ .ub) → (a >>= f) ≠ .ub := by
    intro α β a f h1 h2 h
    cases a with
    | ok x => exact h2 x rfl h
    | err => cases h
    | ub => exact h1 rfl
  have hof : ∀ {α : Type} (o : Option α), Res.ofOption o ≠ .ub := by intro α o; cases o <;> simp [Res.ofOption]
  have hbool : ∀ n cur, updateBool env.dsl c.props n cur ≠ .ub := by
    intro n cur; unfold updateBool
    split
    · simp
    split
    · simp
    split
    · simp
    · exact hof _
  unfold SetF.parseImpl
  refine hub (by unfold SetF.updateEndian; simp only; (repeat' split) <;> simp) fun s1 h1 => ?_
  refine hub (by unfold SetF.updateType; (repeat' split) <;> simp) fun s2 h2 => ?_
  refine hub ?_ fun s3 h3 => ?_
  · have e1 : s1.type = st0.type ∧ s1.length = st0.length := by
      unfold SetF.updateEndian at h1
      split at h1
      · simp at h1
      simp only at h1
      split at h1
      · simp only [Res.ok.injEq] at h1; subst h1; exact ⟨rfl, rfl⟩
      split at h1
      · simp at h1
      · simp only [Res.ok.injEq] at h1; subst h1; exact ⟨rfl, rfl⟩
    have e2 : s2.length = st0.length ∧ (s2.type.isSome ∨ c.props.getStr "length".toList ≠ []) := by
      have hs : st0.type.isSome → s2.type.isSome ∧ s2.length = s1.length := by
        intro hs
        rw [← e1.1] at hs
        unfold SetF.updateType at h2
        repeat' split at h2
        all_goals first | (simp at h2; done) | (simp only [Res.ok.injEq] at h2; subst h2; exact ⟨by first | exact hs | rfl, rfl⟩)
      rcases h0 with h | ⟨rfl, h⟩
      · obtain ⟨t, ht, _⟩ := (accepted_inv h).ty
        have := hs (by simp [ht])
        exact ⟨this.2.trans e1.2, Or.inl this.1⟩
      · unfold SetF.updateType at h2
        split at h2
        · simp at h2
        split at h2
        · rename_i hf
          simp only [Res.ok.injEq] at h2
          subst h2
          rw [hf] at h
          exact ⟨e1.2, Or.inr (by simpa using h)⟩
        · repeat' split at h2
          all_goals first
            | (simp at h2; done)
            | (rename_i heq
               simp only [Res.ok.injEq] at h2
               subst h2
               first
                 | exact ⟨e1.2, Or.inl (by simp [heq])⟩
                 | exact ⟨e1.2, Or.inl rfl⟩)
    unfold SetF.updateLength
    refine hub (by unfold SetF.updateByteLength; simp only; (repeat' split) <;> simp) fun s4 h4 => ?_
    refine hub (by unfold SetF.updateBitLength; simp only; (repeat' split) <;> simp) fun s5 h5 => ?_
    have e5 : s5.type = s4.type ∧ s5.length = s4.length := by
      unfold SetF.updateBitLength at h5
      simp only at h5
      repeat' split at h5
      all_goals first | (simp at h5; done) | (simp only [Res.ok.injEq] at h5; subst h5; exact ⟨rfl, rfl⟩)
    have e4 : s4.type = s2.type ∧ (s2.type = none → 0 < s4.length ∧ s4.length ≤ 8) := by
      have hnt : s2.type = none → s2.length = 0 := by
        intro hn
        rw [e2.1]
        rcases h0 with h | ⟨rfl, _⟩
        · exfalso
          obtain ⟨t, ht, _⟩ := (accepted_inv h).ty
          have : s2.type.isSome := by
            rw [← e1.1] at ht
            unfold SetF.updateType at h2
            repeat' split at h2
            all_goals first | (simp at h2; done) | (simp only [Res.ok.injEq] at h2; subst h2; first | (rw [ht]; rfl) | rfl)
          rw [hn] at this; simp at this
        · rfl
      unfold SetF.updateByteLength at h4
      simp only at h4
      split at h4
      · simp at h4
      split at h4
      · rename_i he
        split at h4
        · rename_i hc
          simp only [Res.ok.injEq] at h4; subst h4
          exact ⟨rfl, fun hn => by simp [hn] at hc⟩
        · simp only [Res.ok.injEq] at h4; subst h4
          refine ⟨rfl, fun hn => ?_⟩
          rcases e2.2 with h | h
          · rw [hn] at h; simp at h
          · exact absurd (by simpa using he) h
      split at h4
      · simp at h4
      split at h4
      · simp at h4
      rename_i n _ hbad
      split at h4
      · rename_i heq
        simp only [Res.ok.injEq] at h4; subst h4
        refine ⟨rfl, fun hn => ?_⟩
        have := hnt hn
        omega
      split at h4
      · simp at h4
      · simp only [Res.ok.injEq] at h4; subst h4
        refine ⟨rfl, fun hn => ?_⟩
        simp only [hn, SetF.lengthLimit] at hbad
        simp only
        omega
    unfold SetF.deriveType
    simp only
    cases ht : s2.type with
    | some t =>
      have hty : s5.type = some t := by rw [e5.1, e4.1, ht]
      split
      · simp
      · rename_i hh
        exfalso
        split at hh <;> simp [hty] at hh
    | none =>
      have hl := e4.2 ht
      rw [if_neg (by omega)]
      have hty : s5.type = none := by rw [e5.1, e4.1, ht]
      rw [hty]
      simp only
      rw [if_neg (by omega)]
      split
      · rename_i hx
        rw [List.getElem?_eq_none_iff] at hx
        simp only [SetF.typeMap, List.length_cons, List.length_nil] at hx
        omega
      · simp
  · obtain ⟨t, e, len, bits, rfl, hu, hl, hlm, hb, hbl, hl0⟩ := head_ok hp h1 h2 h3
    have ht0 : Table st0 := by
      rcases hp with rfl | hi
      · exact table_init
      · exact hi.table
    refine hub ?_ fun s4 h4 => ?_
    · unfold SetF.updateNonUnique
      refine hub (hbool _ _) fun b _ => ?_
      (repeat' split) <;> simp
    obtain ⟨ht4, nu, rfl⟩ := nonUnique_ok h4 ⟨ht0.names, ht0.valid, ht0.perm, ht0.sorted, ht0.uniq, ht0.cons⟩
    refine hub (hbool _ _) fun vcv _ => ?_
    refine hub (hof _) fun db _ => ?_
    refine hub (hof _) fun rb _ => ?_
    refine hub (hbool _ _) fun alim _ => ?_
    exact (loop _ (ht4.congr (by rfl) (by rfl) (by rfl))).2

/-! ## C61 -/

/-- Names given to the same bit index agree on default value, reserved flag and reserved value in every protocol version both exist in. -/
theorem C61_same_index_agree (st : SetF.State) (h : SetF.Accepted st) (p q : Str × SetF.BitInfo) (hp : p ∈ st.bits) (hq : q ∈ st.bits)
    (hidx : p.2.idx = q.2.idx) (v : Nat) (hpv : p.2.since ≤ v ∧ v < p.2.depr) (hqv : q.2.since ≤ v ∧ v < q.2.depr) :
    p.2.default = q.2.default ∧ p.2.reserved = q.2.reserved ∧ p.2.reservedValue = q.2.reservedValue := by
  have hc := (accepted_inv h).table.cons
  have hov : Overlap p.2 q.2 ∧ Overlap q.2 p.2 := by unfold Overlap; omega
  rw [List.pairwise_iff_getElem] at hc
  obtain ⟨i, hi, rfl⟩ := List.getElem_of_mem hp
  obtain ⟨j, hj, rfl⟩ := List.getElem_of_mem hq
  rcases Nat.lt_trichotomy i j with hij | hij | hij
  · exact hc i j hi hj hij hidx hov.1
  · subst hij; exact ⟨rfl, rfl, rfl⟩
  · have := hc j i hj hi hij hidx.symm hov.2
    exact ⟨this.1.symm, this.2.1.symm, this.2.2.symm⟩

private def bitV (n v since depr dflt : String) : Xml := .elem "bit".toList [("name".toList, n.toList), ("idx".toList, v.toList),
  ("sinceVersion".toList, since.toList), ("deprecated".toList, depr.toList), ("defaultValue".toList, dflt.toList)] []

/-- A set that reuses another one and renames a bit in a later version. -/
example : ∃ st, SetF.Accepted st ∧ st.nonUnique = true ∧ st.type = some .uint16 ∧
    st.bits.map (fun p => (p.1, p.2.idx, p.2.since, p.2.depr, p.2.default)) =
      [("A".toList, 3, 0, 2, false), ("B".toList, 3, 2, 5, true), ("C".toList, 3, 4, 5, true)] := by
  have h : okWithS (SetF.parseImpl env0 (ctx [("length".toList, "2".toList), ("nonUniqueAllowed".toList, "true".toList)]
      [bitV "A" "3" "0" "2" "false", bitV "B" "3" "2" "5" "true"]) {}) (fun st =>
        okWithS (SetF.parseImpl env0 (ctx [] [bitV "C" "3" "4" "5" "true"]) st)
        (fun st => decide (st.nonUnique = true ∧ st.type = some .uint16 ∧
          st.bits.map (fun p => (p.1, p.2.idx, p.2.since, p.2.depr, p.2.default)) =
          [("A".toList, 3, 0, 2, false), ("B".toList, 3, 2, 5, true), ("C".toList, 3, 4, 5, true)]))) = true := by decide +kernel
  obtain ⟨st, h1, h2⟩ := okWithS_spec h
  obtain ⟨st', h3, h4⟩ := okWithS_spec h2
  exact ⟨st', .reuse (.fresh h1) h3, of_decide_eq_true h4⟩

end Commsdsl.Props
