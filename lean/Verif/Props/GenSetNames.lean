import Verif.Props.GenSet
/-!
# Properties C81 to C83: default values, names and access functions of generated `<set>` fields
-/
namespace Commsdsl.Props
open Commsdsl Text IntF SetF Gen Spec
open GenSetProofs SetProofs

namespace GenSetProofs

theorem dfltStep_lsb (a : BitVec 64) (b : BitInfo) (hb : b.idx < 64) (i : Nat) (hi : i < 64) :
    (dfltStep a b).getLsbD i = if b.idx = i then b.default else a.getLsbD i := by
  unfold dfltStep
  rw [if_neg (by omega)]
  have hm := lsb_mask hb i
  split
  · rename_i h
    rw [BitVec.getLsbD_or, hm]
    split
    · rename_i e; subst e; simp [h]
    · rename_i e; simp [Ne.symm e]
  · rename_i h
    rw [BitVec.getLsbD_and, BitVec.getLsbD_not, hm]
    split
    · rename_i e; subst e; simp [h]
    · rename_i e; simp [Ne.symm e, hi]

theorem dflt_fold (L : List BitInfo) (hL : ∀ b ∈ L, b.idx < 64) (i : Nat) (hi : i < 64) : ∀ a : BitVec 64,
    ((∀ b ∈ L, b.idx ≠ i) → (L.foldl dfltStep a).getLsbD i = a.getLsbD i) ∧
    (∀ d, (∀ b ∈ L, b.idx = i → b.default = d) → (a.getLsbD i = d ∨ ∃ b ∈ L, b.idx = i) → (L.foldl dfltStep a).getLsbD i = d) := by
  induction L with
  | nil =>
    intro a
    refine ⟨fun _ => rfl, ?_⟩
    rintro d _ (h | ⟨b, hb, _⟩)
    · exact h
    · cases hb
  | cons b bs ih =>
    intro a
    have hs := dfltStep_lsb a b (hL b List.mem_cons_self) i hi
    obtain ⟨i1, i2⟩ := ih (fun x hx => hL x (List.mem_cons_of_mem _ hx)) (dfltStep a b)
    rw [List.foldl_cons]
    constructor
    · intro h
      rw [i1 (fun x hx => h x (List.mem_cons_of_mem _ hx)), hs, if_neg (h b List.mem_cons_self)]
    · intro d h1 h2
      refine i2 d (fun x hx => h1 x (List.mem_cons_of_mem _ hx)) ?_
      by_cases e : b.idx = i
      · left
        rw [hs, if_pos e]
        exact h1 b List.mem_cons_self e
      · rw [hs, if_neg e]
        rcases h2 with h2 | ⟨x, hx, h2⟩
        · exact Or.inl h2
        · rcases List.mem_cons.1 hx with rfl | hx
          · exact absurd h2 e
          · exact Or.inr ⟨x, hx, h2⟩

end GenSetProofs

/-- C81: the initial value of the generated field has in every bit of the field the default declared for it, the common default where the bit has no name, and nothing
    behind. Missing: names of the same bit with different defaults (`C81_renamed_witness`). -/
theorem C81_default_partial (st : SetF.State) (hidx : ∀ p ∈ st.bits, p.2.idx < bitsOf st) (h64 : bitsOf st ≤ 64)
    (hagree : ∀ p ∈ st.bits, ∀ q ∈ st.bits, p.2.idx = q.2.idx → p.2.default = q.2.default) :
    (∀ p ∈ st.bits, (initialValue (setDefault st)).getLsbD p.2.idx = p.2.default) ∧
    (∀ i, i < bitsOf st → (∀ p ∈ st.bits, p.2.idx ≠ i) → (initialValue (setDefault st)).getLsbD i = st.defaultBit) ∧
    (∀ i, bitsOf st ≤ i → (initialValue (setDefault st)).getLsbD i = false) := by
  have hmem : ∀ b, b ∈ (sortedBits st).map Prod.snd ↔ ∃ p ∈ st.bits, p.2 = b := by
    intro b
    rw [List.mem_map]
    unfold sortedBits
    simp only [mem_sortBy]
  have hL : ∀ b ∈ (sortedBits st).map Prod.snd, b.idx < 64 := by
    intro b hb
    obtain ⟨p, hp, rfl⟩ := (hmem b).1 hb
    have := hidx p hp
    omega
  have hval : initialValue (setDefault st) = ((sortedBits st).map Prod.snd).foldl dfltStep (if st.defaultBit then ~~~0#64 else 0#64) &&& lenMask (bitsOf st) := by
    unfold setDefault
    dsimp only
    generalize ((sortedBits st).map Prod.snd).foldl dfltStep (if st.defaultBit then ~~~0#64 else 0#64) &&& lenMask (bitsOf st) = w
    split
    · rename_i h; rw [h]; rfl
    · rfl
  have hinit : ∀ i, i < 64 → (if st.defaultBit = true then ~~~0#64 else 0#64).getLsbD i = st.defaultBit := by
    intro i hi
    cases st.defaultBit with
    | true => simp only [if_true]; rw [BitVec.getLsbD_not]; simp [hi]
    | false => simp
  rw [hval]
  refine ⟨?_, ?_, ?_⟩
  · intro p hp
    have h1 := hidx p hp
    have hi : p.2.idx < 64 := by omega
    rw [BitVec.getLsbD_and, lsb_lenMask _ _ hi, decide_eq_true h1, Bool.and_true]
    refine (dflt_fold _ hL _ hi _).2 p.2.default ?_ (Or.inr ⟨p.2, (hmem _).2 ⟨p, hp, rfl⟩, rfl⟩)
    intro b hb e
    obtain ⟨q, hq, rfl⟩ := (hmem b).1 hb
    exact hagree q hq p hp e
  · intro i hib hno
    have hi : i < 64 := by omega
    rw [BitVec.getLsbD_and, lsb_lenMask _ _ hi, decide_eq_true hib, Bool.and_true, (dflt_fold _ hL _ hi _).1 ?_, hinit i hi]
    intro b hb e
    obtain ⟨q, hq, rfl⟩ := (hmem b).1 hb
    exact hno q hq e
  · intro i hib
    rcases Nat.lt_or_ge i 64 with hi | hi
    · rw [BitVec.getLsbD_and, lsb_lenMask _ _ hi, decide_eq_false (by omega), Bool.and_false]
    · exact BitVec.getLsbD_of_ge _ _ hi

/-- The option for small numbers (it takes a signed one) is used only for numbers below 2^32. -/
theorem C81_fits (st : SetF.State) (hacc : SetF.Accepted st) (v : BitVec 64) (h : setDefault st = some (false, v)) : v.toNat < 2 ^ 32 := by
  have hinv := accepted_inv hacc
  obtain ⟨t, e, hu, hl⟩ := hinv.ty
  have hb := hinv.bits
  have hbits : bitsOf st ≤ 32 := by
    unfold bitsOf
    rw [if_neg (by omega)]
    unfold setDefault at h
    dsimp only at h
    generalize ((sortedBits st).map Prod.snd).foldl dfltStep (if st.defaultBit then ~~~0#64 else 0#64) = w at h
    split at h
    · cases h
    · have h := congrArg Prod.fst (Option.some.inj h)
      rw [e] at h
      have : maxTypeLength t ≤ 4 := by
        cases t <;> first | decide | (cases hu; done) | (exact absurd h (by simp))
      omega
  unfold setDefault at h
  dsimp only at h
  generalize ((sortedBits st).map Prod.snd).foldl dfltStep (if st.defaultBit then ~~~0#64 else 0#64) = w at h
  split at h
  · cases h
  · have h := congrArg Prod.snd (Option.some.inj h)
    dsimp only at h
    subst h
    rw [BitVec.toNat_and]
    refine Nat.lt_of_le_of_lt Nat.and_le_right ?_
    unfold lenMask
    rw [if_pos (by omega)]
    have h1 : (2 : Nat) ^ bitsOf st ≤ 2 ^ 32 := Nat.pow_le_pow_right (by decide) hbits
    have h2 : 0 < (2 : Nat) ^ bitsOf st := Nat.two_pow_pos _
    simp only [BitVec.toNat_sub, BitVec.toNat_shiftLeft, BitVec.toNat_ofNat, Nat.shiftLeft_eq]
    omega

namespace GenSetProofs

/-- Names of the same bit are in the order of their definitions. -/
theorem stable {st : SetF.State} (h : SetF.Accepted st) (v : Nat) :
    st.rev.filter (fun e => e.1 == v) = (st.bits.filter fun p => decide (p.2.idx = v)).map fun p => (p.2.idx, p.1) := by
  have hins : ∀ (val : Nat) (n : Str) (l : List (Nat × Str)), (l.map Prod.fst).Pairwise (· ≤ ·) →
      (MultiMap.insert val n l).filter (fun e => e.1 == v) = l.filter (fun e => e.1 == v) ++ if val = v then [(val, n)] else [] := by
    intro val n l
    induction l with
    | nil => intro _; simp [MultiMap.insert, List.filter_cons]
    | cons e es ih =>
      intro hs
      have hc := List.pairwise_cons.1 hs
      unfold MultiMap.insert
      split
      · rename_i hlt
        by_cases hv : val = v
        · have hnil : (e :: es).filter (fun e => e.1 == v) = [] := by
            rw [List.filter_eq_nil_iff]
            intro a ha
            have : e.1 ≤ a.1 := by
              rcases List.mem_cons.1 ha with rfl | ha
              · exact Nat.le_refl _
              · exact hc.1 a.1 (List.mem_map.2 ⟨a, ha, rfl⟩)
            simp
            omega
          rw [List.filter_cons, if_pos (by simpa using hv), hnil, if_pos hv]
          rfl
        · rw [List.filter_cons, if_neg (by simpa using hv), if_neg hv, List.append_nil]
      · rw [List.filter_cons, List.filter_cons, ih hc.2]
        split <;> rfl
  have hloop : ∀ (env : Env) (c : Ctx) (xs : List Xml) (s s' : SetF.State), bitsLoop env c xs s = .ok s' → Table s →
      s.rev.filter (fun e => e.1 == v) = (s.bits.filter fun p => decide (p.2.idx = v)).map (fun p => (p.2.idx, p.1)) →
      s'.rev.filter (fun e => e.1 == v) = (s'.bits.filter fun p => decide (p.2.idx = v)).map (fun p => (p.2.idx, p.1)) := by
    intro env c xs
    induction xs with
    | nil => intro s s' h _ hp; have h := Res.ok.inj h; subst h; exact hp
    | cons x xs ih =>
      intro s s' h ht hp
      unfold bitsLoop at h
      obtain ⟨s1, h1, h2⟩ := Res.bind_eq_ok.1 h
      obtain ⟨name, info, e, _, ht1⟩ := step h1 ht
      refine ih s1 s' h2 ht1 ?_
      rw [e]
      dsimp only
      rw [hins _ _ _ ht.sorted, List.filter_append, List.map_append, ← hp]
      congr 1
      by_cases hv : info.idx = v <;> simp [hv]
  have hparse : ∀ (env : Env) (c : Ctx) (s s' : SetF.State), Pre s → SetF.parseImpl env c s = .ok s' →
      s.rev.filter (fun e => e.1 == v) = (s.bits.filter fun p => decide (p.2.idx = v)).map (fun p => (p.2.idx, p.1)) →
      s'.rev.filter (fun e => e.1 == v) = (s'.bits.filter fun p => decide (p.2.idx = v)).map (fun p => (p.2.idx, p.1)) := by
    intro env c s s' hp h hs
    unfold SetF.parseImpl at h
    simp only [Res.bind_eq_ok] at h
    obtain ⟨s1, h1, s2, h2, s3, h3, s4, h4, vcv, _, db, _, rb, _, alim, _, h⟩ := h
    obtain ⟨t, e, len, bits, rfl, _⟩ := head_ok hp h1 h2 h3
    have ht0 : Table s := by
      rcases hp with rfl | hi
      · exact table_init
      · exact hi.table
    obtain ⟨ht4, nu, rfl⟩ := nonUnique_ok h4 ⟨ht0.names, ht0.valid, ht0.perm, ht0.sorted, ht0.uniq, ht0.cons⟩
    exact hloop env c _ _ _ h (ht4.congr (by rfl) (by rfl) (by rfl)) hs
  induction h with
  | fresh h => exact hparse _ _ _ _ (Or.inl rfl) h (by simp)
  | reuse h0 h ih => exact hparse _ _ _ _ (Or.inr (accepted_inv h0)) h ih

theorem namesLoop_get (g : GVer) (st : SetF.State) : ∀ (es : List (Nat × Str)), (es.map Prod.fst).Pairwise (· ≤ ·) → ∀ (next i : Nat), next ≤ i →
    (bitNamesLoop g st next es)[i - next]?.join = (es.find? fun e => e.1 == i).map (bitEntry g st) := by
  intro es
  induction es with
  | nil => intro _ next i _; simp [bitNamesLoop]
  | cons e es ih =>
    intro hs next i hi
    have hc := List.pairwise_cons.1 hs
    unfold bitNamesLoop
    split
    · rename_i h
      rw [ih hc.2 next i hi, List.find?_cons_of_neg (by simp; omega)]
    · rename_i h
      rcases Nat.lt_trichotomy i e.1 with hlt | heq | hgt
      · rw [List.getElem?_append_left (by rw [List.length_replicate]; omega), List.getElem?_replicate, if_pos (by omega)]
        have : (e :: es).find? (fun x => x.1 == i) = none := by
          rw [List.find?_eq_none]
          intro x hx
          have : e.1 ≤ x.1 := by
            rcases List.mem_cons.1 hx with rfl | hx
            · exact Nat.le_refl _
            · exact hc.1 x.1 (List.mem_map.2 ⟨x, hx, rfl⟩)
          simp
          omega
        rw [this]
        rfl
      · rw [List.getElem?_append_right (by rw [List.length_replicate]; omega), List.length_replicate, List.find?_cons_of_pos (by simpa using heq.symm)]
        have : i - next - (e.1 - next) = 0 := by omega
        rw [this]
        rfl
      · rw [List.getElem?_append_right (by rw [List.length_replicate]; omega), List.length_replicate, List.find?_cons_of_neg (by simp; omega)]
        have : i - next - (e.1 - next) = (i - (e.1 + 1)) + 1 := by omega
        rw [this, List.getElem?_cons_succ]
        exact ih hc.2 (e.1 + 1) i hgt

theorem freshName_eq (g : GVer) (st : SetF.State) (ht : Table st) : ∀ l : List (Str × BitInfo), (∀ p ∈ l, p ∈ st.bits) →
    freshName g st (l.map fun p => (p.2.idx, p.1)) = (l.find? fun p => decide (g.version < p.2.depr)).map bitShown := by
  intro l
  induction l with
  | nil => intro _; rfl
  | cons p ps ih =>
    intro h
    rw [List.map_cons]
    unfold freshName
    dsimp only
    rw [find_some ht.names (h p List.mem_cons_self)]
    dsimp only
    by_cases hv : g.version < p.2.depr
    · rw [if_pos hv, List.find?_cons_of_pos (by simpa using hv)]
      rfl
    · rw [if_neg hv, List.find?_cons_of_neg (by simpa using hv)]
      exact ih (fun x hx => h x (List.mem_cons_of_mem _ hx))

end GenSetProofs

/-- C82: `bitName()` of the generated code gives for every index the name to be shown for the bit, and null for a bit without a name. -/
theorem C82_names (g : GVer) (st : SetF.State) (h : SetF.Accepted st) (i : Nat) : bitName (bitNames g st) i = bitNameFor g.version st.nonUnique st.bits i := by
  have ht := (accepted_inv h).table
  have hget := namesLoop_get g st st.rev ht.sorted 0 i (Nat.zero_le _)
  rw [Nat.sub_zero] at hget
  have e1 : bitName (bitNames g st) i = (bitNames g st)[i]?.join := by
    unfold bitName
    split
    · rename_i hl
      rw [List.getElem?_eq_none hl]
      rfl
    · rfl
  rw [e1]
  unfold bitNames
  rw [hget, ← List.head?_filter, stable h i]
  unfold bitNameFor
  dsimp only
  cases hl : st.bits.filter (fun p => decide (p.2.idx = i)) with
  | nil => cases st.nonUnique <;> rfl
  | cons p ps =>
    have hp : p ∈ st.bits ∧ p.2.idx = i := by
      have : p ∈ st.bits.filter (fun p => decide (p.2.idx = i)) := by rw [hl]; exact List.mem_cons_self
      rw [List.mem_filter] at this
      exact ⟨this.1, of_decide_eq_true this.2⟩
    have hshow : ∀ q : Str × BitInfo, bitShown q = if q.2.displayName = [] then q.1 else if q.2.displayName = ['_'] then [] else q.2.displayName := by
      intro q
      unfold bitShown
      simp only [List.isEmpty_iff, beq_iff_eq]
    simp only [List.map_cons, List.head?_cons, Option.map_some]
    unfold bitEntry
    dsimp only
    rw [find_some ht.names hp.1]
    dsimp only
    simp only [← hshow]
    have hrev : st.rev.filter (fun x => x.1 == p.2.idx) = (p :: ps).map fun p => (p.2.idx, p.1) := by rw [hp.2, stable h i, hl]
    rw [hrev, freshName_eq g st ht (p :: ps) (by
      intro q hq
      rw [← hl] at hq
      exact (List.mem_filter.1 hq).1)]
    cases hn : st.nonUnique with
    | false => rfl
    | true =>
      simp only [Bool.not_true, Bool.false_or, if_true]
      by_cases hv : g.version < p.2.depr
      · rw [if_pos (by simp [hv]), List.find?_cons_of_pos (by simpa using hv)]
        rfl
      · rw [List.find?_cons_of_neg (by simpa using hv)]
        by_cases hu : isUnique st = true
        · rw [if_pos (by rw [hu]; simp)]
          have hnd : (st.bits.map fun p => p.2.idx).Nodup := (C18_reverse_table st h).2.2.1 hu
          have hps : ps = [] := by
            cases ps with
            | nil => rfl
            | cons q qs =>
              exfalso
              have hsub : ((p :: q :: qs).map fun p => p.2.idx).Nodup := by
                rw [← hl]
                exact hnd.sublist (List.filter_sublist.map _)
              have hq : q ∈ st.bits.filter (fun p => decide (p.2.idx = i)) := by rw [hl]; simp
              have hq := of_decide_eq_true (List.mem_filter.1 hq).2
              simp [hp.2, hq] at hsub
          subst hps
          rfl
        · rw [if_neg (by simp [hu, hv])]
          cases ps.find? (fun p => decide (g.version < p.2.depr)) <;> rfl

namespace GenSetProofs

theorem ones_nat : ∀ n : Nat, (n + 1) &&& n = 0 → ∃ k, n = 2 ^ k - 1 := by
  intro n
  induction n using Nat.strongRecOn with
  | ind n ih =>
    intro h
    have hbit : ∀ i, ((n + 1).testBit i && n.testBit i) = false := by
      intro i
      rw [← Nat.testBit_and, h, Nat.zero_testBit]
    rcases Nat.mod_two_eq_zero_or_one n with hm | hm
    · have : n = 0 := by
        apply Classical.byContradiction
        intro hne
        have h2 : n / 2 ≠ 0 := by omega
        obtain ⟨i, hi⟩ := Nat.exists_testBit_of_ne_zero h2
        have := hbit (i + 1)
        rw [Nat.testBit_succ, Nat.testBit_succ] at this
        have e : (n + 1) / 2 = n / 2 := by omega
        rw [e, hi] at this
        cases this
      exact ⟨0, by omega⟩
    · obtain ⟨k, hk⟩ := ih (n / 2) (by omega) (by
        apply Nat.eq_of_testBit_eq
        intro i
        rw [Nat.testBit_and, Nat.zero_testBit]
        have := hbit (i + 1)
        rw [Nat.testBit_succ, Nat.testBit_succ] at this
        have e : (n + 1) / 2 = n / 2 + 1 := by omega
        rw [e] at this
        exact this)
      refine ⟨k + 1, ?_⟩
      have : 0 < 2 ^ k := Nat.two_pow_pos k
      rw [Nat.pow_succ]
      omega

/-- The test for adjacent bits from zero on. -/
theorem ones (x : BitVec 64) (h : (x + 1#64) &&& x = 0#64) : ∃ k, ∀ i, i < 64 → (x.getLsbD i = true ↔ i < k) := by
  by_cases hx : x.toNat = 2 ^ 64 - 1
  · refine ⟨64, fun i hi => ?_⟩
    unfold BitVec.getLsbD
    rw [hx, Nat.testBit_two_pow_sub_one]
    simp [hi]
  · have hlt := x.isLt
    have e : (x + 1#64).toNat = x.toNat + 1 := by
      rw [BitVec.toNat_add]
      simp only [BitVec.toNat_ofNat]
      omega
    have h2 : (x.toNat + 1) &&& x.toNat = 0 := by
      rw [← e, ← BitVec.toNat_and, h]
      rfl
    obtain ⟨k, hk⟩ := ones_nat _ h2
    refine ⟨k, fun i hi => ?_⟩
    unfold BitVec.getLsbD
    rw [hk, Nat.testBit_two_pow_sub_one, decide_eq_true_iff]

theorem used_lsb (l : List (Nat × Str)) (hl : ∀ e ∈ l, e.1 < 64) (i : Nat) : ∀ a : BitVec 64,
    (l.foldl (fun a e => a ||| bitMask e.1) a).getLsbD i = true ↔ a.getLsbD i = true ∨ ∃ e ∈ l, e.1 = i := by
  induction l with
  | nil => intro a; simp
  | cons e es ih =>
    intro a
    rw [List.foldl_cons, ih (fun x hx => hl x (List.mem_cons_of_mem _ hx)), BitVec.getLsbD_or, lsb_mask (hl e List.mem_cons_self), Bool.or_eq_true, decide_eq_true_iff]
    constructor
    · rintro ((h | h) | ⟨x, hx, h⟩)
      · exact Or.inl h
      · exact Or.inr ⟨e, List.mem_cons_self, h.symm⟩
      · exact Or.inr ⟨x, List.mem_cons_of_mem _ hx, h⟩
    · rintro (h | ⟨x, hx, h⟩)
      · exact Or.inl (Or.inl h)
      · rcases List.mem_cons.1 hx with rfl | hx
        · exact Or.inl (Or.inr h.symm)
        · exact Or.inr ⟨x, hx, h⟩

/-- A sorted list of the numbers below a limit. -/
theorem range_of_sorted (l : List Nat) (k : Nat) (hs : l.Pairwise (· < ·)) (hm : ∀ i, i ∈ l ↔ i < k) : l = List.range k := by
  refine pairwise_perm_unique (· < ·) (fun a b h1 h2 => absurd h1 (by omega)) l _ ?_ hs List.pairwise_lt_range
  refine (List.perm_ext_iff_of_nodup (hs.imp (fun h => Nat.ne_of_lt h)) List.nodup_range).2 ?_
  intro i
  rw [hm, List.mem_range]

end GenSetProofs

/-- C83: the macros give exactly the declared names, each with the declared index. Missing: indices of 64 and above, accepted for `uintvar` (`C83_dropped_witness`). -/
theorem C83_access_partial (st : SetF.State) (h : SetF.Accepted st) (h64 : ∀ p ∈ st.bits, p.2.idx < 64) (name : Str) (i : Nat) :
    AccessIdx (bitAccess st) name i ↔ ∃ p ∈ st.bits, p.1 = name ∧ p.2.idx = i := by
  have ht := (accepted_inv h).table
  have hmem : ∀ e, e ∈ st.rev ↔ ∃ p ∈ st.bits, (p.2.idx, p.1) = e := by
    intro e
    rw [ht.perm.mem_iff, List.mem_map]
  have hall : ∀ e ∈ st.rev, e.1 < 64 := by
    intro e he
    obtain ⟨p, hp, rfl⟩ := (hmem e).1 he
    exact h64 p hp
  have hfil : st.rev.filter (fun e => decide (e.1 < 64)) = st.rev := by
    rw [List.filter_eq_self]
    intro e he
    exact decide_eq_true (hall e he)
  unfold bitAccess
  dsimp only
  rw [hfil]
  split
  · rename_i hc
    rw [Bool.and_eq_true, decide_eq_true_iff] at hc
    obtain ⟨k, hk⟩ := ones _ hc.2
    have hnd : (st.rev.map Prod.fst).Nodup := (MultiMap.isUnique_iff _ ht.sorted).1 hc.1
    have hlt : (st.rev.map Prod.fst).Pairwise (· < ·) := by
      have := ht.sorted.and hnd
      exact this.imp fun h => Nat.lt_of_le_of_ne h.1 h.2
    have hk64 : ∀ j, j ∈ st.rev.map Prod.fst ↔ j < min k 64 := by
      intro j
      have hu := used_lsb st.rev hall j 0#64
      rw [BitVec.getLsbD_zero] at hu
      simp only [Bool.false_eq_true, false_or] at hu
      rw [List.mem_map]
      constructor
      · intro hj
        have hj64 : j < 64 := by
          obtain ⟨e, he, rfl⟩ := hj
          exact hall e he
        have := (hk j hj64).1 (hu.2 hj)
        omega
      · intro hj
        exact hu.1 ((hk j (by omega)).2 (by omega))
    have hr := range_of_sorted _ _ hlt hk64
    unfold AccessIdx
    dsimp only
    have hi : ∀ j n, st.rev[j]? = some (i, n) → j = i := by
      intro j n hj
      have h1 : (st.rev.map Prod.fst)[j]? = some i := by rw [List.getElem?_map, hj]; rfl
      rw [hr] at h1
      obtain ⟨_, h2⟩ := List.getElem?_eq_some_iff.1 h1
      rw [List.getElem_range] at h2
      exact h2
    rw [List.getElem?_map]
    constructor
    · intro hx
      cases he : st.rev[i]? with
      | none => rw [he] at hx; cases hx
      | some e =>
        rw [he] at hx
        have hx := Option.some.inj hx
        have h1 : (st.rev.map Prod.fst)[i]? = some e.1 := by rw [List.getElem?_map, he]; rfl
        rw [hr] at h1
        obtain ⟨_, h2⟩ := List.getElem?_eq_some_iff.1 h1
        rw [List.getElem_range] at h2
        obtain ⟨p, hp, rfl⟩ := (hmem e).1 (List.mem_of_getElem? he)
        exact ⟨p, hp, hx, h2.symm⟩
    · rintro ⟨p, hp, rfl, hpi⟩
      obtain ⟨j, hj⟩ := List.getElem?_of_mem ((hmem _).2 ⟨p, hp, rfl⟩)
      rw [hpi] at hj
      have := hi j p.1 hj
      subst this
      rw [hj]
      rfl
  · unfold AccessIdx
    dsimp only
    rw [List.mem_map]
    constructor
    · rintro ⟨e, he, hx⟩
      obtain ⟨p, hp, rfl⟩ := (hmem e).1 he
      dsimp only at hx
      rw [find_some ht.names hp] at hx
      exact ⟨p, hp, congrArg Prod.fst hx, congrArg Prod.snd hx⟩
    · rintro ⟨p, hp, rfl, rfl⟩
      refine ⟨_, (hmem _).2 ⟨p, hp, rfl⟩, ?_⟩
      dsimp only
      rw [find_some ht.names hp]
      rfl

open GenSetSample

/-- A bit that was renamed and got another default: the default is the one of the name that is last in alphabetical order, here the one that is no longer there. -/
theorem C81_renamed_witness : ∃ (st : SetF.State), SetF.Accepted st ∧
    st.bits.map (fun p => (p.1, p.2.idx, p.2.since, p.2.depr, p.2.default)) = [("Z".toList, 0, 0, 2, true), ("A".toList, 0, 2, Versions.notYet, false)] ∧
    setDefault st = some (false, 1#64) := by
  refine ⟨parsed [("length", "1"), ("nonUniqueAllowed", "true")] [bit "Z" "0" [("deprecated", "2"), ("defaultValue", "true")], bit "A" "0" [("sinceVersion", "2")]],
    .fresh (parsed_ok (by decide +kernel)), by decide +kernel, by decide +kernel⟩

/-- A bit of a `uintvar` set without index and access function. -/
theorem C83_dropped_witness : ∃ (st : SetF.State), SetF.Accepted st ∧ st.bits.map (fun p => (p.1, p.2.idx)) = [("A".toList, 69)] ∧ ∀ i, ¬ AccessIdx (bitAccess st) "A".toList i := by
  refine ⟨parsed [("type", "uintvar")] [bit "A" "69" []], .fresh (parsed_ok (by decide +kernel)), by decide +kernel, ?_⟩
  intro i h
  have e : bitAccess (parsed [("type", "uintvar")] [bit "A" "69" []]) = .seq [] := by decide +kernel
  rw [e] at h
  unfold AccessIdx at h
  simp at h

/-- Default values, names and access functions of a set with gaps, and the one of a set without. -/
example : SetF.Accepted (parsed [("length", "2"), ("defaultValue", "true")] [bit "A" "1" [("defaultValue", "false")], bit "B" "3" [("displayName", "The B")]]) ∧
    setDefault (parsed [("length", "2"), ("defaultValue", "true")] [bit "A" "1" [("defaultValue", "false")], bit "B" "3" [("displayName", "The B")]]) = some (false, 0xFFFD#64) ∧
    bitNames gver (parsed [("length", "2"), ("defaultValue", "true")] [bit "A" "1" [("defaultValue", "false")], bit "B" "3" [("displayName", "The B")]]) =
      [none, some "A".toList, none, some "The B".toList] ∧
    bitAccess (parsed [("length", "2"), ("defaultValue", "true")] [bit "A" "1" [("defaultValue", "false")], bit "B" "3" [("displayName", "The B")]]) =
      .listed [("A".toList, 1), ("B".toList, 3)] ∧
    bitAccess (parsed [("length", "2")] [bit "X" "1", bit "Y" "0"]) = .seq ["Y".toList, "X".toList] := by
  refine ⟨.fresh (parsed_ok (by decide +kernel)), by decide +kernel, by decide +kernel, by decide +kernel, by decide +kernel⟩

/-- The name shown for a renamed bit. -/
example : bitName (bitNames gver (parsed [("length", "1"), ("nonUniqueAllowed", "true")] [bit "Z" "0" [("deprecated", "2")], bit "A" "0" [("sinceVersion", "2")]])) 0 = some "A".toList := by
  decide +kernel

end Commsdsl.Props
