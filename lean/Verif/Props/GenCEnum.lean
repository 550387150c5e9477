import Verif.Model.GenCEnum
import Verif.Props.GenEnumNames
/-!
# C131: enumerators of the C interface
-/
namespace Commsdsl.Props
open Commsdsl Text IntF Spec Gen

namespace GenCEnumProofs
open GenNameProofs

/-- An enumerator with the prefix. -/
def prefixed (pfx : Str) (e : Str × Str) : Str × Str := (pfx ++ e.1, e.2)

theorem loop_prefixed (g : GVer) (t : IntType) (st : EnumF.State) (pfx : Str) : ∀ (l : List (Int × Str)) (es : List (Str × Str)),
    enumeratorsLoop g t st l = .ok es → cEnumLoop g t st pfx l = .ok (es.map (prefixed pfx)) := by
  intro l
  induction l with
  | nil => intro es h; cases h; rfl
  | cons e l ih =>
    intro es h
    unfold enumeratorsLoop at h
    unfold cEnumLoop
    split at h
    · rename_i hf; rw [hf]; exact ih es h
    · rename_i i hf
      rw [hf]
      simp only
      split at h
      · rename_i hd; rw [if_pos hd]; exact ih es h
      · rename_i hd
        rw [if_neg hd]
        simp only [Res.bind_eq_ok] at h
        obtain ⟨s, hs, rest, hr, h⟩ := h
        cases h
        rw [hs, Res.bind_ok, ih rest hr]
        rfl

theorem limit_pos (t : IntType) (n : Nat) : 0 ≤ cTypeLimit t n ∧ cTypeLimit t n ≤ 4294967295 := by
  unfold cTypeLimit
  cases t <;> simp <;> (repeat' split) <;> omega

theorem interp_limit (t : IntType) (n : Nat) : interp t (cTypeLimit t n) = cTypeLimit t n := by
  have := limit_pos t n
  unfold interp
  split
  · omega
  · rfl

theorem limit_small {t : IntType} (n : Nat) (h : typeBits t ≤ 32) : cTypeLimit t n = typeHi t := by
  revert h
  cases t <;> simp [typeBits] <;> rfl

theorem limit_bound {t : IntType} {n : Nat} (h1 : 8 * n ≤ typeBits t) (h2 : n ≤ 4) (h3 : t ≠ .uint64) : hiBound t (8 * n) ≤ cTypeLimit t n := by
  have : n = 0 ∨ n = 1 ∨ n = 2 ∨ n = 3 ∨ n = 4 := by omega
  revert h1 h2 h3
  rcases this with rfl | rfl | rfl | rfl | rfl <;> cases t <;> decide

end GenCEnumProofs
open GenCEnumProofs GenNameProofs

/-- C131: the enumerators of the C interface are those of the C++ code (C79) with a prefix, and one for the greatest number of the type behind. -/
theorem C131_partial (g : GVer) (t : IntType) (b : Bool) (st : EnumF.State) (cName forced : Str) (h : EnumF.Accepted b st) (ht : st.num.type = some t)
    (h64 : ∀ p ∈ st.values, i64Min < p.2.value ∧ p.2.value ≤ i64Max)
    (hlim : t = .uint64 ∨ t = .uintvar → ∀ p ∈ st.values, p.2.value ≠ i64Max) :
    ∃ (pfx : Str) (ps : List (Str × SpecialInfo)) (text : Str × SpecialInfo → Str) (lo hi x : Int) (f l u a z c d : Str),
      let es := ps.map (fun p => (pfx ++ p.1, text p)) ++ ([(pfx ++ f, a), (pfx ++ l, z)] ++
        if hi < typeHi t then [(pfx ++ u, c), (pfx ++ "TypeValuesLimit".toList, d)] else [])
      cEnumerators g t st cName forced = .ok es ∧
      ((forced ≠ [] → pfx = forced) ∧ (forced = [] → pfx = cName ++ "_ValueType_".toList)) ∧
      ps.Perm (st.values.filter fun p => decide (p.2.since ≤ g.version)) ∧ (ps.Pairwise fun p q => interp t p.2.value ≤ interp t q.2.value) ∧
      (∀ p ∈ ps, CppExpr (text p) (interp t p.2.value)) ∧
      ((∃ p ∈ st.values, interp t p.2.value = lo) ∧ (∃ p ∈ st.values, interp t p.2.value = hi) ∧ ∀ p ∈ st.values, lo ≤ interp t p.2.value ∧ interp t p.2.value ≤ hi) ∧
      CppExpr a lo ∧ CppExpr z hi ∧ (hi < typeHi t → CppExpr c (hi + 1) ∧ CppExpr d x) ∧
      (typeBits t ≤ 32 → x = typeHi t) ∧ (8 * st.num.length ≤ typeBits t → st.num.length ≤ 4 → t ≠ .uint64 → hiBound t (8 * st.num.length) ≤ x) ∧
      (Padded "FirstValue".toList f ∨ Padded "firstValue".toList f) ∧ (Padded "LastValue".toList l ∨ Padded "lastValue".toList l) ∧
      (Padded "ValuesLimit".toList u ∨ Padded "valuesLimit".toList u) ∧
      ((∀ p ∈ st.values, p.1 ≠ "TypeValuesLimit".toList) → (es.map Prod.fst).Nodup) := by
  obtain ⟨ps, text, lo, hi, f, l, u, a, z, c, hes, hperm, hasc, htext, hext, ha, hz, hc, hf, hl, hu, hnd⟩ := C79_enumerators_partial g t b st h ht h64 hlim
  generalize hpx : cEnumPrefix cName forced = pfx
  have hpfx : (forced ≠ [] → pfx = forced) ∧ (forced = [] → pfx = cName ++ "_ValueType_".toList) := by
    rw [← hpx]
    unfold cEnumPrefix
    cases forced
    · simp
    · simp
  have hh : st.hexAssign = true → isUnsigned t = true := by
    intro hx
    obtain ⟨t', h1, h2⟩ := hex_unsigned h hx
    rw [ht] at h1
    cases h1
    exact h2
  have hp := limit_pos t st.num.length
  obtain ⟨htl, htc⟩ := text_ok (t := t) (st := st) (x := cTypeLimit t st.num.length) (by unfold i64Min; omega) (by unfold i64Max; omega) hh (fun _ _ => hp.1)
  rw [interp_limit] at htc
  generalize hd : textOf t st (cTypeLimit t st.num.length) = d at htl htc
  refine ⟨pfx, ps, text, lo, hi, cTypeLimit t st.num.length, f, l, u, a, z, c, d, ?_, hpfx, hperm, hasc, htext, hext, ha, hz, fun hx => ⟨hc hx, htc⟩,
    limit_small _, limit_bound, hf, hl, hu, ?_⟩
  · obtain ⟨hperm2, hsorted⟩ := sorted_asc (t := t) h
    obtain ⟨qs, hqs, hrev⟩ := sorted_values (t := t) h
    unfold enumerators at hes
    simp only [Res.bind_eq_ok] at hes
    obtain ⟨es0, hes0, hes⟩ := hes
    unfold cEnumerators
    rw [hpx, loop_prefixed g t st pfx _ _ hes0, Res.bind_ok]
    obtain ⟨⟨p1, hp1, hv1⟩, ⟨p2, hp2, hv2⟩, hall⟩ := hext
    have hne : sortedRev t st ≠ [] := by
      intro e
      rw [e] at hrev
      have : qs = [] := List.map_eq_nil_iff.1 hrev.symm
      rw [this] at hqs
      have := hqs.mem_iff.2 hp1
      simp at this
    obtain ⟨e0, he0⟩ : ∃ e, (sortedRev t st).head? = some e := by
      cases hs : sortedRev t st with
      | nil => exact absurd hs hne
      | cons x xs => exact ⟨x, rfl⟩
    obtain ⟨e1, he1⟩ : ∃ e, (sortedRev t st).getLast? = some e := ⟨_, List.getLast?_eq_some_getLast hne⟩
    rw [he0, he1] at hes ⊢
    simp only [Res.bind_eq_ok] at hes
    obtain ⟨ex, hex, hes⟩ := hes
    have hes : es0 ++ ex = _ := Res.ok.inj hes
    unfold extraEnumerators at hex
    simp only [Res.bind_eq_ok] at hex
    obtain ⟨a', ha', z', hz', hex⟩ := hex
    have hlast : interp t e1.1 = hi := by
      have hm := List.mem_of_getLast? he1
      have hle : interp t e1.1 ≤ hi := by
        rw [hrev] at hm
        obtain ⟨q, hq, rfl⟩ := List.mem_map.1 hm
        exact (hall q (hqs.mem_iff.1 hq)).2
      have hge : hi ≤ interp t e1.1 := by
        have hm2 : (p2.2.value, p2.1) ∈ sortedRev t st := by rw [hrev]; exact List.mem_map.2 ⟨p2, hqs.mem_iff.2 hp2, rfl⟩
        obtain ⟨ys, hys⟩ := List.getLast?_eq_some_iff.1 he1
        rw [hys] at hm2 hsorted
        rcases List.mem_append.1 hm2 with hm2 | hm2
        · have := (List.pairwise_append.1 hsorted).2.2 _ hm2 e1 (by simp)
          rw [← hv2]
          exact this
        · rw [List.mem_singleton] at hm2
          rw [← hm2, ← hv2]
          exact Int.le_refl _
      omega
    have hlimit := limit_iff (t := t) (x := e1.1)
    rw [hlast] at hlimit
    have hpref : (ps.map fun p => (pfx ++ p.1, text p)) = (ps.map fun p => (p.1, text p)).map (prefixed pfx) := by
      rw [List.map_map]; rfl
    dsimp only
    unfold cEnumExtra
    rw [ha', Res.bind_ok, hz', Res.bind_ok]
    by_cases hl2 : hi < typeHi t
    · rw [if_pos (hlimit.2 hl2)] at hex ⊢
      rw [if_pos hl2]
      rw [if_pos hl2] at hes
      simp only [Res.bind_eq_ok] at hex
      obtain ⟨n, hn, c', hc', hex⟩ := hex
      have hex := Res.ok.inj hex
      subst hex
      simp only [List.cons_append, List.nil_append] at hes
      have := List.append_inj' hes rfl
      obtain ⟨e1', e2'⟩ := this
      simp only [List.cons.injEq, Prod.mk.injEq, and_true] at e2'
      obtain ⟨⟨rfl, rfl⟩, ⟨rfl, rfl⟩, ⟨rfl, rfl⟩⟩ := e2'
      rw [hn, Res.bind_ok, hc', Res.bind_ok, htl, Res.bind_ok, hpref, e1']
      rfl
    · rw [if_neg (fun hx => hl2 (hlimit.1 hx))] at hex ⊢
      rw [if_neg hl2]
      rw [if_neg hl2] at hes
      have hex := Res.ok.inj hex
      subst hex
      simp only [List.append_nil] at hes
      have := List.append_inj' hes rfl
      obtain ⟨e1', e2'⟩ := this
      simp only [List.cons.injEq, Prod.mk.injEq, and_true] at e2'
      obtain ⟨⟨rfl, rfl⟩, ⟨rfl, rfl⟩⟩ := e2'
      rw [hpref, e1']
      rfl
  · intro hT
    have hinj : ∀ l : List Str, l.Nodup → (l.map (pfx ++ ·)).Nodup := by
      intro l hl
      exact List.Pairwise.map _ (fun a b hab e => hab (List.append_cancel_left e)) hl
    have hb := hinj _ hnd
    by_cases hl2 : hi < typeHi t
    · rw [if_pos hl2] at hb ⊢
      have e : ((ps.map (fun p => (pfx ++ p.1, text p)) ++ ([(pfx ++ f, a), (pfx ++ l, z)] ++ [(pfx ++ u, c), (pfx ++ "TypeValuesLimit".toList, d)])).map Prod.fst) =
          ((ps.map (fun p => (p.1, text p)) ++ ([(f, a), (l, z)] ++ [(u, c)])).map Prod.fst).map (pfx ++ ·) ++ [pfx ++ "TypeValuesLimit".toList] := by
        simp [List.map_map]
      rw [e, List.nodup_append]
      refine ⟨hb, by simp, ?_⟩
      intro x hx y hy hxy
      rw [List.mem_singleton] at hy
      subst hy
      obtain ⟨n, hn, hnx⟩ := List.mem_map.1 hx
      have hn2 : n = "TypeValuesLimit".toList := List.append_cancel_left (hnx.trans hxy)
      subst hn2
      rw [List.map_append, List.mem_append] at hn
      rcases hn with hn | hn
      · rw [List.map_map] at hn
        obtain ⟨p, hp1, hp2⟩ := List.mem_map.1 hn
        exact hT p (List.mem_filter.1 (hperm.mem_iff.1 hp1)).1 hp2
      · have hpad : ∀ (x : Char) (xs : Str), 'T' ≠ x → ¬ Padded (x :: xs) "TypeValuesLimit".toList := by
          rintro x xs hx ⟨k, hk⟩
          have : 'T' :: "ypeValuesLimit".toList = x :: (xs ++ List.replicate k '_') := hk
          exact hx (List.cons.inj this).1
        simp only [List.cons_append, List.nil_append, List.map_cons, List.map_nil, List.mem_cons, List.not_mem_nil, or_false] at hn
        rcases hn with hn | hn | hn
        · rw [← hn] at hf
          exact hf.elim (hpad 'F' "irstValue".toList (by decide)) (hpad 'f' "irstValue".toList (by decide))
        · rw [← hn] at hl
          exact hl.elim (hpad 'L' "astValue".toList (by decide)) (hpad 'l' "astValue".toList (by decide))
        · rw [← hn] at hu
          exact hu.elim (hpad 'V' "aluesLimit".toList (by decide)) (hpad 'v' "aluesLimit".toList (by decide))
    · rw [if_neg hl2] at hb ⊢
      have e : ((ps.map (fun (p : Str × SpecialInfo) => (pfx ++ p.1, text p)) ++ ([(pfx ++ f, a), (pfx ++ l, z)] ++ [])).map Prod.fst) =
          ((ps.map (fun (p : Str × SpecialInfo) => (p.1, text p)) ++ ([(f, a), (l, z)] ++ [])).map Prod.fst).map (pfx ++ ·) := by
        simp [List.map_map]
      rw [e]
      exact hb

open GenEnumSample

/-- A value that is called `TypeValuesLimit`: the name of the last enumerator is not changed for it and occurs twice. -/
theorem C131_clash_witness : ∃ (g : GVer) (b : Bool) (st : EnumF.State), EnumF.Accepted b st ∧ st.num.type = some .uint8 ∧
    cEnumerators g .uint8 st "p_field_F".toList [] = .ok [("p_field_F_ValueType_A".toList, "1".toList), ("p_field_F_ValueType_TypeValuesLimit".toList, "2".toList),
      ("p_field_F_ValueType_FirstValue".toList, "1".toList), ("p_field_F_ValueType_LastValue".toList, "2".toList), ("p_field_F_ValueType_ValuesLimit".toList, "3".toList),
      ("p_field_F_ValueType_TypeValuesLimit".toList, "255".toList)] := by
  exact ⟨{ parsed := 5 }, _, parsed [("type", "uint8")] [value "A" "1", value "TypeValuesLimit" "2"], parsed_ok (by decide +kernel), by decide +kernel, by decide +kernel⟩

/-- A 64 bit enum with large numbers: the limit of the type is below its own values. -/
theorem C131_limit_witness : ∃ (g : GVer) (b : Bool) (st : EnumF.State), EnumF.Accepted b st ∧ st.num.type = some .int64 ∧
    cEnumerators g .int64 st [] "P_".toList = .ok [("P_A".toList, "0x10000000000LL".toList), ("P_FirstValue".toList, "0x10000000000LL".toList), ("P_LastValue".toList, "0x10000000000LL".toList),
      ("P_ValuesLimit".toList, "0x10000000001LL".toList), ("P_TypeValuesLimit".toList, "2147483647".toList)] := by
  exact ⟨{ parsed := 5 }, _, parsed [("type", "int64")] [value "A" "1099511627776"], parsed_ok (by decide +kernel), by decide +kernel, by decide +kernel⟩

/-- A concrete case of the hypotheses. -/
example : EnumF.Accepted names.nonUnique names ∧ names.num.type = some .uint8 ∧ (∀ p ∈ names.values, i64Min < p.2.value ∧ p.2.value ≤ i64Max) ∧
    (∀ p ∈ names.values, p.1 ≠ "TypeValuesLimit".toList) ∧ 8 * names.num.length ≤ typeBits .uint8 ∧ names.num.length = 1 ∧
    ((names.values.map fun p => p.2.value).all fun v => decide (v < typeHi .uint8)) = true := by
  refine ⟨parsed_ok (by decide +kernel), by decide +kernel, by decide +kernel, by decide +kernel, by decide +kernel, by decide +kernel, by decide +kernel⟩

end Commsdsl.Props
