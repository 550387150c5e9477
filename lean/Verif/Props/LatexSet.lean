import Verif.Model.Latex
import Verif.Spec.Latex
import Verif.Props.SetField
import Verif.Props.GenSet
import Verif.Props.GenNum
/-!
# Property C113: the table of bits in the LaTeX documents
-/
namespace Commsdsl.Props
open Commsdsl Gen Spec

namespace LatexSetProofs

/-- Does the row tell that bit `i` is reserved? -/
def tells (i : Nat) (r : BitRow) : Bool := r.bit.isNone && decide (r.first ≤ i) && decide (i ≤ r.last)

/-- The indices and the mask of a row agree, and it is about one bit if that is named. -/
structure RowOk (r : BitRow) : Prop where
  order : r.first ≤ r.last
  mask : ∀ j, r.mask.getLsbD j = true ↔ r.first ≤ j ∧ j ≤ r.last
  named : ∀ p, r.bit = some p → r.first = p.2.idx ∧ r.last = p.2.idx

theorem single_mask {i : Nat} (hi : i < 64) (j : Nat) : (bitMask i).getLsbD j = true ↔ i ≤ j ∧ j ≤ i := by
  rw [GenSetProofs.lsb_mask hi, decide_eq_true_eq]; omega

theorem gapRows_spec : ∀ (n gap : Nat), gap + n ≤ 64 → ∃ rs, gapRows gap n = .ok rs ∧ rs.filterMap BitRow.bit = [] ∧ (∀ r ∈ rs, RowOk r) ∧
    (∀ r ∈ rs, gap ≤ r.first ∧ r.last < gap + n) ∧ rs.Pairwise (fun a b => a.last ≤ b.first) ∧
    ∀ i, rs.countP (tells i) = if gap ≤ i ∧ i < gap + n then 1 else 0 := by
  intro n
  induction n with
  | zero =>
    intro gap _
    refine ⟨[], rfl, rfl, by simp, by simp, by simp, fun i => ?_⟩
    rw [if_neg (by omega)]; rfl
  | succ n ih =>
    intro gap h
    obtain ⟨rs, h1, h2, h3, h4, h5, h6⟩ := ih (gap + 1) (by omega)
    refine ⟨{ first := gap, last := gap, mask := bitMask gap, bit := none } :: rs, ?_, ?_, ?_, ?_, ?_, ?_⟩
    · rw [gapRows, if_neg (by omega), h1]; rfl
    · rw [List.filterMap_cons_none rfl, h2]
    · intro r hr
      rcases List.mem_cons.1 hr with rfl | hr
      · exact ⟨Nat.le_refl _, single_mask (by omega), by simp⟩
      · exact h3 r hr
    · intro r hr
      rcases List.mem_cons.1 hr with rfl | hr
      · exact ⟨Nat.le_refl _, by show gap < _; omega⟩
      · have := h4 r hr; omega
    · rw [List.pairwise_cons]
      refine ⟨fun r hr => ?_, h5⟩
      have := (h4 r hr).1
      show gap ≤ _
      omega
    · intro i
      rw [List.countP_cons, h6]
      have : tells i { first := gap, last := gap, mask := bitMask gap, bit := none } = decide (i = gap) := by
        unfold tells
        rw [Option.isNone_none, Bool.true_and, ← Bool.decide_and]
        exact decide_eq_decide.2 (show gap ≤ i ∧ i ≤ gap ↔ i = gap by omega)
      rw [this]
      by_cases hi : i = gap
      · subst hi
        rw [if_neg (by omega), if_pos (by simp), if_pos (by omega)]
      · rw [if_neg (c := decide (i = gap) = true) (by simpa using hi)]
        by_cases h7 : gap + 1 ≤ i ∧ i < gap + 1 + n
        · rw [if_pos h7, if_pos (by omega)]
        · rw [if_neg h7, if_neg (by omega)]

/-- What the loop gives. -/
structure LoopOk (st : SetF.State) (gap : Nat) (es : List (Nat × Str)) (rs : List BitRow) (fin : Nat) : Prop where
  bits : (rs.filterMap BitRow.bit).map (fun p => (p.2.idx, p.1)) = es
  found : ∀ p ∈ rs.filterMap BitRow.bit, p ∈ st.bits
  rows : ∀ r ∈ rs, RowOk r
  lower : ∀ r ∈ rs, gap ≤ r.first + 1
  upper : ∀ r ∈ rs, r.last < fin
  sorted : rs.Pairwise fun a b => a.last ≤ b.first
  ends : gap ≤ fin ∧ ∀ e ∈ es, e.1 < fin
  last : fin = gap ∨ ∃ e ∈ es, fin = e.1 + 1
  count : ∀ i, rs.countP (tells i) = if gap ≤ i ∧ i < fin ∧ ∀ e ∈ es, e.1 ≠ i then 1 else 0

theorem loop_spec {st : SetF.State} (hn : (st.bits.map Prod.fst).Nodup) : ∀ (es : List (Nat × Str)) (gap : Nat), (es.map Prod.fst).Pairwise (· ≤ ·) →
    (∀ e ∈ es, gap ≤ e.1 + 1 ∧ e.1 < 64 ∧ ∃ p ∈ st.bits, e = (p.2.idx, p.1)) → ∃ rs fin, bitRowsLoop st gap es = .ok (rs, fin) ∧ LoopOk st gap es rs fin := by
  intro es
  induction es with
  | nil =>
    intro gap _ _
    refine ⟨[], gap, rfl, rfl, by simp, by simp, by simp, by simp, by simp, by simp, Or.inl rfl, fun i => ?_⟩
    rw [if_neg (by omega)]; rfl
  | cons e es ih =>
    intro gap hs he
    obtain ⟨h1, h2, p, hp, hpe⟩ := he e (List.mem_cons_self ..)
    rw [List.map_cons, List.pairwise_cons] at hs
    have hge : ∀ e' ∈ es, e.1 ≤ e'.1 := fun e' h => hs.1 _ (List.mem_map_of_mem h)
    obtain ⟨bs, g1, g2, g3, g4, g5, g6⟩ := gapRows_spec (e.1 - gap) gap (by omega)
    obtain ⟨rs, fin, r1, r2⟩ := ih (e.1 + 1) hs.2 fun e' h => ⟨by have := hge e' h; omega, (he e' (List.mem_cons_of_mem _ h)).2⟩
    have hrow : namedRow st e = .ok { first := e.1, last := e.1, mask := bitMask e.1, bit := some p } := by
      unfold namedRow
      rw [hpe, SetProofs.find_some hn hp]
      rw [hpe] at h2
      dsimp only at h2 ⊢
      rw [if_neg (by omega)]
    refine ⟨bs ++ { first := e.1, last := e.1, mask := bitMask e.1, bit := some p } :: rs, fin, ?_, ?_, ?_, ?_, ?_, ?_, ?_, ?_, ?_, ?_⟩
    · rw [bitRowsLoop, g1]
      show (namedRow st e).bind _ = _
      rw [hrow]
      show (bitRowsLoop st (e.1 + 1) es).bind _ = _
      rw [r1]
      rfl
    · rw [List.filterMap_append, g2, List.nil_append, List.filterMap_cons_some (f := BitRow.bit) rfl, List.map_cons, r2.bits, ← hpe]
    · intro q hq
      rw [List.filterMap_append, g2, List.nil_append, List.filterMap_cons_some (f := BitRow.bit) rfl] at hq
      rcases List.mem_cons.1 hq with rfl | hq
      · exact hp
      · exact r2.found q hq
    · intro r hr
      rcases List.mem_append.1 hr with hr | hr
      · exact g3 r hr
      · rcases List.mem_cons.1 hr with rfl | hr
        · refine ⟨Nat.le_refl _, single_mask h2, fun q hq => ?_⟩
          injection hq with hq
          subst hq
          rw [hpe]; exact ⟨rfl, rfl⟩
        · exact r2.rows r hr
    · intro r hr
      rcases List.mem_append.1 hr with hr | hr
      · have := (g4 r hr).1; omega
      · rcases List.mem_cons.1 hr with rfl | hr
        · exact h1
        · have := r2.lower r hr; omega
    · intro r hr
      have := r2.ends.1
      rcases List.mem_append.1 hr with hr | hr
      · have := (g4 r hr).2; omega
      · rcases List.mem_cons.1 hr with rfl | hr
        · show e.1 < fin; omega
        · exact r2.upper r hr
    · rw [List.pairwise_append]
      refine ⟨g5, ?_, ?_⟩
      · rw [List.pairwise_cons]
        refine ⟨fun r hr => ?_, r2.sorted⟩
        have := r2.lower r hr
        show e.1 ≤ _
        omega
      · intro a ha b hb
        have ha := (g4 a ha).2
        rcases List.mem_cons.1 hb with rfl | hb
        · show a.last ≤ e.1; omega
        · have := r2.lower b hb; omega
    · refine ⟨by have := r2.ends.1; omega, fun e' h => ?_⟩
      rcases List.mem_cons.1 h with rfl | h
      · have := r2.ends.1; omega
      · exact r2.ends.2 e' h
    · rcases r2.last with h | ⟨e', h, h'⟩
      · exact Or.inr ⟨e, List.mem_cons_self .., h⟩
      · exact Or.inr ⟨e', List.mem_cons_of_mem _ h, h'⟩
    · intro i
      rw [List.countP_append, List.countP_cons, g6, r2.count]
      have : tells i { first := e.1, last := e.1, mask := bitMask e.1, bit := some p } = false := rfl
      rw [this, if_neg (c := false = true) (by simp), Nat.add_zero]
      have hfin := r2.ends.1
      by_cases hi : i < e.1
      · rw [if_neg (c := e.1 + 1 ≤ i ∧ _) (by omega), Nat.add_zero]
        by_cases hg : gap ≤ i
        · rw [if_pos (by omega), if_pos]
          refine ⟨hg, by omega, fun e' h => ?_⟩
          rcases List.mem_cons.1 h with rfl | h
          · omega
          · have := hge e' h; omega
        · rw [if_neg (by omega), if_neg (by omega)]
      · rw [if_neg (c := gap ≤ i ∧ i < _) (by omega), Nat.zero_add]
        by_cases hi' : i = e.1
        · rw [if_neg (by omega), if_neg]
          intro h
          exact h.2.2 e (List.mem_cons_self ..) hi'.symm
        · by_cases hx : e.1 + 1 ≤ i ∧ i < fin ∧ ∀ e' ∈ es, e'.1 ≠ i
          · rw [if_pos hx, if_pos]
            refine ⟨by omega, hx.2.1, fun e' h => ?_⟩
            rcases List.mem_cons.1 h with rfl | h
            · omega
            · exact hx.2.2 e' h
          · rw [if_neg hx, if_neg]
            intro h
            exact hx ⟨by omega, h.2.1, fun e' h' => h.2.2 e' (List.mem_cons_of_mem _ h')⟩

theorem maskLoop_spec : ∀ (n i : Nat) (m : BitVec 64), i + n ≤ 64 → ∃ m', maskLoop m i n = .ok m' ∧
    ∀ j, m'.getLsbD j = true ↔ m.getLsbD j = true ∨ (i ≤ j ∧ j < i + n) := by
  intro n
  induction n with
  | zero => intro i m _; exact ⟨m, rfl, fun j => by constructor; exact Or.inl; rintro (h | h); exact h; omega⟩
  | succ n ih =>
    intro i m h
    obtain ⟨m', h1, h2⟩ := ih (i + 1) (m ||| bitMask i) (by omega)
    refine ⟨m', by rw [maskLoop, if_neg (by omega), h1], fun j => ?_⟩
    rw [h2, BitVec.getLsbD_or, Bool.or_eq_true, single_mask (by omega)]
    constructor
    · rintro ((h | h) | h)
      · exact Or.inl h
      · right; omega
      · right; omega
    · rintro (h | h)
      · exact Or.inl (Or.inl h)
      · by_cases hj : j = i
        · left; right; omega
        · right; omega

theorem lastRow_spec {limit gap : Nat} (h : limit ≤ 64) : ∃ l, lastRow limit gap = .ok l ∧ l.filterMap BitRow.bit = [] ∧ (∀ r ∈ l, RowOk r) ∧
    (∀ r ∈ l, gap ≤ r.first) ∧ l.length ≤ 1 ∧ ∀ i, l.countP (tells i) = if gap ≤ i ∧ i < limit then 1 else 0 := by
  unfold lastRow
  by_cases hg : gap < limit
  · rw [if_pos hg]
    obtain ⟨m, h1, h2⟩ := maskLoop_spec (limit - gap) gap 0#64 (by omega)
    rw [h1]
    refine ⟨_, rfl, rfl, ?_, ?_, by simp, ?_⟩
    · intro r hr
      rw [List.mem_singleton] at hr
      subst hr
      refine ⟨by show gap ≤ limit - 1; omega, fun j => ?_, by simp⟩
      rw [h2]
      show _ ↔ gap ≤ j ∧ j ≤ limit - 1
      constructor
      · rintro (h | h)
        · simp at h
        · omega
      · intro h; right; omega
    · intro r hr
      rw [List.mem_singleton] at hr
      subst hr; exact Nat.le_refl _
    · intro i
      rw [List.countP_cons, List.countP_nil, Nat.zero_add]
      have : tells i { first := gap, last := limit - 1, mask := m, bit := none } = decide (gap ≤ i ∧ i < limit) := by
        unfold tells
        rw [Option.isNone_none, Bool.true_and, ← Bool.decide_and]
        exact decide_eq_decide.2 (show gap ≤ i ∧ i ≤ limit - 1 ↔ gap ≤ i ∧ i < limit by omega)
      rw [this]
      simp only [decide_eq_true_eq]
  · rw [if_neg hg]
    refine ⟨[], rfl, rfl, by simp, by simp, by simp, fun i => ?_⟩
    rw [if_neg (by omega)]; rfl

theorem nodup_of_map {α β : Type} {f : α → β} {l : List α} (h : (l.map f).Nodup) : l.Nodup :=
  (List.pairwise_map.1 h).imp fun hne e => hne (congrArg f e)

/-- One index, or two with a dash in between. -/
inductive TexBits : Str → Nat → Nat → Prop where
  | one {d : Str} {n : Nat} : DenotesU d n → TexBits d n n
  | range {d e : Str} {n m : Nat} : DenotesU d n → DenotesU e m → n < m → TexBits (d ++ (" - ".toList ++ e)) n m

end LatexSetProofs
open LatexSetProofs

/-! ## C113 -/

/-- The table of bits of an accepted `<set>` of at most eight bytes: it can be written, has one row for every named bit, in order of the indices; every other
    bit of the field is in one row of reserved bits, and named ones in none; the masks are those of the bits. Missing from the full claim: sets of the type
    `uintvar` with more than 64 bits (`C113_shift_witness`) and that the table ends with the field (`C113_inherited_witness`). -/
theorem C113_rows_partial (member : Bool) (st : SetF.State) (h : SetF.Accepted st) (h8 : st.length ≤ 8) : ∃ rows, bitRows member st = .ok rows ∧
    (rows.filterMap BitRow.bit).Perm st.bits ∧
    (∀ r ∈ rows, r.first ≤ r.last ∧ (∀ j, r.mask.getLsbD j = true ↔ r.first ≤ j ∧ j ≤ r.last) ∧ ∀ p, r.bit = some p → r.first = p.2.idx ∧ r.last = p.2.idx) ∧
    rows.Pairwise (fun a b => a.last ≤ b.first) ∧
    ∀ i, (rows.filter fun r => r.bit = none ∧ r.first ≤ i ∧ i ≤ r.last).length =
      if (∀ p ∈ st.bits, p.2.idx ≠ i) ∧ (i < bitLimit member st ∨ ∃ p ∈ st.bits, i < p.2.idx) then 1 else 0 := by
  have hi := SetProofs.accepted_inv h
  have ht := hi.table
  have hmem : ∀ e ∈ st.rev, ∃ p ∈ st.bits, e = (p.2.idx, p.1) := by
    intro e he
    obtain ⟨p, hp, e'⟩ := List.mem_map.1 (ht.perm.mem_iff.1 he)
    exact ⟨p, hp, e'.symm⟩
  have hmem' : ∀ p ∈ st.bits, (p.2.idx, p.1) ∈ st.rev := fun p hp => ht.perm.mem_iff.2 (List.mem_map.2 ⟨p, hp, rfl⟩)
  obtain ⟨rs, fin, h1, h2⟩ := loop_spec ht.names st.rev 0 ht.sorted fun e he => by
    obtain ⟨p, hp, e'⟩ := hmem e he
    have := hi.idx p hp
    exact ⟨by omega, by rw [e']; show p.2.idx < 64; omega, p, hp, e'⟩
  have hlim : bitLimit member st ≤ 64 := by
    unfold bitLimit
    split <;> omega
  obtain ⟨l, l1, l2, l3, l4, l5, l6⟩ := lastRow_spec (gap := fin) hlim
  refine ⟨rs ++ l, ?_, ?_, ?_, ?_, ?_⟩
  · unfold bitRows
    rw [h1]
    show (lastRow _ fin).bind _ = _
    rw [l1]; rfl
  · rw [List.filterMap_append, l2, List.append_nil]
    have hkey : ((rs.filterMap BitRow.bit).map fun p => (p.2.idx, p.1)).Perm (st.bits.map fun p => (p.2.idx, p.1)) := by
      rw [h2.bits]; exact ht.perm
    have hnd : (rs.filterMap BitRow.bit).Nodup := by
      have h3 : ((rs.filterMap BitRow.bit).map Prod.fst).Nodup := by
        have h4 := (hkey.map Prod.snd).nodup_iff.2 (by simpa [List.map_map, Function.comp_def] using ht.names)
        simpa [List.map_map, Function.comp_def] using h4
      exact nodup_of_map h3
    have hnd' : st.bits.Nodup := nodup_of_map ht.names
    refine (List.perm_ext_iff_of_nodup hnd hnd').2 fun p => ⟨h2.found p, fun hp => ?_⟩
    obtain ⟨q, hq, e⟩ := List.mem_map.1 (hkey.mem_iff.2 (List.mem_map.2 ⟨p, hp, rfl⟩))
    have hpq : q.1 = p.1 := congrArg Prod.snd e
    have hf := SetProofs.find_some ht.names hp
    have hf' := SetProofs.find_some ht.names (h2.found q hq)
    rw [hpq, hf] at hf'
    injection hf' with hf'
    rw [show p = q from Prod.ext hpq.symm hf']
    exact hq
  · intro r hr
    rcases List.mem_append.1 hr with hr | hr
    · exact ⟨(h2.rows r hr).order, (h2.rows r hr).mask, (h2.rows r hr).named⟩
    · exact ⟨(l3 r hr).order, (l3 r hr).mask, (l3 r hr).named⟩
  · rw [List.pairwise_append]
    refine ⟨h2.sorted, ?_, ?_⟩
    · match l, l5 with
      | [], _ => exact .nil
      | [_], _ => simp
    · intro a ha b hb
      have h3 := h2.upper a ha
      have h4 := l4 b hb
      omega
  · intro i
    have hc : (rs ++ l).countP (tells i) = ((rs ++ l).filter fun r => r.bit = none ∧ r.first ≤ i ∧ i ≤ r.last).length := by
      rw [List.countP_eq_length_filter]
      congr 2
      funext r
      unfold tells
      rw [Bool.eq_iff_iff]
      simp [and_assoc]
    rw [← hc, List.countP_append, h2.count, l6]
    have hfin : fin ≤ i → ∀ e ∈ st.rev, e.1 ≠ i := fun h e he => by have := h2.ends.2 e he; omega
    have hn : (∀ p ∈ st.bits, p.2.idx ≠ i) ↔ ∀ e ∈ st.rev, e.1 ≠ i := by
      constructor
      · intro h e he
        obtain ⟨p, hp, e'⟩ := hmem e he
        rw [e']; exact h p hp
      · intro h p hp
        exact h _ (hmem' p hp)
    have ha : i + 1 < fin → ∃ p ∈ st.bits, i < p.2.idx := by
      intro hf
      rcases h2.last with e | ⟨e, he, hfe⟩
      · omega
      · obtain ⟨p, hp, e'⟩ := hmem e he
        refine ⟨p, hp, ?_⟩
        rw [e'] at hfe
        dsimp only at hfe
        omega
    have hb : (∃ p ∈ st.bits, i < p.2.idx) → i < fin := by
      rintro ⟨p, hp, hx⟩
      have := h2.ends.2 _ (hmem' p hp)
      dsimp only at this
      omega
    by_cases h5 : i < fin
    · rw [if_neg (c := fin ≤ i ∧ _) (by omega), Nat.add_zero]
      by_cases h6 : ∀ e ∈ st.rev, e.1 ≠ i
      · rw [if_pos ⟨Nat.zero_le _, h5, h6⟩, if_pos]
        refine ⟨hn.2 h6, Or.inr (ha ?_)⟩
        rcases h2.last with e | ⟨e, he, hfe⟩
        · omega
        · have := h6 e he; omega
      · rw [if_neg (fun h => h6 h.2.2), if_neg (fun h => h6 (hn.1 h.1))]
    · rw [if_neg (c := 0 ≤ i ∧ _) (by omega), Nat.zero_add]
      by_cases h6 : i < bitLimit member st
      · rw [if_pos ⟨by omega, h6⟩, if_pos ⟨hn.2 (hfin (by omega)), Or.inl h6⟩]
      · rw [if_neg (fun h => h6 h.2), if_neg]
        rintro ⟨_, h7 | h7⟩
        · exact h6 h7
        · exact h5 (hb h7)

/-- The text of a row begins with the indices and the mask. -/
theorem C113_text (st : SetF.State) (r : BitRow) (h : r.first ≤ r.last) (h64 : r.last < 64) : ∃ d m rest, r.text st = d ++ (" & ".toList ++ (m ++ (" & ".toList ++ rest))) ∧
    TexBits d r.first r.last ∧ DenotesU m r.mask.toNat := by
  have hd : ∀ n, n < 64 → DenotesU (toDec n) n := fun n hn => (GenNumProofs.toDec_spec (Nat.lt_trans hn (by decide))).1
  refine ⟨toDec r.first ++ (if r.first < r.last then " - ".toList ++ toDec r.last else []), maskText (st.length * 2) r.mask,
    (match r.bit with
      | none => "& Reserved. Expected to be ".toList ++ boolDigit st.reservedBit ++ ".".toList
      | some (name, b) => latexName b.displayName name ++ " & ".toList ++ bitNote b), ?_, ?_, ?_⟩
  · unfold BitRow.text
    cases r.bit with
    | none => simp only [List.append_assoc]; rfl
    | some p => simp only [List.append_assoc]
  · by_cases hl : r.first < r.last
    · rw [if_pos hl]
      exact .range (hd _ (by omega)) (hd _ h64) hl
    · rw [if_neg hl, List.append_nil]
      have e : r.last = r.first := by omega
      rw [e]
      exact .one (hd _ (by omega))
  · exact GenNumProofs.toHex_spec false _ r.mask.isLt

private def ctx (attrs : List (Str × Str)) (children : List Xml := []) (bitfieldMember : Bool := false) : IntF.Ctx :=
  { node := .elem "set".toList attrs children, props := attrs, since := 0, depr := Versions.notYet, bitfieldMember := bitfieldMember }
private def env0 : IntF.Env := { dsl := 7, schemaVersion := 5, schemaEndian := .little, strToNumeric := fun _ => none }
private def bit (n v : String) : Xml := .elem "bit".toList [("name".toList, n.toList), ("idx".toList, v.toList)] []

/-- A member of four bits that reuses a set with bit 7: the table goes on beyond the field. -/
theorem C113_inherited_witness : ∃ st rows, SetF.Accepted st ∧ bitLimit true st = 4 ∧ bitRows true st = .ok rows ∧
    rows.map (fun r => (r.first, r.last)) = [(0, 0), (1, 1), (2, 2), (3, 3), (4, 4), (5, 5), (6, 6), (7, 7)] := by
  have h : okWithS (SetF.parseImpl env0 (ctx [("length".toList, "1".toList)] [bit "A" "7"]) {}) (fun st =>
        okWithS (SetF.parseImpl env0 (ctx [("bitLength".toList, "4".toList)] [] true) st)
        (fun st => decide (bitLimit true st = 4) && match bitRows true st with
          | .ok rows => decide (rows.map (fun r => (r.first, r.last)) = [(0, 0), (1, 1), (2, 2), (3, 3), (4, 4), (5, 5), (6, 6), (7, 7)])
          | _ => false)) = true := by decide +kernel
  obtain ⟨st, h1, h2⟩ := okWithS_spec h
  obtain ⟨st', h3, h4⟩ := okWithS_spec h2
  rw [Bool.and_eq_true] at h4
  have h5 := h4.2
  split at h5
  · rename_i rows hr
    exact ⟨st', rows, .reuse (.fresh h1) h3, of_decide_eq_true h4.1, hr, of_decide_eq_true h5⟩
  · simp at h5

/-- A set of the type `uintvar` may have bits for which the mask is computed with an undefined shift. -/
theorem C113_shift_witness : ∃ st, SetF.Accepted st ∧ st.bits.map (fun p => p.2.idx) = [70] ∧ bitRows false st = .ub := by
  have h : okWithS (SetF.parseImpl env0 (ctx [("type".toList, "uintvar".toList)] [bit "A" "70"]) {})
      (fun st => decide (st.bits.map (fun p => p.2.idx) = [70]) && match bitRows false st with | .ub => true | _ => false) = true := by decide +kernel
  obtain ⟨st, h1, h2⟩ := okWithS_spec h
  rw [Bool.and_eq_true] at h2
  have h5 := h2.2
  split at h5
  · rename_i hr
    exact ⟨st, .fresh h1, of_decide_eq_true h2.1, hr⟩
  · simp at h5

/-- A set of two bytes with bits 1 and 9 and its table. -/
example : ∃ st rows, SetF.Accepted st ∧ st.length ≤ 8 ∧ bitRows false st = .ok rows ∧ (rows.drop 8).map (BitRow.text st) =
    ["8 & 0x0100 & & Reserved. Expected to be 0.".toList, "9 & 0x0200 & B & ".toList, "10 - 15 & 0xfc00 & & Reserved. Expected to be 0.".toList] := by
  have h : okWithS (SetF.parseImpl env0 (ctx [("length".toList, "2".toList)] [bit "A" "1", bit "B" "9"]) {})
      (fun st => decide (st.length ≤ 8) && match bitRows false st with
        | .ok rows => decide ((rows.drop 8).map (BitRow.text st) =
            ["8 & 0x0100 & & Reserved. Expected to be 0.".toList, "9 & 0x0200 & B & ".toList, "10 - 15 & 0xfc00 & & Reserved. Expected to be 0.".toList])
        | _ => false) = true := by decide +kernel
  obtain ⟨st, h1, h2⟩ := okWithS_spec h
  rw [Bool.and_eq_true] at h2
  have h5 := h2.2
  split at h5
  · rename_i rows hr
    exact ⟨st, rows, .fresh h1, of_decide_eq_true h2.1, hr, of_decide_eq_true h5⟩
  · simp at h5

end Commsdsl.Props
