import Verif.Props.GenEnum
/-!
# C78, C79: enumerators and names of the values of generated `<enum>` fields
-/
namespace Commsdsl.Props
open Commsdsl Text IntF Spec Gen

namespace GenNameProofs
open GenValidProofs GenEnumProofs

/-- Values with the same number are in the order of their definitions. -/
theorem stable {b : Bool} {st : EnumF.State} (h : EnumF.Accepted b st) (v : Int) :
    st.rev.filter (fun e => e.1 == v) = (st.values.filter fun p => p.2.value == v).map fun p => (p.2.value, p.1) := by
  refine accepted_ind (fun values rev => rev.filter (fun e => e.1 == v) = (values.filter fun p => p.2.value == v).map fun p => (p.2.value, p.1)) (by simp) ?_ h
  intro env c t x s s' h hsd hp
  unfold EnumF.valueStep at h
  simp only [Res.bind_eq_ok] at h
  obtain ⟨props, _, _, _, _, _, _, _, _, _, _, _, _, _, _, _, _, _, val, _, _, _, _, _, ⟨since, depr⟩, hw, disp, _, h⟩ := h
  have h := Res.ok.inj h
  subst h
  dsimp only
  rw [List.filter_append, List.map_append, ← hp]
  clear hp
  generalize props.getStr "name".toList = n
  have hins : ∀ l : List (Int × Str), (l.map Prod.fst).Pairwise (· ≤ ·) →
      (MultiMap.insert val n l).filter (fun e => e.1 == v) = l.filter (fun e => e.1 == v) ++ if val == v then [(val, n)] else [] := by
    intro l
    induction l with
    | nil => intro _; simp [MultiMap.insert, List.filter_cons]
    | cons e es ih =>
      intro hs
      have hc := List.pairwise_cons.1 hs
      unfold MultiMap.insert
      split
      · rename_i hlt
        by_cases hv : val = v
        · have hnil : (e :: es).filter (fun e => e.1 == v) = [] := by
            rw [List.filter_eq_nil_iff]
            intro a ha
            have : e.1 ≤ a.1 := by
              rcases List.mem_cons.1 ha with rfl | ha
              · exact Int.le_refl _
              · exact hc.1 a.1 (List.mem_map.2 ⟨a, ha, rfl⟩)
            simp
            omega
          rw [List.filter_cons, if_pos (by simpa using hv), hnil, if_pos (by simpa using hv)]
          rfl
        · rw [List.filter_cons, if_neg (by simpa using hv), if_neg (by simpa using hv), List.append_nil]
      · rw [List.filter_cons, List.filter_cons, ih hc.2]
        split <;> rfl
  rw [hins _ hsd]
  congr 1
  by_cases hv : val = v <;> simp [hv]

theorem findSpecial_mem {l : List (Str × SpecialInfo)} (hn : (l.map Prod.fst).Nodup) {p : Str × SpecialInfo} (hp : p ∈ l) : findSpecial l p.1 = some p.2 := by
  unfold findSpecial
  induction l with
  | nil => simp at hp
  | cons a as ih =>
    rw [List.map_cons, List.nodup_cons] at hn
    rw [List.find?_cons]
    rcases List.mem_cons.1 hp with rfl | hp
    · simp
    · have : a.1 ≠ p.1 := fun e => hn.1 (e ▸ List.mem_map.2 ⟨p, hp, rfl⟩)
      simp only [beq_eq_false_iff_ne.2 this]
      exact ih hn.2 hp

/-- The first value with its number. -/
def First (st : EnumF.State) (e : Int × Str) : Prop := ∃ p rest, st.values.filter (fun p => p.2.value == e.1) = p :: rest ∧ e.2 = p.1

/-- What is shown for the raw number. -/
def rawName (g : GVer) (st : EnumF.State) (x : Int) : Option Str :=
  ((if st.nonUnique then (st.values.filter fun p => p.2.value == x).find? (fun p => decide (g.version < p.2.depr)) else none).or
    (st.values.filter fun p => p.2.value == x).head?).map shown

theorem chosen_eq (g : GVer) {b : Bool} {st : EnumF.State} (h : EnumF.Accepted b st) {e : Int × Str} (hf : First st e) :
    (chosenValue g st e).map shownName = rawName g st e.1 := by
  obtain ⟨p, rest, hl, hn⟩ := hf
  have hnames := C16_names_unique b st h
  have hmem : ∀ q ∈ p :: rest, q ∈ st.values := fun q hq => by rw [← hl] at hq; exact (List.mem_filter.1 hq).1
  have hfp := findSpecial_mem hnames (hmem p (by simp))
  have hs : ∀ q : Str × SpecialInfo, shownName q = shown q := by
    intro q
    unfold shownName shown
    cases hq : q.2.displayName <;> simp
  have hcand : ((st.rev.filter fun x => x.1 == e.1).filterMap fun x => (findSpecial st.values x.2).map fun j => (x.2, j)) = p :: rest := by
    rw [stable h, hl]
    rw [List.filterMap_map]
    have : ∀ l : List (Str × SpecialInfo), (∀ q ∈ l, q ∈ st.values) →
        l.filterMap ((fun x : Int × Str => (findSpecial st.values x.2).map fun j => (x.2, j)) ∘ fun p => (p.2.value, p.1)) = l := by
      intro l
      induction l with
      | nil => simp
      | cons a as ih =>
        intro ha
        rw [List.filterMap_cons]
        rw [ih (fun q hq => ha q (by simp [hq]))]
        simp only [Function.comp, findSpecial_mem hnames (ha a (by simp)), Option.map_some]
    exact this _ hmem
  unfold chosenValue rawName
  rw [hn, hfp]
  simp only
  rw [hl]
  split
  · rename_i hc
    have : (if st.nonUnique = true then List.find? (fun p => decide (g.version < p.2.depr)) (p :: rest) else none).or (p :: rest).head? = some p := by
      simp only [Bool.or_eq_true, Bool.not_eq_true', decide_eq_true_eq] at hc
      rcases hc with (hc | hc) | hc
      · rw [hc]; simp
      · cases st.nonUnique
        · simp
        · simp only [if_true, List.find?_cons, decide_eq_true hc, Option.some_or]
      · have hu := (C17_unique_iff b st h).1 hc
        have hr : rest = [] := by
          have hsub : ((p :: rest).map fun p => p.2.value).Sublist (st.values.map fun p => p.2.value) := by
            rw [← hl]; exact (List.filter_sublist).map _
          have hnd := hsub.nodup hu
          cases rest with
          | nil => rfl
          | cons q qs =>
            exfalso
            have e1 : ∀ x ∈ p :: q :: qs, x.2.value = e.1 := by
              intro a ha
              rw [← hl] at ha
              simpa using (List.mem_filter.1 ha).2
            have h1 := e1 p (by simp)
            have h2 := e1 q (by simp)
            simp [h1, h2] at hnd
        subst hr
        cases st.nonUnique
        · simp
        · simp only [if_true, List.find?_cons, List.find?_nil, List.head?_cons]
          split <;> simp
    rw [this]
    simp [hs]
  · rename_i hc
    rw [hcand]
    simp only [Bool.or_eq_true, Bool.not_eq_true', decide_eq_true_eq, not_or, Bool.not_eq_false] at hc
    rw [hc.1.1]
    simp only [if_true, List.head?_cons]
    cases hfd : List.find? (fun p : Str × SpecialInfo => decide (g.version < p.2.depr)) (p :: rest) with
    | none => simp [hs]
    | some q => simp [hs]

theorem filter_raw {t : IntType} {st : EnumF.State} (h64 : ∀ p ∈ st.values, i64Min ≤ p.2.value ∧ p.2.value ≤ i64Max) {x : Int} (hx : i64Min ≤ x ∧ x ≤ i64Max) :
    (st.values.filter fun p => decide (interp t p.2.value = interp t x)) = st.values.filter fun p => p.2.value == x := by
  apply List.filter_congr
  intro p hp
  have := h64 p hp
  rw [Bool.eq_iff_iff, decide_eq_true_eq, beq_iff_eq]
  constructor
  · intro h
    unfold interp at h
    unfold i64Min i64Max at *
    split at h <;> omega
  · intro h; rw [h]

theorem name_raw (g : GVer) {t : IntType} {st : EnumF.State} (h64 : ∀ p ∈ st.values, i64Min ≤ p.2.value ∧ p.2.value ≤ i64Max) {x : Int} (hx : i64Min ≤ x ∧ x ≤ i64Max) :
    nameFor g.version st.nonUnique t st.values (interp t x) = rawName g st x := by
  unfold nameFor rawName
  rw [filter_raw h64 hx]

theorem name_none (g : GVer) {t : IntType} {st : EnumF.State} {v : Int} (h : ∀ p ∈ st.values, interp t p.2.value ≠ v) :
    nameFor g.version st.nonUnique t st.values v = none := by
  unfold nameFor
  have : (st.values.filter fun p => decide (interp t p.2.value = v)) = [] := by
    rw [List.filter_eq_nil_iff]
    intro p hp
    simpa using h p hp
  simp [this]

theorem find_first {b : Bool} {st : EnumF.State} (h : EnumF.Accepted b st) {x : Int} {e : Int × Str} (he : st.rev.find? (fun e => e.1 == x) = some e) : First st e ∧ e.1 = x := by
  have hx : e.1 = x := by simpa using List.find?_some he
  refine ⟨?_, hx⟩
  rw [← List.head?_filter, stable h] at he
  cases hl : st.values.filter (fun p => p.2.value == x) with
  | nil => rw [hl] at he; simp at he
  | cons p rest =>
    rw [hl] at he
    simp only [List.map_cons, List.head?_cons, Option.some.injEq] at he
    subst he
    exact ⟨p, rest, by rw [hx]; exact hl, rfl⟩

theorem find_none {b : Bool} {st : EnumF.State} (h : EnumF.Accepted b st) {x : Int} : st.rev.find? (fun e => e.1 == x) = none ↔ ∀ p ∈ st.values, p.2.value ≠ x := by
  rw [← List.head?_filter, stable h, List.head?_eq_none_iff, List.map_eq_nil_iff, List.filter_eq_nil_iff]
  simp

/-- The direct table. -/
theorem direct_get (g : GVer) (st : EnumF.State) : ∀ (es : List (Int × Str)) (next : Int) (k : Nat), (es.map Prod.fst).Pairwise (· ≤ ·) →
    (directLoop g st next es)[k]?.join = (es.find? fun e => e.1 == next + k).bind fun e => (chosenValue g st e).map shownName := by
  intro es
  induction es with
  | nil => intro next k _; simp [directLoop]
  | cons e es ih =>
    intro next k hs
    have hc := List.pairwise_cons.1 hs
    unfold directLoop
    rw [List.find?_cons]
    split
    · rename_i hlt
      rw [ih next k hc.2]
      have : (e.1 == next + (k : Int)) = false := by rw [beq_eq_false_iff_ne]; omega
      rw [this]
    · rename_i hge
      rcases Nat.lt_trichotomy k (e.1 - next).toNat with hk | hk | hk
      · rw [List.getElem?_append_left (by simpa using hk)]
        have h1 : (List.replicate (e.1 - next).toNat (none : Option Str))[k]? = some none := by rw [List.getElem?_replicate]; simp [hk]
        rw [h1]
        have : (e.1 == next + (k : Int)) = false := by rw [beq_eq_false_iff_ne]; omega
        rw [this]
        have hn : es.find? (fun e => e.1 == next + (k : Int)) = none := by
          rw [List.find?_eq_none]
          intro a ha
          have := hc.1 a.1 (List.mem_map.2 ⟨a, ha, rfl⟩)
          simp
          omega
        rw [hn]
        rfl
      · rw [List.getElem?_append_right (by simp; omega)]
        have : (e.1 == next + (k : Int)) = true := by rw [beq_iff_eq]; omega
        rw [this]
        simp [hk]
      · rw [List.getElem?_append_right (by simp; omega), List.length_replicate]
        have : (e.1 == next + (k : Int)) = false := by rw [beq_eq_false_iff_ne]; omega
        rw [this]
        obtain ⟨j, hj⟩ : ∃ j, k - (e.1 - next).toNat = j + 1 := ⟨k - (e.1 - next).toNat - 1, by omega⟩
        rw [hj, List.getElem?_cons_succ, ih (e.1 + 1) j hc.2]
        have : e.1 + 1 + (j : Int) = next + (k : Int) := by omega
        rw [this]

/-- Binary search by a strictly ascending key. -/
theorem search_key {α : Type} (f : α → Int) (l : List α) (hs : l.Pairwise fun a b => f a < f b) (v : Int) (p : α) (hp : p ∈ l) (hv : f p = v) :
    l[lowerBound (fun x => decide (f x < v)) l l.length 0 l.length]? = some p := by
  have hij : ∀ (i j : Nat) (x y : α), i < j → l[i]? = some x → l[j]? = some y → f x < f y := by
    intro i j x y h hx hy
    obtain ⟨hi, ex⟩ := List.getElem?_eq_some_iff.1 hx
    obtain ⟨hj, ey⟩ := List.getElem?_eq_some_iff.1 hy
    rw [← ex, ← ey]
    exact List.pairwise_iff_getElem.1 hs i j hi hj h
  obtain ⟨hb, ha⟩ := lowerBound_spec (fun x => decide (f x < v)) l (by
    intro i j x y h hx hy hl
    have := hij i j x y h hx hy
    have := of_decide_eq_true hl
    exact decide_eq_true (by omega)) l.length 0 l.length (Nat.le_refl _) (by omega) (by omega)
    (by intro i x h hx; rw [List.getElem?_eq_none (by omega)] at hx; cases hx)
  obtain ⟨k, hk, ek⟩ := List.getElem_of_mem hp
  have hk2 : l[k]? = some p := by rw [List.getElem?_eq_getElem hk, ek]
  generalize hn : lowerBound (fun x => decide (f x < v)) l l.length 0 l.length = n at *
  have hnk : n ≤ k := by
    rcases Nat.lt_or_ge k n with h | h
    · have := of_decide_eq_true (hb k p h hk2)
      omega
    · exact h
  rcases Nat.lt_or_ge n k with h | h
  · have hnl : n < l.length := by omega
    have hx : l[n]? = some l[n] := List.getElem?_eq_getElem hnl
    have h1 := of_decide_eq_false (ha n _ (Nat.le_refl _) hx)
    have := hij n k _ _ h hx hk2
    omega
  · have : n = k := by omega
    subst this
    exact hk2

/-- A table to search with the first value of each number. -/
structure Good (t : IntType) (st : EnumF.State) (es : List (Int × Str)) : Prop where
  first : ∀ e ∈ es, First st e
  all : ∀ p ∈ st.values, ∃ e ∈ es, e.1 = p.2.value
  asc : es.Pairwise fun a b => interp t a.1 < interp t b.1

theorem good_lookup (g : GVer) {t : IntType} {b : Bool} {st : EnumF.State} (h : EnumF.Accepted b st) (h64 : ∀ p ∈ st.values, i64Min ≤ p.2.value ∧ p.2.value ≤ i64Max)
    {es : List (Int × Str)} (hg : Good t st es) (en : Str → Option Int) (hen : ∀ p ∈ st.values, en p.1 = some (interp t p.2.value)) (v : Int) :
    valueName en (.search (es.map fun e => (e.2, ((chosenValue g st e).map shownName).getD []))) v = nameFor g.version st.nonUnique t st.values v := by
  have hval : ∀ e ∈ es, ∃ p ∈ st.values, e.1 = p.2.value ∧ e.2 = p.1 := by
    intro e he
    obtain ⟨p, rest, hl, hn⟩ := hg.first e he
    have : p ∈ st.values.filter fun p => p.2.value == e.1 := by rw [hl]; simp
    obtain ⟨h1, h2⟩ := List.mem_filter.1 this
    exact ⟨p, h1, by simpa using Eq.symm (beq_iff_eq.1 h2), hn⟩
  have hkey : ∀ e ∈ es, en e.2 = some (interp t e.1) := by
    intro e he
    obtain ⟨p, hp, h1, h2⟩ := hval e he
    rw [h1, h2]
    exact hen p hp
  generalize hl : (es.map fun e => (e.2, ((chosenValue g st e).map shownName).getD [])) = l
  have hasc : l.Pairwise fun a b => (en a.1).getD 0 < (en b.1).getD 0 := by
    rw [← hl, List.pairwise_map]
    exact (List.Pairwise.and_mem.1 hg.asc).imp (fun {a b} ⟨ha, hb, hab⟩ => by simpa [hkey a ha, hkey b hb] using hab)
  simp only [valueName]
  by_cases hex : ∃ p ∈ st.values, interp t p.2.value = v
  · obtain ⟨p, hp, hv⟩ := hex
    obtain ⟨e, he, hep⟩ := hg.all p hp
    have hm : (e.2, ((chosenValue g st e).map shownName).getD []) ∈ l := by rw [← hl]; exact List.mem_map.2 ⟨e, he, rfl⟩
    have hk : (en e.2).getD 0 = v := by rw [hkey e he, hep, hv]; rfl
    rw [search_key (fun p => (en p.1).getD 0) l hasc v _ hm hk]
    simp only
    rw [if_pos (by rw [hkey e he, hep, hv]), ← hv, name_raw g h64 (h64 p hp), ← hep, ← chosen_eq g h (hg.first e he)]
    have : (chosenValue g st e).map shownName ≠ none := by
      rw [chosen_eq g h (hg.first e he)]
      unfold rawName
      obtain ⟨q, rest, hq, _⟩ := hg.first e he
      rw [hq]
      simp
    cases hc : (chosenValue g st e).map shownName with
    | none => exact absurd hc this
    | some s => rfl
  · rw [name_none g (fun p hp hv => hex ⟨p, hp, hv⟩)]
    split
    · rfl
    · rename_i p hp
      split
      · rename_i hv
        exfalso
        have := List.mem_of_getElem? hp
        rw [← hl] at this
        obtain ⟨e, he, rfl⟩ := List.mem_map.1 this
        obtain ⟨q, hq, h1, h2⟩ := hval e he
        simp only [h2] at hv
        rw [hen q hq] at hv
        exact hex ⟨q, hq, by simpa using hv⟩
      · rfl

/-- The first entry of each key. -/
def firsts : Option Int → List (Int × Str) → List (Int × Str)
  | _, [] => []
  | prev, e :: es => if prev = some e.1 then firsts prev es else e :: firsts (some e.1) es

theorem pairs_map (g : GVer) (st : EnumF.State) : ∀ (l : List (Int × Str)) (prev : Option Int),
    pairsLoop g st prev l = (firsts prev l).map fun e => (e.2, ((chosenValue g st e).map shownName).getD []) := by
  intro l
  induction l with
  | nil => intro prev; rfl
  | cons e es ih =>
    intro prev
    unfold pairsLoop firsts
    split
    · exact ih prev
    · rw [ih]; rfl

theorem firsts_mem : ∀ (l : List (Int × Str)) (prev : Option Int), (l.map Prod.fst).Pairwise (· ≤ ·) → (∀ x, prev = some x → ∀ a ∈ l, x ≤ a.1) →
    ∀ e ∈ firsts prev l, l.find? (fun a => a.1 == e.1) = some e ∧ prev ≠ some e.1 ∧ e ∈ l := by
  intro l
  induction l with
  | nil => intro prev _ _ e he; simp [firsts] at he
  | cons a as ih =>
    intro prev hs hp e he
    have hc := List.pairwise_cons.1 hs
    unfold firsts at he
    rw [List.find?_cons]
    split at he
    · rename_i hpa
      obtain ⟨h1, h2, h3⟩ := ih prev hc.2 (fun x hx b hb => hp x hx b (by simp [hb])) e he
      have : (a.1 == e.1) = false := by
        rw [beq_eq_false_iff_ne]
        intro heq
        exact h2 (by rw [hpa, heq])
      rw [this]
      exact ⟨h1, h2, by simp [h3]⟩
    · rename_i hpa
      rcases List.mem_cons.1 he with rfl | he
      · exact ⟨by simp, hpa, by simp⟩
      · obtain ⟨h1, h2, h3⟩ := ih (some a.1) hc.2 (fun x hx b hb => by cases hx; exact hc.1 b.1 (List.mem_map.2 ⟨b, hb, rfl⟩)) e he
        have hne : a.1 ≠ e.1 := fun heq => h2 (by rw [heq])
        have hle := hc.1 e.1 (List.mem_map.2 ⟨e, h3, rfl⟩)
        rw [beq_eq_false_iff_ne.2 hne]
        refine ⟨h1, fun hx => ?_, by simp [h3]⟩
        have := hp e.1 hx a (by simp)
        omega

theorem firsts_all : ∀ (l : List (Int × Str)) (prev : Option Int), ∀ a ∈ l, prev = some a.1 ∨ ∃ e ∈ firsts prev l, e.1 = a.1 := by
  intro l
  induction l with
  | nil => intro prev a ha; simp at ha
  | cons b bs ih =>
    intro prev a ha
    unfold firsts
    split
    · rename_i hp
      rcases List.mem_cons.1 ha with rfl | ha
      · exact Or.inl hp
      · exact ih prev a ha
    · rcases List.mem_cons.1 ha with rfl | ha
      · exact Or.inr ⟨a, by simp, rfl⟩
      · rcases ih (some b.1) a ha with h | ⟨e, he, h⟩
        · exact Or.inr ⟨b, by simp, by simpa using h⟩
        · exact Or.inr ⟨e, by simp [he], h⟩

theorem firsts_asc : ∀ (l : List (Int × Str)) (prev : Option Int), (l.map Prod.fst).Pairwise (· ≤ ·) → (firsts prev l).Pairwise fun a b => a.1 < b.1 := by
  intro l
  induction l with
  | nil => intro prev _; simp [firsts]
  | cons a as ih =>
    intro prev hs
    have hc := List.pairwise_cons.1 hs
    unfold firsts
    split
    · exact ih prev hc.2
    · refine List.pairwise_cons.2 ⟨fun e he => ?_, ih _ hc.2⟩
      obtain ⟨_, h2, h3⟩ := firsts_mem as (some a.1) hc.2 (fun x hx b hb => by cases hx; exact hc.1 b.1 (List.mem_map.2 ⟨b, hb, rfl⟩)) e he
      have hle := hc.1 e.1 (List.mem_map.2 ⟨e, h3, rfl⟩)
      have hne : a.1 ≠ e.1 := fun heq => h2 (by rw [heq])
      omega

theorem good_plain {t : IntType} {b : Bool} {st : EnumF.State} (h : EnumF.Accepted b st) (hi : ∀ p ∈ st.values, interp t p.2.value = p.2.value) :
    Good t st (firsts none st.rev) := by
  obtain ⟨hperm, hsort⟩ := C17_reverse_table b st h
  have hf := firsts_mem st.rev none hsort (by simp)
  refine ⟨fun e he => (find_first h (hf e he).1).1, fun p hp => ?_, ?_⟩
  · have hm : ((p.2.value, p.1) : Int × Str) ∈ st.rev := hperm.mem_iff.2 (List.mem_map.2 ⟨p, hp, rfl⟩)
    rcases firsts_all st.rev none _ hm with hx | hx
    · cases hx
    · exact hx
  · have hid : ∀ e ∈ firsts none st.rev, interp t e.1 = e.1 := by
      intro e he
      obtain ⟨p, hp, hx⟩ := List.mem_map.1 (hperm.mem_iff.1 (hf e he).2.2)
      rw [← hx]
      exact hi p hp
    exact (List.Pairwise.and_mem.1 (firsts_asc st.rev none hsort)).imp (fun {a c} ⟨ha, hb, hab⟩ => by rw [hid a ha, hid c hb]; exact hab)

/-- The entries looked up for the numbers. -/
def bigFirsts (rev : List (Int × Str)) : Option Int → List Nat → List (Int × Str)
  | _, [] => []
  | prev, n :: ns =>
    if prev = some (castI64 n) then bigFirsts rev prev ns
    else match findRev rev (castI64 n) with
    | none => bigFirsts rev prev ns
    | some e => e :: bigFirsts rev (some e.1) ns

theorem bigPairs_map (g : GVer) (st : EnumF.State) : ∀ (l : List Nat) (prev : Option Int),
    bigPairsLoop g st prev l = (bigFirsts st.rev prev l).map fun e => (e.2, ((chosenValue g st e).map shownName).getD []) := by
  intro l
  induction l with
  | nil => intro prev; rfl
  | cons n ns ih =>
    intro prev
    unfold bigPairsLoop bigFirsts
    split
    · exact ih prev
    · cases hf : findRev st.rev (castI64 n) with
      | none => simp only; exact ih prev
      | some e => simp only; rw [ih]; rfl

theorem castI64_inj {a b : Nat} (ha : a < 18446744073709551616) (hb : b < 18446744073709551616) (h : castI64 a = castI64 b) : a = b := by
  unfold castI64 at h
  omega

theorem bigFirsts_spec (rev : List (Int × Str)) : ∀ (l : List Nat) (prev : Option Nat), l.Pairwise (· ≤ ·) → (∀ n ∈ l, n < 18446744073709551616) →
    (∀ n ∈ l, ∃ e, findRev rev (castI64 n) = some e) → (∀ m, prev = some m → m < 18446744073709551616 ∧ ∀ n ∈ l, m ≤ n) →
    (∀ e ∈ bigFirsts rev (prev.map fun k : Nat => castI64 k) l, ∃ n ∈ l, e.1 = castI64 n ∧ findRev rev e.1 = some e ∧ prev ≠ some n) ∧
    (∀ n ∈ l, prev = some n ∨ ∃ e ∈ bigFirsts rev (prev.map fun k : Nat => castI64 k) l, e.1 = castI64 n) ∧
    (bigFirsts rev (prev.map fun k : Nat => castI64 k) l).Pairwise (fun a b => ∃ m n : Nat, a.1 = castI64 m ∧ b.1 = castI64 n ∧ m < n ∧ n < 18446744073709551616) := by
  intro l
  induction l with
  | nil => intro prev _ _ _ _; simp [bigFirsts]
  | cons n ns ih =>
    intro prev hs hlt hf hp
    have hc := List.pairwise_cons.1 hs
    have hn := hlt n (by simp)
    unfold bigFirsts
    by_cases hpn : prev = some n
    · subst hpn
      rw [Option.map_some, if_pos rfl]
      obtain ⟨h1, h2, h3⟩ := ih (some n) hc.2 (fun m hm => hlt m (by simp [hm])) (fun m hm => hf m (by simp [hm])) (fun m hm => by cases hm; exact ⟨hn, hc.1⟩)
      refine ⟨fun e he => ?_, fun m hm => ?_, h3⟩
      · obtain ⟨m, hm, h⟩ := h1 e he
        exact ⟨m, by simp [hm], h⟩
      · rcases List.mem_cons.1 hm with rfl | hm
        · exact Or.inl rfl
        · exact h2 m hm
    · have hne : (prev.map fun k : Nat => castI64 k) ≠ some (castI64 n) := by
        cases hpv : prev with
        | none => simp
        | some m =>
          simp only [Option.map_some, ne_eq, Option.some.injEq]
          intro he
          exact hpn (by rw [hpv, castI64_inj (hp m hpv).1 hn he])
      rw [if_neg hne]
      obtain ⟨e, he⟩ := hf n (by simp)
      have hen : e.1 = castI64 n := by
        unfold findRev at he
        simpa using List.find?_some he
      rw [he]
      simp only
      obtain ⟨h1, h2, h3⟩ := ih (some n) hc.2 (fun m hm => hlt m (by simp [hm])) (fun m hm => hf m (by simp [hm])) (fun m hm => by cases hm; exact ⟨hn, hc.1⟩)
      rw [Option.map_some, ← hen] at h1 h2 h3
      refine ⟨fun a ha => ?_, fun m hm => ?_, ?_⟩
      · rcases List.mem_cons.1 ha with rfl | ha
        · exact ⟨n, by simp, hen, by rw [hen]; exact he, hpn⟩
        · obtain ⟨m, hm, x1, x2, x3⟩ := h1 a ha
          refine ⟨m, by simp [hm], x1, x2, fun hx => ?_⟩
          have := (hp m hx).2 n (by simp)
          have := hc.1 m hm
          exact x3 (by congr 1; omega)
      · rcases List.mem_cons.1 hm with rfl | hm
        · exact Or.inr ⟨e, by simp, hen⟩
        · rcases h2 m hm with hx | ⟨a, ha, hx⟩
          · exact Or.inr ⟨e, by simp, by rw [hen, Option.some.inj hx]⟩
          · exact Or.inr ⟨a, by simp [ha], hx⟩
      · refine List.pairwise_cons.2 ⟨fun a ha => ?_, h3⟩
        obtain ⟨m, hm, x1, _, x3⟩ := h1 a ha
        have := hc.1 m hm
        have hne : n ≠ m := fun e => x3 (by rw [e])
        exact ⟨n, m, hen, x1, by omega, hlt m (by simp [hm])⟩

theorem good_big {t : IntType} {b : Bool} {st : EnumF.State} (h : EnumF.Accepted b st) (ht : t = .uint64 ∨ t = .uintvar)
    (h64 : ∀ p ∈ st.values, i64Min ≤ p.2.value ∧ p.2.value ≤ i64Max) :
    Good t st (bigFirsts st.rev none (sortBy (fun a b => decide (a < b)) (st.rev.map fun e => castU64 e.1))) := by
  obtain ⟨hperm, _⟩ := C17_reverse_table b st h
  have hrev : ∀ e ∈ st.rev, ∃ p ∈ st.values, e = (p.2.value, p.1) := by
    intro e he
    obtain ⟨p, hp, h⟩ := List.mem_map.1 (hperm.mem_iff.1 he)
    exact ⟨p, hp, h.symm⟩
  have hcast : ∀ x : Int, i64Min ≤ x → x ≤ i64Max → castI64 (castU64 x) = x := by
    intro x h1 h2
    unfold castI64 castU64
    unfold i64Min i64Max at *
    omega
  have hmem : ∀ n, n ∈ sortBy (fun a b => decide (a < b)) (st.rev.map fun e => castU64 e.1) ↔ ∃ p ∈ st.values, n = castU64 p.2.value := by
    intro n
    rw [mem_sortBy]
    constructor
    · intro hn
      obtain ⟨e, he, rfl⟩ := List.mem_map.1 hn
      obtain ⟨p, hp, rfl⟩ := hrev e he
      exact ⟨p, hp, rfl⟩
    · rintro ⟨p, hp, rfl⟩
      exact List.mem_map.2 ⟨(p.2.value, p.1), hperm.mem_iff.2 (List.mem_map.2 ⟨p, hp, rfl⟩), rfl⟩
  have hsorted : (sortBy (fun a b : Nat => decide (a < b)) (st.rev.map fun e => castU64 e.1)).Pairwise (· ≤ ·) := by
    refine sortBy_pairwise _ (fun _ => True) (· ≤ ·) (fun a b c _ _ _ => Nat.le_trans) ?_ ?_ _ (fun _ _ => trivial)
    · intro a b _ _ h; exact Nat.le_of_lt (of_decide_eq_true h)
    · intro a b _ _ h; have := of_decide_eq_false h; omega
  obtain ⟨h1, h2, h3⟩ := bigFirsts_spec st.rev _ none hsorted
    (fun n hn => by obtain ⟨p, _, rfl⟩ := (hmem n).1 hn; unfold castU64; omega)
    (fun n hn => by
      obtain ⟨p, hp, rfl⟩ := (hmem n).1 hn
      rw [hcast _ (h64 p hp).1 (h64 p hp).2]
      cases hf : findRev st.rev p.2.value with
      | some e => exact ⟨e, rfl⟩
      | none => exact absurd rfl ((find_none h).1 hf p hp))
    (by simp)
  refine ⟨fun e he => ?_, fun p hp => ?_, ?_⟩
  · obtain ⟨n, _, _, hx, _⟩ := h1 e he
    exact (find_first h hx).1
  · rcases h2 _ ((hmem _).2 ⟨p, hp, rfl⟩) with hx | ⟨e, he, hx⟩
    · cases hx
    · exact ⟨e, he, by rw [hx, hcast _ (h64 p hp).1 (h64 p hp).2]⟩
  · refine h3.imp ?_
    rintro a c ⟨m, n, e1, e2, hmn, hn⟩
    have hint : ∀ k : Nat, k < 18446744073709551616 → interp t (castI64 k) = k := by
      intro k hk
      unfold interp
      rw [if_pos ht]
      unfold castI64
      omega
    rw [e1, e2, hint m (by omega), hint n hn]
    omega

end GenNameProofs
open GenNameProofs

/-- C78: `valueName()` of the generated code finds for every number the name to be shown, and none for a number that is not declared. `enumerator` gives the numbers of
    the generated enumerators (C79). Missing: numbers of a `uintvar` enum of less than 8 bytes that do not fit its length (`C78_order_witness`). -/
theorem C78_names_partial (g : GVer) (t : IntType) (b : Bool) (st : EnumF.State) (h : EnumF.Accepted b st)
    (h64 : ∀ p ∈ st.values, i64Min ≤ p.2.value ∧ p.2.value ≤ i64Max)
    (hfit : t = .uintvar → st.num.length < 8 → ∀ p ∈ st.values, 0 ≤ p.2.value)
    (enumerator : Str → Option Int) (hen : ∀ p ∈ st.values, enumerator p.1 = some (interp t p.2.value))
    (v : Int) (hv : typeLo t ≤ v ∧ v ≤ typeHi t) :
    valueName enumerator (nameTable g t st) v = nameFor g.version st.nonUnique t st.values v := by
  obtain ⟨hperm, hsort⟩ := C17_reverse_table b st h
  unfold nameTable
  split
  · rename_i hd
    -- the direct table
    have hpos : ∀ p ∈ st.values, 0 ≤ p.2.value := by
      intro p hp
      have hm : ((p.2.value, p.1) : Int × Str) ∈ st.rev := hperm.mem_iff.2 (List.mem_map.2 ⟨p, hp, rfl⟩)
      unfold isDirect at hd
      cases hr : st.rev with
      | nil => rw [hr] at hm; simp at hm
      | cons a as =>
        rw [hr] at hd hsort hm
        simp only [List.head?_cons] at hd
        split at hd
        · rename_i x y hx hy
          cases hx
          have h0 : 0 ≤ a.1 := by
            rw [Bool.and_eq_true, Bool.not_eq_true', decide_eq_false_iff_not] at hd
            omega
          rcases List.mem_cons.1 hm with hm | hm
          · rw [← hm] at h0; exact h0
          · have := (List.pairwise_cons.1 hsort).1 p.2.value (List.mem_map.2 ⟨_, hm, rfl⟩)
            omega
        · cases hd
    have hint : ∀ p ∈ st.values, interp t p.2.value = p.2.value := by
      intro p hp
      have h1 := hpos p hp
      have h2 := (h64 p hp).2
      unfold interp i64Max at *
      split <;> omega
    simp only [valueName]
    rw [direct_get g st st.rev 0 _ hsort]
    by_cases hex : ∃ p ∈ st.values, interp t p.2.value = v
    · obtain ⟨p, hp, hpv⟩ := hex
      have e1 := hint p hp
      have e2 := hpos p hp
      have e3 := (h64 p hp).2
      have hidx : (0 : Int) + ((v % 2 ^ 64).toNat : Int) = p.2.value := by
        unfold i64Max at e3
        omega
      rw [hidx, ← hpv, name_raw g h64 (h64 p hp)]
      cases hf : st.rev.find? (fun e => e.1 == p.2.value) with
      | none => exact absurd rfl ((find_none h).1 hf p hp)
      | some e =>
        obtain ⟨f1, f2⟩ := find_first h hf
        rw [Option.bind_some, chosen_eq g h f1, f2]
    · rw [name_none g (fun p hp hpv => hex ⟨p, hp, hpv⟩)]
      have hf : st.rev.find? (fun e => e.1 == (0 : Int) + ((v % 2 ^ 64).toNat : Int)) = none := by
        rw [find_none h]
        intro p hp he
        have e1 := hint p hp
        have e3 := (h64 p hp).2
        have : interp t p.2.value = v := by
          unfold typeLo typeHi i64Max at *
          cases t <;> simp [Signed, typeBits] at hv <;> omega
        exact hex ⟨p, hp, this⟩
      rw [hf]
      rfl
  · split
    · rename_i hb
      rw [bigPairs_map]
      refine good_lookup g h h64 (good_big h ?_ h64) enumerator hen v
      simp only [Bool.or_eq_true, beq_iff_eq, Bool.and_eq_true] at hb
      rcases hb with hb | hb
      · exact Or.inl hb
      · exact Or.inr hb.1
    · rename_i hb
      rw [pairs_map]
      refine good_lookup g h h64 (good_plain h ?_) enumerator hen v
      intro p hp
      simp only [Bool.or_eq_true, beq_iff_eq, Bool.and_eq_true, decide_eq_true_eq, not_or, not_and] at hb
      unfold interp
      split
      · rename_i ht
        rcases ht with ht | ht
        · exact absurd ht hb.1
        · have h0 := hfit ht (by have := hb.2 ht; omega) p hp
          have h2 := (h64 p hp).2
          unfold i64Max at h2
          omega
      · rfl


/-! ## C79 -/

namespace GenNameProofs
open GenValidProofs GenEnumProofs

/-- The text written for a number. -/
def textOf (t : IntType) (st : EnumF.State) (x : Int) : Str := match valueToString t st x with
  | .ok s => s
  | _ => []

theorem text_ok {t : IntType} {st : EnumF.State} {x : Int} (h1 : i64Min < x) (h2 : x ≤ i64Max) (hh : st.hexAssign = true → isUnsigned t = true)
    (h0 : isUnsigned t = true → bigBody t = false → 0 ≤ x) :
    valueToString t st x = .ok (textOf t st x) ∧ CppExpr (textOf t st x) (interp t x) := by
  unfold i64Min i64Max at *
  unfold textOf valueToString
  have hb : bigBody t = true ↔ (t = .uint64 ∨ t = .uintvar) := by unfold bigBody; cases t <;> simp
  have hU : ∀ w, CppExpr (numToStringU (castU64 x) w) (castU64 x : Int) := by
    intro w
    obtain ⟨sg, hl⟩ := C51_unsigned (castU64 x) w (by unfold castU64; omega)
    exact Or.inl ⟨_, sg, hl, rfl⟩
  cases hbb : bigBody t with
  | true =>
    simp only [Bool.true_or, if_true]
    refine ⟨trivial, ?_⟩
    have e : interp t x = (castU64 x : Int) := by
      unfold interp castU64
      rw [if_pos (hb.1 hbb)]
      omega
    rw [e]
    exact hU _
  | false =>
    have e : interp t x = x := by
      unfold interp
      rw [if_neg (fun hx => by rw [hb.2 hx] at hbb; cases hbb)]
    rw [e]
    cases hw : decide (0 < hexWidth st) with
    | true =>
      simp only [Bool.false_or, if_true]
      refine ⟨trivial, ?_⟩
      have hx : st.hexAssign = true := by
        have := of_decide_eq_true hw
        unfold hexWidth at this
        cases hc : st.hexAssign with
        | true => rfl
        | false => simp [hc] at this
      have h3 := h0 (hh hx) hbb
      have e2 : (castU64 x : Int) = x := by unfold castU64; omega
      have := hU (hexWidth st)
      rwa [e2] at this
    | false =>
      simp only [Bool.or_self, Bool.false_eq_true, if_false]
      obtain ⟨s, hs1, hs2⟩ := C51_signed_partial x (by omega) (by omega)
      rw [hs1]
      exact ⟨rfl, hs2⟩

theorem loop_eq {g : GVer} {t : IntType} {st : EnumF.State} (hn : (st.values.map Prod.fst).Nodup)
    (hok : ∀ p ∈ st.values, valueToString t st p.2.value = .ok (textOf t st p.2.value)) : ∀ qs : List (Str × SpecialInfo), (∀ p ∈ qs, p ∈ st.values) →
    enumeratorsLoop g t st (qs.map fun p => (p.2.value, p.1)) = .ok ((qs.filter fun p => decide (p.2.since ≤ g.version)).map fun p => (p.1, textOf t st p.2.value)) := by
  intro qs
  induction qs with
  | nil => intro _; rfl
  | cons p qs ih =>
    intro hq
    have hp := hq p (by simp)
    have ih := ih (fun x hx => hq x (by simp [hx]))
    rw [List.map_cons]
    unfold enumeratorsLoop
    rw [findSpecial_mem hn hp]
    simp only
    have hex : doesExist g p.2.since p.2.depr false = decide (p.2.since ≤ g.version) := by
      unfold doesExist
      by_cases h : p.2.since ≤ g.version
      · rw [if_neg (by omega)]; simp [h]
      · rw [if_pos (by omega)]; simp [h]
    rw [hex, List.filter_cons]
    cases hd : decide (p.2.since ≤ g.version) with
    | true =>
      simp only [Bool.not_true, Bool.false_eq_true, if_false, if_true, List.map_cons]
      rw [hok p hp, ih]
      rfl
    | false =>
      simp only [Bool.not_false, if_true, Bool.false_eq_true, if_false]
      exact ih

theorem freeName_spec (taken : List Str) : ∀ (fuel : Nat) (s : Str), (taken.filter fun x => decide (s.length ≤ x.length)).length ≤ fuel →
    freeName taken fuel s ∉ taken ∧ ∃ k, freeName taken fuel s = s ++ List.replicate k '_' := by
  intro fuel
  induction fuel with
  | zero =>
    intro s h
    refine ⟨fun hm => ?_, 0, by simp [freeName]⟩
    have hm2 : s ∈ taken.filter fun x => decide (s.length ≤ x.length) := List.mem_filter.2 ⟨hm, by simp⟩
    have := List.length_pos_of_mem hm2
    omega
  | succ n ih =>
    intro s h
    unfold freeName
    split
    · rename_i hc
      have hm : s ∈ taken := by simpa using hc
      have hlt : (taken.filter fun x => decide ((s ++ ['_']).length ≤ x.length)).length < (taken.filter fun x => decide (s.length ≤ x.length)).length := by
        clear ih h hc
        have hle : ∀ l : List Str, (l.filter fun x => decide ((s ++ ['_']).length ≤ x.length)).length ≤ (l.filter fun x => decide (s.length ≤ x.length)).length := by
          intro l
          induction l with
          | nil => simp
          | cons a as ih =>
            rw [List.filter_cons, List.filter_cons]
            simp only [List.length_append, List.length_singleton, decide_eq_true_eq] at ih ⊢
            split <;> split <;> (try simp only [List.length_cons]) <;> omega
        induction taken with
        | nil => simp at hm
        | cons a as ih =>
          have h1 := hle as
          rw [List.filter_cons, List.filter_cons]
          simp only [List.length_append, List.length_singleton, decide_eq_true_eq] at ih h1 ⊢
          rcases List.mem_cons.1 hm with rfl | hm
          · rw [if_neg (by omega), if_pos (Nat.le_refl _)]
            simp only [List.length_cons]
            omega
          · have := ih hm
            split <;> split <;> (try simp only [List.length_cons]) <;> omega
      obtain ⟨h1, k, h2⟩ := ih (s ++ ['_']) (by omega)
      refine ⟨h1, k + 1, ?_⟩
      rw [h2, List.append_assoc, List.singleton_append, List.replicate_succ]
    · rename_i hc
      exact ⟨by simpa using hc, 0, by simp⟩

theorem hex_unsigned {b : Bool} {st : EnumF.State} (h : EnumF.Accepted b st) : st.hexAssign = true → ∃ t, st.num.type = some t ∧ isUnsigned t = true := by
  have hstep : ∀ (env : Env) (c : Ctx) (s st : EnumF.State), (s.hexAssign = true → ∃ t, s.num.type = some t ∧ isUnsigned t = true) → EnumF.parseImpl env c s = .ok st →
      (st.hexAssign = true → ∃ t, st.num.type = some t ∧ isUnsigned t = true) := by
    intro env c s st hs h
    unfold EnumF.parseImpl at h
    rw [Res.bind_eq_ok] at h
    obtain ⟨s1, h1, h⟩ := h
    split at h
    · simp at h
    rename_i t ht
    simp only [Res.bind_eq_ok] at h
    obtain ⟨s2, h2, s3, h3, s4, h4, s5, h5, s6, h6, s7, h7, s8, h8, s9, h9, s10, h10, h11⟩ := h
    obtain ⟨n1, k1, rfl⟩ := EnumProofs.onNum_ok h1
    obtain ⟨n2, k2, rfl⟩ := EnumProofs.onNum_ok h2
    obtain ⟨n3, k3, rfl⟩ := EnumProofs.onNum_ok h3
    obtain ⟨n4, k4, rfl⟩ := EnumProofs.onNum_ok h4
    obtain ⟨ty, rfl, hty⟩ := updateType_ok k1
    simp only at ht
    subst ht
    obtain ⟨e, rfl⟩ := updateEndian_frame k2
    obtain ⟨len, rfl, _⟩ := updateLength_ok k3
    obtain ⟨bits, rfl, _⟩ := updateBitLength_ok k4
    unfold EnumF.updateNonUnique at h5
    rw [Res.bind_eq_ok] at h5
    obtain ⟨nu, _, h5⟩ := h5
    have h5 := Res.ok.inj h5
    subst h5
    obtain ⟨n6, k6, rfl⟩ := EnumProofs.onNum_ok h6
    obtain ⟨n7, k7, rfl⟩ := EnumProofs.onNum_ok h7
    obtain ⟨cv, rfl⟩ := updateValidCheckVersion_frame k6
    obtain ⟨mn, mx, rfl⟩ := updateMinMax_frame k7
    have hloop : ∀ (xs : List Xml) (a z : EnumF.State), EnumF.valuesLoop env c t xs a = .ok z → z.num = a.num ∧ z.hexAssign = a.hexAssign := by
      intro xs
      induction xs with
      | nil => intro a z h; simp only [EnumF.valuesLoop, Res.ok.injEq] at h; subst h; exact ⟨rfl, rfl⟩
      | cons x xs ih =>
        intro a z h
        unfold EnumF.valuesLoop at h
        rw [Res.bind_eq_ok] at h
        obtain ⟨y, ha, hb⟩ := h
        have hy := ih y z hb
        unfold EnumF.valueStep at ha
        simp only [Res.bind_eq_ok] at ha
        obtain ⟨props, _, _, _, _, _, _, _, _, _, _, _, _, _, _, _, _, _, val, _, _, _, _, _, ⟨since, depr⟩, _, disp, _, ha⟩ := ha
        have ha := Res.ok.inj ha
        subst ha
        exact hy
    have r8 : s8.num.type = some t ∧ s8.hexAssign = s.hexAssign := by
      unfold EnumF.updateValues at h8
      dsimp only at h8
      split at h8
      · split at h8
        · have h8 := Res.ok.inj h8
          subst h8
          exact ⟨rfl, rfl⟩
        · simp at h8
      · obtain ⟨e1, e2⟩ := hloop _ _ _ h8
        rw [e1, e2]
        exact ⟨rfl, rfl⟩
    unfold EnumF.updateDefault at h9
    rw [Res.bind_eq_ok] at h9
    obtain ⟨n9, k9, h9⟩ := h9
    obtain ⟨d, rfl, _⟩ := updateDefault_ok k9
    have h9 := Res.ok.inj h9
    subst h9
    unfold EnumF.updateHexAssign at h10
    simp only [Res.bind_eq_ok] at h10
    obtain ⟨hx, hub, _, hck, h10⟩ := h10
    have h10 := Res.ok.inj h10
    subst h10
    obtain ⟨n11, k11, rfl⟩ := EnumProofs.onNum_ok h11
    have e11 : n11.type = some t := by
      unfold updateAvailableLengthLimit at k11
      rw [Res.bind_eq_ok] at k11
      obtain ⟨a, _, k11⟩ := k11
      have k11 := Res.ok.inj k11
      subst k11
      exact r8.1
    intro hhx
    refine ⟨t, e11, ?_⟩
    have hck := Res.check_eq_ok.1 hck
    rw [Bool.or_eq_true] at hck
    rcases hck with hck | hck
    · -- nothing given: the flag is inherited
      have hinh : hx = s8.hexAssign := by
        unfold updateBool at hub
        split at hub
        · cases hub
        · split at hub
          · simpa using hub.symm
          · rename_i sv hf
            have : sv = [] := by
              unfold Props.getStr at hck
              rw [hf] at hck
              simpa using hck
            subst this
            split at hub
            · simpa using hub.symm
            · rw [Res.ofOption_eq_ok] at hub
              have : strToBool [] = none := by decide
              rw [this] at hub
              cases hub
      have hhx : hx = true := hhx
      rw [hinh, r8.2] at hhx
      obtain ⟨t0, ht0, hu⟩ := hs hhx
      rcases hty with hty | hty
      · rw [ht0] at hty; cases hty
      · rw [ht0] at hty; cases hty; exact hu
    · exact hck
  induction h with
  | fresh h => exact hstep _ _ _ _ (by simp) h
  | reuse _ h ih => exact hstep _ _ _ _ ih h

theorem sorted_asc {t : IntType} {b : Bool} {st : EnumF.State} (h : EnumF.Accepted b st) :
    ((sortedRev t st).Perm st.rev) ∧ (sortedRev t st).Pairwise fun a c => interp t a.1 ≤ interp t c.1 := by
  obtain ⟨_, hsort⟩ := C17_reverse_table b st h
  have hb : bigBody t = true ↔ (t = .uint64 ∨ t = .uintvar) := by unfold bigBody; cases t <;> simp
  unfold sortedRev
  split
  · rename_i hbb
    have e : ∀ x : Int, interp t x = (castU64 x : Int) := by
      intro x
      unfold interp castU64
      rw [if_pos (hb.1 hbb)]
      omega
    refine ⟨sortBy_perm _ _, sortBy_pairwise _ (fun _ => True) _ ?_ ?_ ?_ _ (fun _ _ => trivial)⟩
    · intro a b c _ _ _ h1 h2; omega
    · intro a b _ _ h; have := of_decide_eq_true h; rw [e, e]; omega
    · intro a b _ _ h; have := of_decide_eq_false h; rw [e, e]; omega
  · rename_i hbb
    refine ⟨.refl _, ?_⟩
    have e : ∀ x : Int, interp t x = x := by
      intro x
      unfold interp
      rw [if_neg (fun hx => hbb (hb.2 hx))]
    simp only [e]
    rw [List.pairwise_map] at hsort
    exact hsort

/-- The sorted values as entries of the table. -/
theorem sorted_values {t : IntType} {b : Bool} {st : EnumF.State} (h : EnumF.Accepted b st) :
    ∃ qs : List (Str × SpecialInfo), qs.Perm st.values ∧ sortedRev t st = qs.map fun p => (p.2.value, p.1) := by
  obtain ⟨hperm, _⟩ := C17_reverse_table b st h
  have hn := C16_names_unique b st h
  have hp := (sorted_asc (t := t) h).1.trans hperm
  generalize sortedRev t st = l at hp
  refine ⟨l.filterMap fun e => (findSpecial st.values e.2).map fun j => (e.2, j), ?_, ?_⟩
  · refine (hp.filterMap _).trans ?_
    rw [List.filterMap_map]
    have : ∀ l : List (Str × SpecialInfo), (∀ q ∈ l, q ∈ st.values) →
        l.filterMap ((fun x : Int × Str => (findSpecial st.values x.2).map fun j => (x.2, j)) ∘ fun p => (p.2.value, p.1)) = l := by
      intro l
      induction l with
      | nil => simp
      | cons a as ih =>
        intro ha
        rw [List.filterMap_cons]
        rw [ih (fun q hq => ha q (by simp [hq]))]
        simp only [Function.comp, findSpecial_mem hn (ha a (by simp)), Option.map_some]
    rw [this _ (fun q hq => hq)]
  · have hmem : ∀ e ∈ l, ∃ p ∈ st.values, e = (p.2.value, p.1) := by
      intro e he
      obtain ⟨p, hp2, h⟩ := List.mem_map.1 (hp.mem_iff.1 he)
      exact ⟨p, hp2, h.symm⟩
    clear hp
    induction l with
    | nil => simp
    | cons e es ih =>
      obtain ⟨p, hp, rfl⟩ := hmem e (by simp)
      have ih := ih (fun x hx => hmem x (by simp [hx]))
      rw [List.filterMap_cons]
      simp only [findSpecial_mem hn hp, Option.map_some, List.map_cons]
      rw [← ih]

theorem adjustName_spec (st : EnumF.State) (first : Str) (c : Char) (cs : Str) :
    adjustName st first (c :: cs) ∉ st.values.map Prod.fst ∧ (Padded (c :: cs) (adjustName st first (c :: cs)) ∨ Padded (toLowerC c :: cs) (adjustName st first (c :: cs))) := by
  have hlen : ∀ s : Str, ((st.values.map Prod.fst).filter fun x => decide (s.length ≤ x.length)).length ≤ st.values.length := by
    intro s
    have := List.length_filter_le (fun x : Str => decide (s.length ≤ x.length)) (st.values.map Prod.fst)
    simpa using this
  unfold adjustName
  obtain ⟨h1, k, h2⟩ := freeName_spec (st.values.map Prod.fst) st.values.length (adjustFirst first (c :: cs)) (hlen _)
  refine ⟨h1, ?_⟩
  have h3 : adjustFirst first (c :: cs) = c :: cs ∨ adjustFirst first (c :: cs) = toLowerC c :: cs := by
    unfold adjustFirst
    split
    · rename_i f _ c' cs' hx
      cases hx
      split
      · exact Or.inr rfl
      · exact Or.inl rfl
    · exact Or.inl rfl
  rcases h3 with h3 | h3
  · exact Or.inl ⟨k, by rw [h2, h3]⟩
  · exact Or.inr ⟨k, by rw [h2, h3]⟩

theorem limit_iff {t : IntType} {x : Int} : hasValuesLimit t x = true ↔ interp t x < typeHi t := by
  have hb : bigBody t = true ↔ (t = .uint64 ∨ t = .uintvar) := by unfold bigBody; cases t <;> simp
  unfold hasValuesLimit interp
  by_cases hbb : bigBody t = true
  · have e : (maxEnumValue t : Int) = typeHi t := by rcases hb.1 hbb with rfl | rfl <;> decide
    rw [if_pos hbb, if_pos (hb.1 hbb), decide_eq_true_iff, ← e]
    unfold castU64
    omega
  · have e : castI64 (maxEnumValue t) = typeHi t := by
      revert hbb
      cases t <;> decide
    rw [if_neg hbb, if_neg (fun hx => hbb (hb.2 hx)), decide_eq_true_iff, e]

end GenNameProofs

/-- C79: the generated enumeration has an enumerator for every value the schema version has, in ascending order and with the declared number, and enumerators for the
    least and the greatest number and, if it is not the greatest one of the type, for the one behind; no name occurs twice. Missing: the least 64 bit number
    (`C51_min_undefined`) and 2^63-1 as number of an unsigned 64 bit enum (`C79_limit_witness`). -/
theorem C79_enumerators_partial (g : GVer) (t : IntType) (b : Bool) (st : EnumF.State) (h : EnumF.Accepted b st) (ht : st.num.type = some t)
    (h64 : ∀ p ∈ st.values, i64Min < p.2.value ∧ p.2.value ≤ i64Max)
    (hlim : t = .uint64 ∨ t = .uintvar → ∀ p ∈ st.values, p.2.value ≠ i64Max) :
    ∃ (ps : List (Str × SpecialInfo)) (text : Str × SpecialInfo → Str) (lo hi : Int) (f l u a z c : Str),
      let es := ps.map (fun p => (p.1, text p)) ++ ([(f, a), (l, z)] ++ if hi < typeHi t then [(u, c)] else [])
      enumerators g t st = .ok es ∧
      ps.Perm (st.values.filter fun p => decide (p.2.since ≤ g.version)) ∧ (ps.Pairwise fun p q => interp t p.2.value ≤ interp t q.2.value) ∧
      (∀ p ∈ ps, CppExpr (text p) (interp t p.2.value)) ∧
      ((∃ p ∈ st.values, interp t p.2.value = lo) ∧ (∃ p ∈ st.values, interp t p.2.value = hi) ∧ ∀ p ∈ st.values, lo ≤ interp t p.2.value ∧ interp t p.2.value ≤ hi) ∧
      CppExpr a lo ∧ CppExpr z hi ∧ (hi < typeHi t → CppExpr c (hi + 1)) ∧
      (Padded "FirstValue".toList f ∨ Padded "firstValue".toList f) ∧ (Padded "LastValue".toList l ∨ Padded "lastValue".toList l) ∧
      (Padded "ValuesLimit".toList u ∨ Padded "valuesLimit".toList u) ∧
      (es.map Prod.fst).Nodup := by
  have hn := C16_names_unique b st h
  obtain ⟨t', ht', hne, hrange, _⟩ := C16_values_of_type_partial b st h
  rw [ht] at ht'
  cases ht'
  have hb : bigBody t = true ↔ (t = .uint64 ∨ t = .uintvar) := by unfold bigBody; cases t <;> simp
  have hh : st.hexAssign = true → isUnsigned t = true := by
    intro hx
    obtain ⟨t', h1, h2⟩ := hex_unsigned h hx
    rw [ht] at h1
    cases h1
    exact h2
  have hnn : ∀ p ∈ st.values, isUnsigned t = true → bigBody t = false → 0 ≤ p.2.value := by
    intro p hp hu hbb
    have := (hrange p hp).1
    unfold typeLo interp at this
    cases t <;> simp [isUnsigned, bigBody, Signed] at hu hbb this <;> exact this
  have htext : ∀ p ∈ st.values, valueToString t st p.2.value = .ok (textOf t st p.2.value) ∧ CppExpr (textOf t st p.2.value) (interp t p.2.value) :=
    fun p hp => text_ok (h64 p hp).1 (h64 p hp).2 hh (hnn p hp)
  obtain ⟨qs, hqs, hrev⟩ := sorted_values (t := t) h
  have hasc := (sorted_asc (t := t) h).2
  rw [hrev, List.pairwise_map] at hasc
  have hq : ∀ p ∈ qs, p ∈ st.values := fun p hp => hqs.mem_iff.1 hp
  have hloop := loop_eq (g := g) (t := t) hn (fun p hp => (htext p hp).1) qs hq
  have hqne : qs ≠ [] := by
    intro e
    rw [e] at hqs
    exact hne hqs.symm.eq_nil
  obtain ⟨p0, hp0⟩ : ∃ p, qs.head? = some p := by cases qs with | nil => exact absurd rfl hqne | cons a as => exact ⟨a, rfl⟩
  obtain ⟨p1, hp1⟩ : ∃ p, qs.getLast? = some p := ⟨_, List.getLast?_eq_some_getLast hqne⟩
  have hv0 := hq p0 (List.mem_of_head? hp0)
  have hv1 := hq p1 (List.mem_of_getLast? hp1)
  have hlo : ∀ p ∈ st.values, interp t p0.2.value ≤ interp t p.2.value := by
    intro p hp
    have hp := hqs.mem_iff.2 hp
    cases qs with
    | nil => simp at hp
    | cons a as =>
      cases hp0
      rcases List.mem_cons.1 hp with rfl | hp
      · exact Int.le_refl _
      · exact (List.pairwise_cons.1 hasc).1 p hp
  have hhi : ∀ p ∈ st.values, interp t p.2.value ≤ interp t p1.2.value := by
    intro p hp
    have hp := hqs.mem_iff.2 hp
    obtain ⟨ys, hys⟩ := List.getLast?_eq_some_iff.1 hp1
    rw [hys] at hp hasc
    rcases List.mem_append.1 hp with hp | hp
    · exact (List.pairwise_append.1 hasc).2.2 p hp p1 (by simp)
    · rw [List.mem_singleton] at hp; subst hp; exact Int.le_refl _
  have hlimit := limit_iff (t := t) (x := p1.2.value)
  obtain ⟨nf1, nf2⟩ := adjustName_spec st p0.1 'F' "irstValue".toList
  obtain ⟨nl1, nl2⟩ := adjustName_spec st p0.1 'L' "astValue".toList
  obtain ⟨nu1, nu2⟩ := adjustName_spec st p0.1 'V' "aluesLimit".toList
  have hinc : interp t p1.2.value < typeHi t → incI64 p1.2.value = .ok (p1.2.value + 1) ∧
      valueToString t st (p1.2.value + 1) = .ok (textOf t st (p1.2.value + 1)) ∧ CppExpr (textOf t st (p1.2.value + 1)) (interp t p1.2.value + 1) := by
    intro hl
    have hlt : p1.2.value < i64Max := by
      have h1 := (h64 p1 hv1).2
      by_cases hbt : t = .uint64 ∨ t = .uintvar
      · have := hlim hbt p1 hv1
        omega
      · unfold interp at hl
        rw [if_neg hbt] at hl
        have : typeHi t ≤ i64Max := by
          revert hbt
          cases t <;> simp <;> decide
        omega
    have h1 := (h64 p1 hv1).1
    refine ⟨by unfold incI64; rw [if_neg (by omega)], ?_⟩
    have := text_ok (t := t) (st := st) (x := p1.2.value + 1) (by omega) (by omega) hh (fun hu hbb => by have := hnn p1 hv1 hu hbb; omega)
    refine ⟨this.1, ?_⟩
    have e : interp t (p1.2.value + 1) = interp t p1.2.value + 1 := by
      unfold interp at hl ⊢
      split
      · rename_i hbt
        rw [if_pos hbt] at hl
        have : typeHi t = 2 ^ 64 - 1 := by rcases hbt with rfl | rfl <;> rfl
        omega
      · rfl
    rw [← e]
    exact this.2
  refine ⟨qs.filter fun p => decide (p.2.since ≤ g.version), fun p => textOf t st p.2.value, interp t p0.2.value, interp t p1.2.value,
    adjustName st p0.1 "FirstValue".toList, adjustName st p0.1 "LastValue".toList, adjustName st p0.1 "ValuesLimit".toList,
    textOf t st p0.2.value, textOf t st p1.2.value, textOf t st (p1.2.value + 1), ?_, hqs.filter _, hasc.sublist List.filter_sublist,
    fun p hp => (htext p (hq p (List.mem_filter.1 hp).1)).2, ⟨⟨p0, hv0, rfl⟩, ⟨p1, hv1, rfl⟩, fun p hp => ⟨hlo p hp, hhi p hp⟩⟩,
    (htext p0 hv0).2, (htext p1 hv1).2, fun hl => (hinc hl).2.2, nf2, nl2, nu2, ?_⟩
  · unfold enumerators
    rw [hrev, hloop, Res.bind_ok, List.head?_map, List.getLast?_map, hp0, hp1]
    simp only [Option.map_some]
    unfold extraEnumerators
    rw [(htext p0 hv0).1, Res.bind_ok, (htext p1 hv1).1, Res.bind_ok]
    by_cases hl : interp t p1.2.value < typeHi t
    · simp only [hlimit.2 hl, if_true, (hinc hl).1, Res.bind_ok, (hinc hl).2.1, Res.pure_eq, hl]
      rfl
    · have : hasValuesLimit t p1.2.value = false := Bool.eq_false_iff.2 (fun hx => hl (hlimit.1 hx))
      simp only [this, Bool.false_eq_true, if_false, Res.bind_ok, Res.pure_eq, hl, List.append_nil]
  · have hbase : (((qs.filter fun p => decide (p.2.since ≤ g.version)).map fun p => (p.1, textOf t st p.2.value)).map Prod.fst).Nodup ∧
        ∀ n, n ∈ (((qs.filter fun p => decide (p.2.since ≤ g.version)).map fun p => (p.1, textOf t st p.2.value)).map Prod.fst) → n ∈ st.values.map Prod.fst := by
      rw [List.map_map]
      constructor
      · have : (qs.map Prod.fst).Nodup := (hqs.map Prod.fst).nodup_iff.2 hn
        exact ((List.filter_sublist (l := qs)).map Prod.fst).nodup this
      · intro n hx
        obtain ⟨p, hp, rfl⟩ := List.mem_map.1 hx
        exact List.mem_map.2 ⟨p, hq p (List.mem_filter.1 hp).1, rfl⟩
    have hdist : ∀ (x y : Char) (xs ys : Str) (s : Str), x ≠ y → toLowerC x ≠ y → x ≠ toLowerC y → toLowerC x ≠ toLowerC y →
        (Padded (x :: xs) s ∨ Padded (toLowerC x :: xs) s) → (Padded (y :: ys) s ∨ Padded (toLowerC y :: ys) s) → False := by
      rintro x y xs ys s h1 h2 h3 h4 (⟨k, hk⟩ | ⟨k, hk⟩) (⟨j, hj⟩ | ⟨j, hj⟩) <;> rw [hk] at hj <;>
        simp only [List.cons_append, List.cons.injEq] at hj
      · exact h1 hj.1
      · exact h3 hj.1
      · exact h2 hj.1
      · exact h4 hj.1
    have d1 : adjustName st p0.1 "FirstValue".toList ≠ adjustName st p0.1 "LastValue".toList := by
      intro e
      exact hdist 'F' 'L' _ _ _ (by decide) (by decide) (by decide) (by decide) nf2 (by have := nl2; rw [show ('L' :: "astValue".toList) = "LastValue".toList from rfl, ← e] at this; exact this)
    have d2 : adjustName st p0.1 "FirstValue".toList ≠ adjustName st p0.1 "ValuesLimit".toList := by
      intro e
      exact hdist 'F' 'V' _ _ _ (by decide) (by decide) (by decide) (by decide) nf2 (by have := nu2; rw [show ('V' :: "aluesLimit".toList) = "ValuesLimit".toList from rfl, ← e] at this; exact this)
    have d3 : adjustName st p0.1 "LastValue".toList ≠ adjustName st p0.1 "ValuesLimit".toList := by
      intro e
      exact hdist 'L' 'V' _ _ _ (by decide) (by decide) (by decide) (by decide) nl2 (by have := nu2; rw [show ('V' :: "aluesLimit".toList) = "ValuesLimit".toList from rfl, ← e] at this; exact this)
    rw [List.map_append, List.nodup_append]
    refine ⟨hbase.1, ?_, ?_⟩
    · split
      · simp only [List.map_cons, List.map_nil, List.cons_append, List.nil_append, List.nodup_cons, List.mem_cons, List.not_mem_nil, or_false, not_false_eq_true, List.nodup_nil, and_true, not_or]
        exact ⟨⟨d1, d2⟩, d3⟩
      · simp only [List.append_nil, List.map_cons, List.map_nil, List.nodup_cons, List.mem_cons, List.not_mem_nil, or_false, not_false_eq_true, List.nodup_nil, and_true]
        exact d1
    · intro x hx y hy e
      subst e
      have hx := hbase.2 x hx
      have : x = adjustName st p0.1 "FirstValue".toList ∨ x = adjustName st p0.1 "LastValue".toList ∨ x = adjustName st p0.1 "ValuesLimit".toList := by
        split at hy <;> simp at hy <;> rcases hy with hy | hy | hy <;> simp_all
      rcases this with e | e | e
      · rw [e] at hx; exact nf1 hx
      · rw [e] at hx; exact nl1 hx
      · rw [e] at hx; exact nu1 hx


open GenEnumSample

/-- 2^63-1 as greatest number of an unsigned enum: the number behind is computed with signed numbers, which is undefined. -/
theorem C79_limit_witness : ∃ (g : GVer) (b : Bool) (st : EnumF.State), EnumF.Accepted b st ∧ st.num.type = some .uint64 ∧
    st.values.map (fun p => interp .uint64 p.2.value) = [9223372036854775807] ∧ enumerators g .uint64 st = .ub := by
  exact ⟨{ parsed := 5 }, _, parsed [("type", "uint64")] [value "A" "0x7fffffffffffffff"], parsed_ok (by decide +kernel), by decide +kernel, by decide +kernel, by decide +kernel⟩

/-- A short `uintvar` enum with a number that does not fit: the pairs are in the order of signed numbers, and the search misses one. -/
theorem C78_order_witness : ∃ (g : GVer) (b : Bool) (st : EnumF.State) (enumerator : Str → Option Int), EnumF.Accepted b st ∧ st.num.type = some .uintvar ∧
    (∀ p ∈ st.values, enumerator p.1 = some (interp .uintvar p.2.value)) ∧
    nameFor g.version st.nonUnique .uintvar st.values 1 = some "A".toList ∧ valueName enumerator (nameTable g .uintvar st) 1 = none := by
  refine ⟨{ parsed := 5 }, _, parsed [("type", "uintvar"), ("length", "2")] [value "A" "1", value "B" "0xffffffffffffffff", value "C" "9"],
    fun s => (findSpecial (parsed [("type", "uintvar"), ("length", "2")] [value "A" "1", value "B" "0xffffffffffffffff", value "C" "9"]).values s).map fun i => interp .uintvar i.value,
    parsed_ok (by decide +kernel), by decide +kernel, by decide +kernel, by decide +kernel, by decide +kernel⟩

namespace GenEnumSample
/-- Duplicates, one of them deprecated; display names; a gap; the name of an enumerator that is generated as well. -/
def names : EnumF.State := parsed [("type", "uint8"), ("nonUniqueAllowed", "true")]
  [value "A" "1" [("deprecated", "3")], value "B" "1", value "C" "4" [("displayName", "see")], value "D" "0" [("displayName", "_")], value "FirstValue" "5" [("sinceVersion", "2")]]
end GenEnumSample

/-- The hypotheses of C78 and C79, and what comes out. -/
example : EnumF.Accepted true names ∧ names.num.type = some .uint8 ∧ (∀ p ∈ names.values, i64Min < p.2.value ∧ p.2.value ≤ i64Max) ∧
    nameTable { parsed := 5 } .uint8 names = .direct [some [], some "B".toList, none, none, some "see".toList, some "FirstValue".toList] ∧
    nameFor 5 true .uint8 names.values 1 = some "B".toList ∧ nameFor 2 true .uint8 names.values 1 = some "A".toList ∧
    enumerators { parsed := 5 } .uint8 names = .ok [("D".toList, "0".toList), ("A".toList, "1".toList), ("B".toList, "1".toList), ("C".toList, "4".toList),
      ("FirstValue".toList, "5".toList), ("FirstValue_".toList, "0".toList), ("LastValue".toList, "5".toList), ("ValuesLimit".toList, "6".toList)] := by
  have := parsed_ok (attrs := [("type", "uint8"), ("nonUniqueAllowed", "true")])
    (children := [value "A" "1" [("deprecated", "3")], value "B" "1", value "C" "4" [("displayName", "see")], value "D" "0" [("displayName", "_")], value "FirstValue" "5" [("sinceVersion", "2")]])
    (by decide +kernel)
  have e : names.nonUnique = true := by decide +kernel
  unfold names at e
  rw [e] at this
  refine ⟨this, by decide +kernel, by decide +kernel, by decide +kernel, by decide +kernel, by decide +kernel, by decide +kernel⟩

/-- The search tables. -/
example : nameTable { parsed := 5 } .uint64 (many "0xffffffffffffffff" []) = .search [("A".toList, "A".toList), ("B".toList, "B".toList), ("C".toList, "C".toList), ("D".toList, "D".toList),
    ("E".toList, "E".toList), ("F".toList, "F".toList), ("G".toList, "G".toList)] ∧
    nameTable { parsed := 5 } .int64 signed = .search [("A".toList, "A".toList), ("B".toList, "B".toList)] := by
  refine ⟨by decide +kernel, by decide +kernel⟩

end Commsdsl.Props
