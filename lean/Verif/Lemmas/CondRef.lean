import Verif.Spec.CondRef
import Verif.Lemmas.FieldBody
/-!
# References in conditions
-/
namespace Commsdsl.Fld
open Commsdsl Text Spec

namespace CondRef

theorem dot_split (s : Str) : '.' ∉ beforeDot s ∧ ((s = beforeDot s ∧ afterDot s = []) ∨ s = beforeDot s ++ '.' :: afterDot s) := by
  unfold beforeDot afterDot
  induction s with
  | nil => simp
  | cons c cs ih =>
    by_cases hc : c = '.'
    · subst hc; simp
    · have h1 : (c != '.') = true := by simpa using hc
      rw [List.takeWhile_cons_of_pos (p := fun x => x != '.') h1, List.dropWhile_cons_of_pos (p := fun x => x != '.') h1]
      refine ⟨?_, ?_⟩
      · intro h
        rcases List.mem_cons.1 h with h | h
        · exact hc h.symm
        · exact ih.1 h
      · rcases ih.2 with ⟨h, h2⟩ | h
        · exact Or.inl ⟨by rw [← h], h2⟩
        · right
          rw [List.cons_append, ← h]

theorem findRef_eq (ms : List Field) (n rest : Str) : findRef ms n rest =
    match ms.find? (fun x => x.name == n) with
    | none => .ok none
    | some m => innerRef m rest := by
  induction ms with
  | nil => simp [findRef]
  | cons m ms ih =>
    unfold findRef
    by_cases h : m.name = n
    · rw [if_pos h, List.find?_cons_of_pos (by simpa using h)]
    · rw [if_neg h, List.find?_cons_of_neg (by simpa using h), ih]

/-! ## Reference types -/

theorem refType_size (f : Field) : refTypeImpl f .size = .ok true → ∃ g, Follows f g ∧ (g.kind = .string ∨ g.kind = .data ∨ g.kind = .list) := by
  induction f using Field.induction with
  | h f ih =>
    intro h
    cases f with
    | ref c b s =>
      rw [refTypeImpl] at h
      cases s with
      | none => simp [refTypeSlot] at h
      | ext g =>
        simp [refTypeSlot, generalRefType] at h
        obtain ⟨x, h1, h2⟩ := ih g (by simp [Field.subs, Slot.toList]) h
        exact ⟨x, .ref (by simp [Slot.toList]) h1, h2⟩
      | own g =>
        simp [refTypeSlot, generalRefType] at h
        obtain ⟨x, h1, h2⟩ := ih g (by simp [Field.subs, Slot.toList]) h
        exact ⟨x, .ref (by simp [Slot.toList]) h1, h2⟩
    | string | data | list => exact ⟨_, .self (by simp [Field.kind]), by simp [Field.kind]⟩
    | _ => simp [refTypeImpl] at h

theorem general_exists {f : Field} (h : generalRefType f .exists = true) : CanBeMissing f := by
  simp [generalRefType] at h
  rcases h with h | h
  · exact .added h
  · exact .deprecated h

theorem refType_exists (f : Field) : refTypeImpl f .exists = .ok true → CanBeMissing f := by
  induction f using Field.induction with
  | h f ih =>
    intro h
    cases f with
    | ref c b s =>
      rw [refTypeImpl] at h
      cases s with
      | none => simp [refTypeSlot] at h
      | ext g =>
        simp only [refTypeSlot] at h
        split at h
        · exact .ref (t := g) (by simp [Slot.toList]) (general_exists ‹_›)
        · exact .ref (by simp [Slot.toList]) (ih g (by simp [Field.subs, Slot.toList]) h)
      | own g =>
        simp only [refTypeSlot] at h
        split at h
        · exact .ref (t := g) (by simp [Slot.toList]) (general_exists ‹_›)
        · exact .ref (by simp [Slot.toList]) (ih g (by simp [Field.subs, Slot.toList]) h)
    | optional => exact .optional
    | _ => simp [refTypeImpl] at h

theorem valid_size {f : Field} (h : isValidRefType f .size = .ok true) :
    ∃ g, Follows f g ∧ (g.kind = .string ∨ g.kind = .data ∨ g.kind = .list) := by
  unfold isValidRefType at h
  rw [if_neg (by simp [generalRefType])] at h
  exact refType_size f h

theorem valid_exists {f : Field} (h : isValidRefType f .exists = .ok true) : CanBeMissing f := by
  unfold isValidRefType at h
  split at h
  · exact general_exists ‹_›
  · exact refType_exists f h

/-! ## Marks -/

theorem applyMark_ok {c : Char} {r : Option RefInfo} {i : RefInfo} (h : applyMark c r = .ok (some i)) :
    ∃ i0, r = some i0 ∧ i0.type = .field ∧ i.type ≠ .field ∧ i.field = i0.field ∧ i.valueName = i0.valueName ∧
      isValidRefType i0.field (if c = '#' then .size else .exists) = .ok true ∧ i.type = (if c = '#' then .size else .exists) := by
  cases r with
  | none => simp [applyMark] at h
  | some i0 =>
    simp only [applyMark] at h
    split at h
    · simp at h
    · rename_i ht
      simp only [Res.bind_eq_ok, Res.pure_eq] at h
      obtain ⟨ok, h1, h2⟩ := h
      have h2 := Res.ok.inj h2
      split at h2
      · rename_i hok
        cases h2
        rw [hok] at h1
        refine ⟨i0, rfl, by simpa using ht, ?_, rfl, rfl, h1, rfl⟩
        dsimp only
        split <;> simp
      · simp at h2

theorem applyMarks_ok {mk : Str} {r : Option RefInfo} {i : RefInfo} (h : applyMarks mk r = .ok (some i)) :
    (mk = [] ∧ r = some i) ∨ ∃ c i0, mk = [c] ∧ r = some i0 ∧ i0.type = .field ∧ i.field = i0.field ∧ i.valueName = i0.valueName ∧
      isValidRefType i0.field (if c = '#' then .size else .exists) = .ok true ∧ i.type = (if c = '#' then .size else .exists) := by
  cases mk with
  | nil => simp only [applyMarks] at h; exact Or.inl ⟨rfl, by simpa using h⟩
  | cons c cs =>
    simp only [applyMarks, Res.bind_eq_ok] at h
    obtain ⟨r', h1, h2⟩ := h
    obtain ⟨i0, rfl, h3, _, h4⟩ := applyMark_ok h2
    cases cs with
    | nil =>
      simp only [applyMarks, Res.ok.injEq] at h1
      exact Or.inr ⟨c, i0, rfl, h1, h3, h4⟩
    | cons d ds =>
      simp only [applyMarks, Res.bind_eq_ok] at h1
      obtain ⟨r'', _, h5⟩ := h1
      obtain ⟨_, _, _, h6, _⟩ := applyMark_ok h5
      exact absurd h3 h6

theorem dotted_mark {t : Str} {p : List Str} {c : Char} (hc : c = '#' ∨ c = '?') (h : Dotted t [] p) : Dotted (c :: t) [c] p := by
  generalize hm : ([] : Str) = mk at h
  have hall : ∀ x ∈ [c], x = '#' ∨ x = '?' := by intro x hx; simp at hx; subst hx; exact hc
  cases h with
  | last h1 h2 => subst hm; exact .last (mk := [c]) hall h2
  | more h1 h2 h3 =>
    rename_i mk n t mk' p
    have h4 : mk = [] ∧ mk' = [] := by simpa using hm.symm
    obtain ⟨rfl, rfl⟩ := h4
    exact .more (mk := [c]) hall h2 h3

theorem means_marks {L : List Str → Field → Prop} {mk s : Str} {i0 i : RefInfo} (hmk : ∀ c ∈ mk, c = '#' ∨ c = '?') (h0 : Means L s i0)
    (h : applyMarks mk (some i0) = .ok (some i)) : Means L (mk ++ s) i := by
  rcases applyMarks_ok h with ⟨rfl, h⟩ | ⟨c, i1, rfl, h, ht, hf, hv, hr, hty⟩
  · cases h; exact h0
  · cases h
    have hc := hmk c (by simp)
    cases h0 with
    | field h1 h2 h3 =>
      rename_i t p f
      dsimp only at hf hv hr
      have h2' : OptDot ([c] ++ s) (c :: t) := by
        rcases h2 with rfl | rfl
        · exact Or.inl rfl
        · exact Or.inr rfl
      cases i with
      | mk f' t' v' =>
        dsimp only at hf hv hty
        subst hf hv hty
        rcases hc with rfl | rfl
        · simp only [if_pos] at hr ⊢
          obtain ⟨g, hg, hk⟩ := valid_size hr
          exact .size (dotted_mark (Or.inl rfl) h1) h2' h3 hg hk
        · have e : ('?' : Char) ≠ '#' := by decide
          rw [if_neg e] at hr ⊢
          exact .exists (dotted_mark (Or.inr rfl) h1) h2' h3 (valid_exists hr)
    | value => simp at ht
    | size => simp at ht
    | «exists» => simp at ht

/-! ## Paths -/

/-- What a reference inside a field means. -/
def InnerSem (f : Field) (s : Str) (i : RefInfo) : Prop :=
  (s = [] ∧ i = ⟨f, .field, []⟩) ∨ (s ≠ [] ∧ ∃ g, Follows f g ∧ s ∈ valueNames g ∧ i = ⟨g, .innerValue, s⟩) ∨
    (s ≠ [] ∧ Means (fun p g => p ≠ [] ∧ Inside f p g) s i)

theorem means_mono {L L' : List Str → Field → Prop} (h : ∀ p g, L p g → L' p g) {s : Str} {i : RefInfo} (hm : Means L s i) : Means L' s i := by
  cases hm with
  | field h1 h2 h3 => exact .field h1 h2 (h _ _ h3)
  | value h1 h2 h3 h4 => exact .value h1 (h _ _ h2) h3 h4
  | size h1 h2 h3 h4 h5 => exact .size h1 h2 (h _ _ h3) h4 h5
  | «exists» h1 h2 h3 h4 => exact .exists h1 h2 (h _ _ h3) h4

/-- One step down. -/
theorem means_step {L : List Str → Field → Prop} {m : Field} {n r s : Str} {i : RefInfo} (hn : '.' ∉ n)
    (hs : (s = n ∧ r = []) ∨ s = n ++ '.' :: r) (hL : ∀ q g, Inside m q g → L (n :: q) g) (h : InnerSem m r i) : Means L s i := by
  have nomk : ∀ c ∈ ([] : Str), c = '#' ∨ c = '?' := by simp
  rcases h with ⟨rfl, rfl⟩ | ⟨hne, g, hg, hv, rfl⟩ | ⟨hne, h⟩
  · refine .field (t := n) (p := [n]) (.last nomk hn) ?_ (hL _ _ .self)
    rcases hs with ⟨h, _⟩ | h
    · exact Or.inl h
    · exact Or.inr h
  · rcases hs with ⟨_, h⟩ | rfl
    · exact absurd h hne
    · exact .value (t := n) (p := [n]) (.last nomk hn) (hL _ _ .self) hg hv
  · rcases hs with ⟨_, h⟩ | rfl
    · exact absurd h hne
    · have od : ∀ {t : Str}, OptDot r t → OptDot (n ++ '.' :: r) (n ++ '.' :: t) := by
        rintro t (rfl | rfl)
        · exact Or.inl rfl
        · exact Or.inr (by simp)
      cases h with
      | field h1 h2 h3 => exact .field (.more nomk hn h1) (od h2) (hL _ _ h3.2)
      | value h1 h2 h3 h4 =>
        have := Means.value (leads := L) (.more nomk hn h1) (hL _ _ h2.2) h3 h4
        simpa using this
      | size h1 h2 h3 h4 h5 => exact .size (.more nomk hn h1) (od h2) (hL _ _ h3.2) h4 h5
      | «exists» h1 h2 h3 h4 => exact .exists (.more nomk hn h1) (od h2) (hL _ _ h3.2) h4

theorem mark_split (s : Str) : s = s.takeWhile isMark ++ s.dropWhile isMark ∧ ∀ c ∈ s.takeWhile isMark, c = '#' ∨ c = '?' := by
  refine ⟨(List.takeWhile_append_dropWhile).symm, ?_⟩
  intro c hc
  have h := List.all_takeWhile (p := isMark) (l := s)
  have := List.all_eq_true.1 h c hc
  simpa [isMark] using this

/-- Among members. -/
theorem siblingWith_means {ms : List Field} {s : Str} {i : RefInfo} (ih : ∀ m ∈ ms, ∀ r j, innerRef m r = .ok (some j) → InnerSem m r j)
    (h : siblingWith (findRef ms) s = .ok (some i)) : s ≠ [] ∧ Means (Leads ms) s i := by
  unfold siblingWith at h
  dsimp only at h
  split at h
  · simp at h
  · rename_i hne
    simp only [Res.bind_eq_ok] at h
    obtain ⟨r, h1, h2⟩ := h
    obtain ⟨e, hmk⟩ := mark_split s
    refine ⟨?_, ?_⟩
    · rintro rfl; simp [beforeDot] at hne
    cases r with
    | none => rcases applyMarks_ok h2 with ⟨_, h⟩ | ⟨_, _, _, h, _⟩ <;> simp at h
    | some i0 =>
      rw [e]
      refine means_marks hmk ?_ h2
      rw [findRef_eq] at h1
      cases hf : ms.find? (fun x => x.name == beforeDot (s.dropWhile isMark)) with
      | none => rw [hf] at h1; simp at h1
      | some m =>
        rw [hf] at h1
        obtain ⟨hd, hs⟩ := dot_split (s.dropWhile isMark)
        exact means_step hd hs (fun q g hq => ⟨_, _, m, rfl, hf, hq⟩) (ih m (List.mem_of_find?_eq_some hf) _ _ h1)

theorem sibling_inner {f : Field} {ms : List Field} {s : Str} {i : RefInfo} (hms : f.members = ms)
    (h : s ≠ [] ∧ Means (Leads ms) s i) : InnerSem f s i := by
  refine Or.inr (Or.inr ⟨h.1, means_mono ?_ h.2⟩)
  rintro p g ⟨n, q, m, rfl, hf, hi⟩
  exact ⟨by simp, .member (by rw [hms]; exact hf) hi⟩

theorem find_names {α : Type} {l : List (Str × α)} {s : Str} (h : ((l.find? fun p => p.1 == s).map Prod.snd).isSome = true) :
    s ∈ l.map Prod.fst := by
  cases hf : l.find? (fun p => p.1 == s) with
  | none => rw [hf] at h; simp at h
  | some x =>
    have h1 := List.mem_of_find?_eq_some hf
    have h2 := List.find?_some hf
    exact List.mem_map.2 ⟨x, h1, by simpa using h2⟩

theorem inner_value {f : Field} {found : Bool} {s : Str} {i : RefInfo} (hk : f.kind ≠ .ref) (hv : found = true → s ∈ valueNames f)
    (h : (if s.isEmpty then some ⟨f, .field, []⟩ else innerValue f found s) = some i) : InnerSem f s i := by
  split at h
  · rename_i hs
    cases h
    exact Or.inl ⟨by simpa using hs, rfl⟩
  · rename_i hs
    unfold innerValue at h
    split at h
    · rename_i hf
      cases h
      exact Or.inr (Or.inl ⟨by simpa using hs, f, .self hk, hv hf, rfl⟩)
    · simp at h

theorem inner_leaf {f : Field} {s : Str} {i : RefInfo} (h : (if s.isEmpty then some (⟨f, .field, []⟩ : RefInfo) else none) = some i) :
    InnerSem f s i := by
  split at h
  · rename_i hs
    cases h
    exact Or.inl ⟨by simpa using hs, rfl⟩
  · simp at h

theorem inner_target {c : Common} {b : Nat} {sl : Slot Field} {t : Field} {s : Str} {i : RefInfo} (ht : t ∈ sl.toList) (hs : s ≠ [])
    (h : InnerSem t s i) : InnerSem (.ref c b sl) s i := by
  rcases h with ⟨h, _⟩ | ⟨_, g, hg, hv, hi⟩ | ⟨_, h⟩
  · exact absurd h hs
  · exact Or.inr (Or.inl ⟨hs, g, .ref ht hg, hv, hi⟩)
  · exact Or.inr (Or.inr ⟨hs, means_mono (fun p g h => ⟨h.1, .target h.1 ht h.2⟩) h⟩)

theorem innerRef_sem (f : Field) : ∀ (s : Str) (i : RefInfo), innerRef f s = .ok (some i) → InnerSem f s i := by
  induction f using Field.induction with
  | h f ih =>
    intro s i h
    cases f with
    | int c st =>
      rw [innerRef, Res.ok.injEq] at h
      exact inner_value (by simp [Field.kind]) find_names h
    | enum c st =>
      rw [innerRef, Res.ok.injEq] at h
      exact inner_value (by simp [Field.kind]) find_names h
    | set c st =>
      rw [innerRef, Res.ok.injEq] at h
      exact inner_value (by simp [Field.kind]) find_names h
    | float c st =>
      rw [innerRef, Res.ok.injEq] at h
      exact inner_value (by simp [Field.kind]) find_names h
    | bitfield c e ms cd =>
      rw [innerRef] at h
      split at h
      · rename_i hs
        cases Res.ok.inj h
        exact Or.inl ⟨by simpa using hs, rfl⟩
      · exact sibling_inner rfl (siblingWith_means ih h)
    | bundle c ms al cd =>
      rw [innerRef] at h
      split at h
      · rename_i hs
        cases Res.ok.inj h
        exact Or.inl ⟨by simpa using hs, rfl⟩
      · exact sibling_inner rfl (siblingWith_means ih h)
    | variant c d ms =>
      rw [innerRef] at h
      split at h
      · rename_i hs
        cases Res.ok.inj h
        exact Or.inl ⟨by simpa using hs, rfl⟩
      · exact sibling_inner rfl (siblingWith_means ih h)
    | string c st p => rw [innerRef, Res.ok.injEq] at h; exact inner_leaf h
    | data c st p => rw [innerRef, Res.ok.injEq] at h; exact inner_leaf h
    | list c st a b d e t => rw [innerRef, Res.ok.injEq] at h; exact inner_leaf h
    | ref c b t =>
      rw [innerRef] at h
      split at h
      · rename_i hs
        cases Res.ok.inj h
        exact Or.inl ⟨by simpa using hs, rfl⟩
      · rename_i hs
        have hs' : s ≠ [] := by simpa using hs
        cases t with
        | none => simp [targetRef] at h
        | ext g => exact inner_target (by simp [Slot.toList]) hs' (ih g (by simp [Field.subs, Slot.toList]) s i (by simpa [targetRef] using h))
        | own g => exact inner_target (by simp [Slot.toList]) hs' (ih g (by simp [Field.subs, Slot.toList]) s i (by simpa [targetRef] using h))
    | optional c st o cd =>
      rw [innerRef] at h
      split at h
      · rename_i hs
        cases Res.ok.inj h
        exact Or.inl ⟨by simpa using hs, rfl⟩
      · rename_i hs
        have hs' : s ≠ [] := by simpa using hs
        cases o with
        | none => simp [optRef] at h
        | ext g => simp [optRef] at h
        | own g =>
          simp only [optRef] at h
          split at h
          · rename_i hg
            obtain ⟨hd, hsp⟩ := dot_split s
            rw [hg] at hd hsp
            refine Or.inr (Or.inr ⟨hs', means_step hd hsp ?_ (ih g (by simp [Field.subs, Slot.toList]) _ _ h)⟩)
            intro q x hq
            exact ⟨by simp, .optional hq⟩
          · simp at h

theorem siblingRef_means {fs : List Field} {s : Str} {i : RefInfo} (h : siblingRef fs s = .ok (some i)) : Means (Leads fs) s i :=
  (siblingWith_means (fun m _ => innerRef_sem m) h).2

/-! ## Comparisons -/

theorem through_follows (f : Field) : ∀ g, throughRefs f = some g → Follows f g := by
  induction f using Field.induction with
  | h f ih =>
    intro g h
    cases f with
    | ref c b s =>
      rw [throughRefs] at h
      cases s with
      | none => simp [throughSlot] at h
      | ext t => exact .ref (t := t) (by simp [Slot.toList]) (ih t (by simp [Field.subs, Slot.toList]) g (by simpa [throughSlot] using h))
      | own t => exact .ref (t := t) (by simp [Slot.toList]) (ih t (by simp [Field.subs, Slot.toList]) g (by simpa [throughSlot] using h))
    | _ =>
      simp only [throughRefs, Option.some.injEq] at h
      subst h
      exact .self (by simp [Field.kind])

theorem comparable_ok {f g : Field} (h : comparableToField f g = .ok true) : Comparable f g := by
  unfold comparableToField at h
  split at h
  · rename_i a b ha hb
    refine ⟨a, b, through_follows _ _ ha, through_follows _ _ hb, ?_⟩
    have h := Res.ok.inj h
    unfold comparableKinds at h
    simp only [Bool.or_eq_true, beq_iff_eq] at h
    rcases h with h | h
    · exact Or.inl h
    · split at h
      · rename_i e1 e2; exact Or.inr (Or.inl ⟨e1, e2⟩)
      · rename_i e1 e2; exact Or.inr (Or.inr ⟨e1, e2⟩)
      · simp at h
  · simp at h

theorem numeric_value {env : FEnv} {f : Field} {v : Str} (hn : numericSem f = true) (h : (strToIntMax v).isSome = true) : ValueOf env f v := by
  obtain ⟨x, hx⟩ := Option.isSome_iff_exists.1 h
  exact .numeric (by simpa [numericSem] using hn) hx

theorem value_ok {env : FEnv} (f : Field) : ∀ v, valueComparableImpl env f v = .ok true → ValueOf env f v := by
  induction f using Field.induction with
  | h f ih =>
    intro v h
    cases f with
    | int c st =>
      simp only [valueComparableImpl, Res.ok.injEq] at h
      split at h
      · rename_i t ht
        obtain ⟨x, hx⟩ := Option.isSome_iff_exists.1 h
        exact .int ht hx
      · simp at h
    | enum c st =>
      simp only [valueComparableImpl, Res.ok.injEq] at h
      split at h
      · rename_i t ht
        obtain ⟨x, hx⟩ := Option.isSome_iff_exists.1 h
        exact .enum ht hx
      · simp at h
    | set c st =>
      simp only [valueComparableImpl] at h
      split at h
      · rename_i hr
        have h := Res.ok.inj h
        split at h
        · simp at h
        · rename_i x big hx
          exact .setRef hr hx (by simpa using h)
      · have h := Res.ok.inj h
        split at h
        · simp at h
        · rename_i x hx
          exact .set hx (by simpa using h)
    | float c st =>
      simp only [valueComparableImpl, Res.ok.injEq] at h
      obtain ⟨x, hx⟩ := Option.isSome_iff_exists.1 h
      exact .float hx
    | string c st p =>
      simp only [valueComparableImpl, Res.ok.injEq] at h
      split at h
      · split at h
        · rename_i g hg
          exact .stringRef hg (by simpa using h)
        · simp at h
      · rename_i hne
        refine .string ?_
        intro e
        cases v with
        | nil => simp at e
        | cons a as => simp at e; subst e; exact hne as rfl
    | ref c b s =>
      rw [valueComparableImpl] at h
      cases s with
      | none => simp [valueComparableSlot] at h
      | ext t =>
        simp only [valueComparableSlot] at h
        refine .ref (t := t) (by simp [Slot.toList]) ?_
        split at h
        · exact numeric_value ‹_› (Res.ok.inj h)
        · exact ih t (by simp [Field.subs, Slot.toList]) v h
      | own t =>
        simp only [valueComparableSlot] at h
        refine .ref (t := t) (by simp [Slot.toList]) ?_
        split at h
        · exact numeric_value ‹_› (Res.ok.inj h)
        · exact ih t (by simp [Field.subs, Slot.toList]) v h
    | _ => simp [valueComparableImpl] at h

theorem toValue_ok {env : FEnv} {f : Field} {v : Str} (h : comparableToValue env f v = .ok true) : ValueOf env f v := by
  unfold comparableToValue at h
  split at h
  · exact numeric_value ‹_› (Res.ok.inj h)
  · exact value_ok f v h

theorem stoll_ok {s : Str} (h : stollDec s = true) : StartsWithNumber s := by
  unfold stollDec at h
  have e : s = s.takeWhile isSpace ++ s.dropWhile isSpace := (List.takeWhile_append_dropWhile).symm
  have hw : ∀ c ∈ s.takeWhile isSpace, isSpace c = true := List.all_eq_true.1 (List.all_takeWhile (p := isSpace) (l := s))
  generalize s.takeWhile isSpace = w at e hw
  generalize s.dropWhile isSpace = r at e h
  subst e
  dsimp only at h
  split at h
  · rename_i c cs heq
    simp only [Bool.and_eq_true] at h
    split at heq
    · dsimp only at heq
      subst heq
      exact ⟨w, ['-'], c, cs, by simp, hw, by simp, h.1⟩
    · dsimp only at heq
      subst heq
      exact ⟨w, ['+'], c, cs, by simp, hw, by simp, h.1⟩
    · dsimp only at heq
      subst heq
      exact ⟨w, [], c, cs, by simp, hw, by simp, h.1⟩
  · simp at h

theorem anyRes_ok {α : Type} {p : α → Res Bool} {l : List α} (h : anyRes p l = .ok true) : ∃ a ∈ l, p a = .ok true := by
  induction l with
  | nil => simp [anyRes] at h
  | cons a as ih =>
    simp only [anyRes, Res.bind_eq_ok] at h
    obtain ⟨b, h1, h2⟩ := h
    split at h2
    · rename_i hb
      rw [hb] at h1
      exact ⟨a, by simp, h1⟩
    · obtain ⟨x, hx, h3⟩ := ih h2
      exact ⟨x, by simp [hx], h3⟩

theorem head_ne {s : Str} {c : Char} (h : ∀ r, s = c :: r → False) : s.head? ≠ some c := by
  cases s with
  | nil => simp
  | cons a as => intro e; simp at e; subst e; exact h as rfl

/-! ## Conditions -/

theorem single_ok {env : FEnv} {fs : List Field} {op right : Str} (h : verifySingle env fs right = .ok true) : LeafOk env fs ⟨[], op, right⟩ := by
  unfold verifySingle at h
  split at h
  · simp only [Res.bind_eq_ok] at h
    obtain ⟨i, h1, h2⟩ := h
    cases i with
    | none => simp at h2
    | some i =>
      have hm := siblingRef_means h1
      dsimp only at h2
      split at h2
      · exact .check hm (Or.inl ‹_›)
      split at h2
      · simp at h2
      · rename_i ht
        exact .check hm (Or.inr (by simpa using ht))
  · rename_i ch r hne
    simp only [Res.bind_eq_ok, Res.pure_eq] at h
    obtain ⟨is, h1, h2⟩ := h
    have h2 := Res.ok.inj h2
    rw [List.any_eq_true] at h2
    obtain ⟨i, hi, h3⟩ := h2
    simp only [Bool.and_eq_true, beq_iff_eq] at h3
    exact .ifaceCheck h1 hi h3.1 h3.2 (by rintro rfl; exact hne rfl)
  · simp at h

theorem filter_field {js : List RefInfo} {j : RefInfo} (h : j ∈ js.filter fun j => j.type == .field) : j ∈ js ∧ j.type = .field := by
  simpa using List.mem_filter.1 h

theorem sibling_ok {env : FEnv} {fs : List Field} {op l right : Str} (h : verifySiblingComp env fs l right = .ok true) :
    LeafOk env fs ⟨'$' :: l, op, right⟩ := by
  simp only [verifySiblingComp, Res.bind_eq_ok] at h
  obtain ⟨i, h1, h2⟩ := h
  cases i with
  | none => simp at h2
  | some i =>
    have hm := siblingRef_means h1
    dsimp only at h2
    split at h2
    · have h2 := Res.ok.inj h2
      simp only [Bool.and_eq_true] at h2
      exact .size hm ‹_› (stoll_ok h2.2)
    split at h2
    · simp at h2
    rename_i ht
    have ht : i.type = .field := by simpa using ht
    split at h2
    · simp only [Res.bind_eq_ok] at h2
      obtain ⟨j, h3, h4⟩ := h2
      cases j with
      | none => simp at h4
      | some j =>
        dsimp only at h4
        split at h4
        · simp at h4
        · rename_i hj
          exact .sibling hm ht (siblingRef_means h3) (by simpa using hj) (comparable_ok h4)
    · simp only [Res.bind_eq_ok] at h2
      obtain ⟨js, h3, h4⟩ := h2
      obtain ⟨j, hj, h5⟩ := anyRes_ok h4
      exact .siblingIface hm ht h3 (filter_field hj).1 (filter_field hj).2 (comparable_ok h5)
    · rename_i hd hp
      exact .value hm ht (head_ne hd) (head_ne hp) (toValue_ok h2)

theorem iface_ok {env : FEnv} {fs : List Field} {op l right : Str} {ch : Char} (hch : ch ≠ '$') (h : verifyIfaceComp env fs l right = .ok true) :
    LeafOk env fs ⟨ch :: l, op, right⟩ := by
  simp only [verifyIfaceComp, Res.bind_eq_ok] at h
  obtain ⟨is, h1, h2⟩ := h
  split at h2
  · rename_i hs
    have h2 := Res.ok.inj h2
    simp only [Bool.and_eq_true] at h2
    rw [List.any_eq_true] at hs
    obtain ⟨i, hi, h3⟩ := hs
    exact .ifaceSize hch h1 hi (by simpa using h3) (stoll_ok h2.2)
  split at h2
  · simp at h2
  unfold verifyIfaceRight at h2
  split at h2
  · simp only [Res.bind_eq_ok] at h2
    obtain ⟨j, h3, h4⟩ := h2
    cases j with
    | none => simp at h4
    | some j =>
      dsimp only at h4
      split at h4
      · simp at h4
      · rename_i hj
        obtain ⟨i, hi, h5⟩ := anyRes_ok h4
        exact .ifaceSibling hch h1 (filter_field hi).1 (filter_field hi).2 (siblingRef_means h3) (by simpa using hj) (comparable_ok h5)
  · simp only [Res.bind_eq_ok] at h2
    obtain ⟨js, h3, h4⟩ := h2
    obtain ⟨i, hi, h5⟩ := anyRes_ok h4
    obtain ⟨j, hj, h6⟩ := anyRes_ok h5
    exact .ifaces hch h1 (filter_field hi).1 (filter_field hi).2 h3 (filter_field hj).1 (filter_field hj).2 (comparable_ok h6)
  · rename_i hd hp
    obtain ⟨i, hi, h5⟩ := anyRes_ok h2
    exact .ifaceValue hch h1 (filter_field hi).1 (filter_field hi).2 (head_ne hd) (head_ne hp) (toValue_ok h5)

theorem expr_ok {env : FEnv} {fs : List Field} {e : CondM.Expr} (h : verifyExpr env fs e = .ok true) : LeafOk env fs e := by
  obtain ⟨l, op, r⟩ := e
  unfold verifyExpr at h
  dsimp only at h
  split at h
  · exact single_ok h
  · split at h
    · simp at h
    · exact sibling_ok h
  · rename_i ch l hne
    split at h
    · simp at h
    · exact iface_ok (by rintro rfl; exact hne rfl) h

theorem verifyConds_all {env : FEnv} {fs : List Field} {cs : List CondM.Cond} (h : verifyConds env fs cs = .ok true) :
    ∀ c ∈ cs, verifyCond env fs c = .ok true := by
  induction cs with
  | nil => simp
  | cons c cs ih =>
    simp only [verifyConds, Res.bind_eq_ok] at h
    obtain ⟨b, h1, h2⟩ := h
    split at h2
    · rename_i hb
      rw [hb] at h1
      intro x hx
      rcases List.mem_cons.1 hx with rfl | hx
      · exact h1
      · exact ih h2 x hx
    · simp at h2

theorem cond_ok {env : FEnv} {fs : List Field} {c : CondM.Cond} (h : verifyCond env fs c = .ok true) : CondOk env fs c := by
  intro e he
  induction he with
  | here => rw [verifyCond] at h; exact expr_ok h
  | inside hc _ ih => rw [verifyCond] at h; exact ih (verifyConds_all h _ hc)

theorem verified_ok {env : FEnv} {ms : List Field} {c : CondM.Cond} {r : Option CondM.Cond} (h : verified env ms c = .ok r) :
    r = some c ∧ CondOk env ms c := by
  simp only [verified, Res.bind_eq_ok, Res.pure_eq] at h
  obtain ⟨ok, h1, _, h2, h3⟩ := h
  have h2 := Res.check_eq_ok.1 h2
  rw [h2] at h1
  exact ⟨(Res.ok.inj h3).symm, cond_ok h1⟩

/-! ## Detached prefixes -/

theorem findSibling_number {fuel : Nat} : ∀ {fs : List Field} {path : Str} {f g : Field}, findSibling fuel fs path = some f → Follows f g →
    (g.kind = .int ∨ f.sem = .length) → ∃ p, path = joinDots p ∧ NumberAt fs p := by
  induction fuel with
  | zero => intro fs path f g h; simp [findSibling] at h
  | succ n ih =>
    intro fs path f g h hg hk
    unfold findSibling at h
    split at h
    · simp at h
    · rename_i m hm
      obtain ⟨hd, hs⟩ := dot_split path
      split at h
      · rename_i hc
        have e : path = beforeDot path ++ '.' :: afterDot path := by
          rcases hs with ⟨e, _⟩ | e
          · exfalso
            rw [e] at hc
            exact hd (by simpa using hc)
          · exact e
        obtain ⟨p, e2, hp⟩ := ih h hg hk
        refine ⟨beforeDot path :: p, ?_, .down hm hp⟩
        cases hp with
        | here | down => rw [e2] at e; exact e
      · rename_i hc
        cases h
        have e : path = beforeDot path := by
          rcases hs with ⟨e, _⟩ | e
          · exact e
          · exfalso
            rw [e] at hc
            simp at hc
        exact ⟨[beforeDot path], e, .here hm hg hk⟩

theorem detached_ok {fs : List Field} {path : Str} (h : verifyDetached fs path = .ok true) :
    path = [] ∨ ∃ p, path = joinDots p ∧ NumberAt fs p := by
  unfold verifyDetached at h
  split at h
  · rename_i e; exact Or.inl (by simpa using e)
  · right
    split at h
    · simp at h
    · rename_i s hs
      split at h
      · simp at h
      · rename_i t ht
        have h := Res.ok.inj h
        simp only [Bool.or_eq_true, beq_iff_eq] at h
        exact findSibling_number hs (through_follows _ _ ht) h

/-- What is checked of a new member against the members before it. -/
def SiblingsOk (env : FEnv) (before : List Field) (f : Field) : Prop :=
  (∀ path ∈ detachedPaths f, path = [] ∨ ∃ p, path = joinDots p ∧ NumberAt before p) ∧
  ∀ c st s cd, f = .optional c st s (some cd) → CondOk env before cd

theorem siblings_ok {env : FEnv} {fs : List Field} {f : Field} (h : verifySiblings env fs f = .ok true) : SiblingsOk env fs f := by
  unfold verifySiblings at h
  split at h
  · refine ⟨?_, by rintro _ _ _ _ ⟨⟩⟩
    intro path hp
    simp only [detachedPaths, List.mem_singleton] at hp
    subst hp
    exact detached_ok h
  · refine ⟨?_, by rintro _ _ _ _ ⟨⟩⟩
    intro path hp
    simp only [detachedPaths, List.mem_singleton] at hp
    subst hp
    exact detached_ok h
  · refine ⟨?_, by rintro _ _ _ _ ⟨⟩⟩
    simp only [Res.bind_eq_ok] at h
    obtain ⟨a, h1, h⟩ := h
    split at h
    · simp at h
    simp only [Res.bind_eq_ok] at h
    obtain ⟨b, h2, h⟩ := h
    split at h
    · simp at h
    rename_i ha hb
    have ha : a = true := by simpa using ha
    have hb : b = true := by simpa using hb
    subst ha hb
    intro path hp
    simp only [detachedPaths, List.mem_cons, List.not_mem_nil, or_false] at hp
    rcases hp with rfl | rfl | rfl
    · exact detached_ok h1
    · exact detached_ok h2
    · exact detached_ok h
  · refine ⟨by simp [detachedPaths], ?_⟩
    rintro c st s cd ⟨⟩
    exact cond_ok h
  · rename_i h1 h2 h3 h4
    refine ⟨?_, ?_⟩
    · cases f with
      | string => exact absurd rfl (h1 _ _ _)
      | data => exact absurd rfl (h2 _ _ _)
      | list => exact absurd rfl (h3 _ _ _ _ _ _ _)
      | _ => simp [detachedPaths]
    · rintro c st s cd rfl
      exact absurd rfl (h4 _ _ _ _)

theorem newMembers_siblings {env : FEnv} {b : BCtx} {ns : List Xml} {acc all : List Field}
    (h : newMembers b (fun acc f => verifySiblings env acc f) ns acc = .ok all) :
    ∀ (i : Nat) (f : Field), acc.length ≤ i → all[i]? = some f → SiblingsOk env (all.take i) f := by
  induction ns generalizing acc with
  | nil =>
    cases h
    intro i f hi hf
    have := (List.getElem?_eq_some_iff.1 hf).1
    omega
  | cons n ns ih =>
    simp only [newMembers, Res.bind_eq_ok] at h
    obtain ⟨f0, h1, ok, h2, _, h3, h4⟩ := h
    have h3 := Res.check_eq_ok.1 h3
    rw [h3] at h2
    obtain ⟨fs, rfl, _⟩ := newMembers_prefix h4
    intro i f hi hf
    by_cases he : i = acc.length
    · subst he
      rw [List.append_assoc, List.getElem?_append_right (Nat.le_refl _)] at hf
      simp only [Nat.sub_self, List.singleton_append, List.getElem?_cons_zero, Option.some.injEq] at hf
      subst hf
      rw [List.append_assoc, List.take_left']
      · exact siblings_ok h2
      · rfl
    · exact ih h4 i f (by simp; omega) hf

end CondRef

end Commsdsl.Fld
