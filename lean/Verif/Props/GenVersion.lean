import Verif.Spec.GenVersion
import Verif.Lemmas.FieldObj
import Verif.Lemmas.Sample
import Verif.Props.GenEnum
import Verif.Props.GenSchema
import Verif.Props.FieldVersions
import Verif.Spec.GenSet
import Verif.Spec.GenFloat
/-!
# C91, C92: versions in the generated field classes
-/
namespace Commsdsl.Props
open Commsdsl Spec Gen Fld IntF

/-! ## C91 -/

/-- A field with a wrapper is there exactly in the versions that have it; without a choice of the user it is there iff some supported version has it. -/
theorem C91_wrapper (g : GVer) (pl : Place) (f : Field) (w : Wrapper) (h : wrapperOf g pl f = some w) (hd : f.since < f.depr) :
    (∀ v, OptionHolds w.opt v ↔ Present f.since f.depr f.removed v) ∧
      (g.minRemote ≤ g.version → (w.existsByDefault = true ↔ ∃ v, Supported g v ∧ Present f.since f.depr f.removed v)) := by
  unfold wrapperOf at h
  split at h
  · cases h
  · cases h
    refine ⟨fun v => ?_, fun hm => C57_exists_partial g _ _ _ hm hd⟩
    unfold versionOption Present
    have hdec : decU32 f.depr = f.depr - 1 := by unfold decU32; rw [if_neg (by omega)]
    cases hr : f.removed with
    | false =>
      simp only [Bool.false_eq_true, if_false, OptionHolds]
      exact ⟨fun h => ⟨h, fun h => absurd h (by decide)⟩, fun h => h.1⟩
    | true =>
      simp only [if_true, hdec]
      split
      · simp only [OptionHolds]
        constructor
        · intro h; exact ⟨by omega, fun _ => by omega⟩
        · intro h; have := h.2 trivial; omega
      · simp only [OptionHolds]
        constructor
        · intro h; exact ⟨h.1, fun _ => by omega⟩
        · intro h; have := h.2 trivial; exact ⟨h.1, by omega⟩

/-- A field without a wrapper is there in every supported version that has what the field is in, if the code depends on versions.
    `pl.since` is the largest of the versions in which the message and the fields around it were added. -/
theorem C91_no_wrapper (g : GVer) (pl : Place) (f : Field) (h : wrapperOf g pl f = none) (hg : g.versionDependent = true) (hv : g.version < Versions.notYet)
    (hm : g.minRemote ≤ g.version) (hs : f.since ≤ g.version) (hp : pl.since ≤ f.since) (hd : f.depr ≤ g.version ∨ f.depr = Versions.notYet) :
    ∀ v, Supported g v → pl.since ≤ v → Present f.since f.depr f.removed v := by
  intro v h1 h2
  have hn : isVersionOptional g pl f.since f.depr f.removed = false := by
    unfold wrapperOf versionOpt at h
    cases hx : isVersionOptional g pl f.since f.depr f.removed with
    | false => rfl
    | true => rw [hx] at h; cases h
  by_cases hx : Present f.since f.depr f.removed v
  · exact hx
  · have := (C57_version_optional_iff g pl f.since f.depr f.removed hv hm hs hp hd).2 ⟨hg, v, h1, h2, hx⟩
    rw [hn] at this
    cases this

/-- If the code does not depend on versions there are no wrappers. -/
theorem C91_independent (g : GVer) (pl : Place) (f : Field) (hg : g.versionDependent = false) : wrapperOf g pl f = none := by
  unfold wrapperOf versionOpt isVersionOptional
  rw [hg]
  rfl

/-! ## C92 -/

namespace GenVersionProofs

theorem part_iff (fs fd : Nat) (l : List (Nat × Nat)) : (l.any fun w => partWindow fs fd w.1 w.2) = true ↔ Partly fs fd l := by
  unfold Partly partWindow
  simp only [List.any_eq_true, Bool.or_eq_true, decide_eq_true_eq]

theorem part_map {α : Type} (fs fd : Nat) (l : List α) (s d : α → Nat) :
    (l.any fun r => partWindow fs fd (s r) (d r)) = true ↔ Partly fs fd (l.map fun r => (s r, d r)) := by
  rw [← part_iff, List.any_map]
  rfl

/-- The windows of the ranges that were not absorbed. -/
def Wins (l : List RangeInfo) (w : Nat × Nat) : Prop := ∃ r ∈ l, r.depr ≠ 0 ∧ (r.since, r.depr) = w

theorem wins_cons (r : RangeInfo) (l : List RangeInfo) (w : Nat × Nat) : Wins (r :: l) w ↔ (r.depr ≠ 0 ∧ (r.since, r.depr) = w) ∨ Wins l w := by
  unfold Wins
  simp only [List.mem_cons]
  constructor
  · rintro ⟨x, rfl | hx, h⟩
    · exact Or.inl h
    · exact Or.inr ⟨x, hx, h⟩
  · rintro (h | ⟨x, hx, h⟩)
    · exact ⟨r, Or.inl rfl, h⟩
    · exact ⟨x, Or.inr hx, h⟩

theorem mergeMax_win (big : Bool) (a b : RangeInfo) : (mergeMax big a b).since = a.since ∧ (mergeMax big a b).depr = a.depr := by
  unfold mergeMax
  split <;> exact ⟨rfl, rfl⟩

theorem inner_wins (big : Bool) : ∀ (ns : List RangeInfo) (cur : RangeInfo), cur.depr ≠ 0 → ∀ w,
    Wins ((enumMergeInner big true cur ns).1 :: (enumMergeInner big true cur ns).2) w ↔ Wins (cur :: ns) w := by
  intro ns
  induction ns with
  | nil => intro cur _ w; exact Iff.rfl
  | cons n ns ih =>
    intro cur hc w
    unfold enumMergeInner
    split
    · rename_i h0
      have := ih cur hc w
      dsimp only
      rw [wins_cons] at this ⊢
      rw [wins_cons, wins_cons cur, wins_cons n, ← or_assoc, or_comm (b := n.depr ≠ 0 ∧ _), or_assoc, this, wins_cons]
      rw [← or_assoc, ← or_assoc, or_comm (b := cur.depr ≠ 0 ∧ _)]
    · split
      · exact Iff.rfl
      · rename_i h0 h1
        split
        · exact Iff.rfl
        · have hw := mergeMax_win big cur n
          have := ih (mergeMax big cur n) (by rw [hw.2]; exact hc) w
          dsimp only
          rw [wins_cons] at this ⊢
          rw [wins_cons, wins_cons cur, wins_cons n]
          simp only [ne_eq, not_true_eq_false, false_and, false_or]
          rw [this, wins_cons, hw.1, hw.2]
          simp only [Bool.true_and, Bool.or_eq_true, bne_iff_ne, ne_eq, not_or, Decidable.not_not] at h1
          rw [← h1.1, ← h1.2]
          constructor
          · rintro (h | h)
            · exact Or.inl h
            · exact Or.inr (Or.inr h)
          · rintro (h | h | h)
            · exact Or.inl h
            · exact Or.inl h
            · exact Or.inr h

theorem inner_length (big chk : Bool) : ∀ (ns : List RangeInfo) (cur : RangeInfo), (enumMergeInner big chk cur ns).2.length = ns.length := by
  intro ns
  induction ns with
  | nil => intro cur; rfl
  | cons n ns ih =>
    intro cur
    unfold enumMergeInner
    split
    · simp [ih]
    · split
      · rfl
      · split
        · rfl
        · simp [ih]

theorem merge_wins (big : Bool) : ∀ (fuel : Nat) (l : List RangeInfo), l.length ≤ fuel → ∀ w, Wins (enumMerge big true fuel l) w ↔ Wins l w := by
  intro fuel
  induction fuel with
  | zero => intro l hl w; exact Iff.rfl
  | succ fuel ih =>
    intro l hl w
    match l, hl with
    | [], _ => exact Iff.rfl
    | r :: rs, hl =>
      rw [List.length_cons] at hl
      unfold enumMerge
      split
      · rw [wins_cons, wins_cons, ih rs (by omega)]
      · rename_i h0
        dsimp only
        rw [wins_cons, ih _ (by rw [inner_length]; omega), ← wins_cons, inner_wins big rs r h0]

theorem enum_windows {g : GVer} {t : IntType} {st : EnumF.State} {R : List RangeInfo} (hc : checkVersion g st.num.validCheckVersion = true)
    (h : enumRanges g t st = .ok R) (hw : ∀ p ∈ st.values, p.2.since < p.2.depr) (w : Nat × Nat) :
    (∃ r ∈ R, (r.since, r.depr) = w) ↔ ∃ p ∈ st.values, p.2.since ≤ g.version ∧ (p.2.since, p.2.depr) = w := by
  have hs : (∃ r ∈ enumSingles g true st, (r.since, r.depr) = w) ↔ ∃ p ∈ st.values, p.2.since ≤ g.version ∧ (p.2.since, p.2.depr) = w := by
    unfold enumSingles
    constructor
    · rintro ⟨r, hr, e⟩
      obtain ⟨p, hp, rfl⟩ := List.mem_map.1 hr
      obtain ⟨hp, he⟩ := List.mem_filter.1 hp
      refine ⟨p, hp, ?_, e⟩
      unfold doesExist at he
      split at he
      · cases he
      · omega
    · rintro ⟨p, hp, he, e⟩
      refine ⟨_, List.mem_map.2 ⟨p, List.mem_filter.2 ⟨hp, ?_⟩, rfl⟩, e⟩
      unfold doesExist
      rw [if_neg (by omega)]
      rfl
  rw [← hs]
  have hd : ∀ r ∈ enumSingles g true st, r.depr ≠ 0 := by
    intro r hr
    unfold enumSingles at hr
    obtain ⟨p, hp, rfl⟩ := List.mem_map.1 hr
    have := hw p (List.mem_filter.1 hp).1
    dsimp only
    omega
  unfold enumRanges at h
  dsimp only at h
  rw [hc] at h
  split at h
  · cases h
  · split at h
    · cases h; exact Iff.rfl
    · cases h
      have hm := merge_wins (bigBody t) _ (sortBy (enumLt (bigBody t) true) (enumSingles g true st)) (Nat.le_refl _) w
      constructor
      · rintro ⟨r, hr, e⟩
        obtain ⟨hr, hne⟩ := List.mem_filter.1 hr
        obtain ⟨x, hx, _, ex⟩ := hm.1 ⟨r, hr, of_decide_eq_true hne, e⟩
        exact ⟨x, (mem_sortBy _ _ _).1 hx, ex⟩
      · rintro ⟨r, hr, e⟩
        obtain ⟨x, hx, h0, ex⟩ := hm.2 ⟨r, (mem_sortBy _ _ _).2 hr, hd r hr, e⟩
        exact ⟨x, List.mem_filter.2 ⟨hx, decide_eq_true h0⟩, ex⟩


theorem enum_iff {g : GVer} {c : Common} {st : EnumF.State} {b : Bool} (hg : g.versionDependent = true) (h : EnumF.Accepted b st)
    (hr : ∀ t, st.num.type = some t → ∃ R, enumRanges g t st = .ok R) (ht : st.num.type ≠ none) (pl : Place) :
    dependsImpl g pl (.enum c st) = true ↔ OwnReacts g (.enum c st) := by
  obtain ⟨t, ht⟩ := Option.ne_none_iff_exists'.1 ht
  obtain ⟨R, hR⟩ := hr t ht
  unfold dependsImpl
  have e : enumPrepared g st = R := by unfold enumPrepared; rw [ht]; dsimp only; rw [hR]
  rw [e, Bool.and_eq_true, part_map]
  have key : st.num.validCheckVersion = true → (Partly c.w.since c.w.depr (R.map fun r => (r.since, r.depr)) ↔
      Partly c.w.since c.w.depr ((st.values.filter fun p => decide (p.2.since ≤ g.version)).map fun p => (p.2.since, p.2.depr))) := by
    intro hv
    have hw := enum_windows (by unfold checkVersion; rw [hg, hv]; rfl) hR (C77_windows b st h)
    unfold Partly
    constructor
    · rintro ⟨w, hm, hx⟩
      obtain ⟨r, hr, e⟩ := List.mem_map.1 hm
      obtain ⟨p, hp, hle, e⟩ := (hw w).1 ⟨r, hr, e⟩
      exact ⟨w, List.mem_map.2 ⟨p, List.mem_filter.2 ⟨hp, decide_eq_true hle⟩, e⟩, hx⟩
    · rintro ⟨w, hm, hx⟩
      obtain ⟨p, hp, e⟩ := List.mem_map.1 hm
      obtain ⟨hp, hle⟩ := List.mem_filter.1 hp
      obtain ⟨r, hr, e⟩ := (hw w).2 ⟨p, hp, of_decide_eq_true hle, e⟩
      exact ⟨w, List.mem_map.2 ⟨r, hr, e⟩, hx⟩
  constructor
  · rintro ⟨hv, hx⟩
    exact .enum hv ((key hv).1 hx)
  · intro hx
    cases hx with
    | enum hv hx => exact ⟨hv, (key hv).2 hx⟩

theorem any_iff (g : GVer) (pl : Place) (ms : List Field) : dependsAny g pl ms = true ↔ ∃ m ∈ ms, depends g pl m = true := by
  induction ms with
  | nil => simp [dependsAny]
  | cons m ms ih =>
    unfold dependsAny
    rw [Bool.or_eq_true, ih]
    simp only [List.mem_cons, exists_eq_or_imp]
    rfl

theorem slot_iff (g : GVer) (pl : Place) (s : Slot Field) : dependsSlot g pl s = true ↔ ∃ m, s = .own m ∧ depends g pl m = true := by
  cases s with
  | none => simp [dependsSlot]
  | ext m => simp [dependsSlot]
  | own m =>
    unfold dependsSlot
    constructor
    · intro h; exact ⟨m, rfl, h⟩
    · rintro ⟨m', e, h⟩; cases e; exact h

/-- The enums below can be prepared (the generator stops otherwise). -/
def EnumsOk (g : GVer) (f : Field) : Prop := match f with
  | .enum _ st => ∃ t R, st.num.type = some t ∧ enumRanges g t st = .ok R
  | _ => True

theorem impl_iff {g : GVer} {pl : Place} {f : Field} (hg : g.versionDependent = true) (hl : Leaf f) (he : EnumsOk g f) :
    dependsImpl g pl f = true ↔ OwnReacts g f ∨ ∃ pl' m, OwnPart pl f pl' m ∧ depends g pl' m = true := by
  cases f with
  | int c st =>
    unfold dependsImpl
    rw [Bool.and_eq_true, part_map]
    constructor
    · rintro ⟨h1, h2⟩; exact Or.inl (.int h1 h2)
    · rintro (h | ⟨_, _, h, _⟩)
      · cases h with | int h1 h2 => exact ⟨h1, h2⟩
      · cases h
  | float c st =>
    unfold dependsImpl
    rw [Bool.and_eq_true, part_map]
    constructor
    · rintro ⟨h1, h2⟩; exact Or.inl (.float h1 h2)
    · rintro (h | ⟨_, _, h, _⟩)
      · cases h with | float h1 h2 => exact ⟨h1, h2⟩
      · cases h
  | set c st =>
    unfold dependsImpl
    rw [Bool.and_eq_true, part_map]
    constructor
    · rintro ⟨h1, h2⟩; exact Or.inl (.set h1 h2)
    · rintro (h | ⟨_, _, h, _⟩)
      · cases h with | set h1 h2 => exact ⟨h1, h2⟩
      · cases h
  | enum c st =>
    obtain ⟨b, hb⟩ := hl
    obtain ⟨t, R, ht, hR⟩ := he
    rw [enum_iff hg hb (fun t' h => ⟨R, by rw [ht] at h; cases h; exact hR⟩) (by rw [ht]; exact Option.some_ne_none _) pl]
    constructor
    · intro h; exact Or.inl h
    · rintro (h | ⟨_, _, h, _⟩)
      · exact h
      · cases h
  | bitfield c e ms cd =>
    unfold dependsImpl
    rw [any_iff]
    constructor
    · rintro ⟨m, hm, h⟩; exact Or.inr ⟨_, m, .bitfield hm, h⟩
    · rintro (h | ⟨_, _, h, h'⟩)
      · cases h
      · cases h with | bitfield hm => exact ⟨_, hm, h'⟩
  | bundle c ms al cd =>
    unfold dependsImpl
    rw [any_iff]
    constructor
    · rintro ⟨m, hm, h⟩; exact Or.inr ⟨_, m, .bundle hm, h⟩
    · rintro (h | ⟨_, _, h, h'⟩)
      · cases h
      · cases h with | bundle hm => exact ⟨_, hm, h'⟩
  | variant c d ms =>
    unfold dependsImpl
    rw [any_iff]
    constructor
    · rintro ⟨m, hm, h⟩; exact Or.inr ⟨_, m, .variant hm, h⟩
    · rintro (h | ⟨_, _, h, h'⟩)
      · cases h
      · cases h with | variant hm => exact ⟨_, hm, h'⟩
  | optional c st s cd =>
    unfold dependsImpl
    rw [slot_iff]
    constructor
    · rintro ⟨m, rfl, h⟩; exact Or.inr ⟨_, m, .optional, h⟩
    · rintro (h | ⟨_, _, h, h'⟩)
      · cases h
      · cases h with | optional => exact ⟨_, rfl, h'⟩
  | list c st e n l el t =>
    unfold dependsImpl
    simp only [Bool.or_eq_true, slot_iff]
    constructor
    · rintro (⟨m, rfl, h⟩ | ⟨m, rfl, h⟩ | ⟨m, rfl, h⟩ | ⟨m, rfl, h⟩ | ⟨m, rfl, h⟩)
      · exact Or.inr ⟨_, m, .list (Or.inl rfl), h⟩
      · exact Or.inr ⟨_, m, .list (Or.inr (Or.inl rfl)), h⟩
      · exact Or.inr ⟨_, m, .list (Or.inr (Or.inr (Or.inl rfl))), h⟩
      · exact Or.inr ⟨_, m, .list (Or.inr (Or.inr (Or.inr (Or.inl rfl)))), h⟩
      · exact Or.inr ⟨_, m, .list (Or.inr (Or.inr (Or.inr (Or.inr rfl)))), h⟩
    · rintro (h | ⟨_, _, h, h'⟩)
      · cases h
      · cases h with
        | list hm =>
          rcases hm with rfl | rfl | rfl | rfl | rfl
          · exact Or.inl ⟨_, rfl, h'⟩
          · exact Or.inr (Or.inl ⟨_, rfl, h'⟩)
          · exact Or.inr (Or.inr (Or.inl ⟨_, rfl, h'⟩))
          · exact Or.inr (Or.inr (Or.inr (Or.inl ⟨_, rfl, h'⟩)))
          · exact Or.inr (Or.inr (Or.inr (Or.inr ⟨_, rfl, h'⟩)))
  | string c st p =>
    unfold dependsImpl
    constructor
    · intro h; cases h
    · rintro (h | ⟨_, _, h, _⟩) <;> cases h
  | data c st p =>
    unfold dependsImpl
    constructor
    · intro h; cases h
    · rintro (h | ⟨_, _, h, _⟩) <;> cases h
  | ref c b t =>
    unfold dependsImpl
    constructor
    · intro h; cases h
    · rintro (h | ⟨_, _, h, _⟩) <;> cases h

theorem ownPart_sub {pl pl' : Place} {f m : Field} (h : OwnPart pl f pl' m) : m ∈ f.subs := by
  cases h with
  | bitfield h => exact h
  | bundle h => exact h
  | variant h => exact h
  | optional => exact List.mem_singleton.2 rfl
  | list h =>
    simp only [Field.subs, List.mem_append]
    rcases h with rfl | rfl | rfl | rfl | rfl <;> simp [Slot.toList]

theorem wrapped_iff (g : GVer) (pl : Place) (f : Field) : wrapperOf g pl f ≠ none ↔ versionOpt g pl f = true := by
  unfold wrapperOf
  cases versionOpt g pl f <;> simp

end GenVersionProofs
open GenVersionProofs


/-- The generator takes a field for dependent on the version iff the code depends on versions and the field, or a field defined inside, is wrapped or has valid
    values of its own versions. -/
theorem C92_hint (g : GVer) (f : Field) (ho : Obj f) (he : Hered (EnumsOk g) f) : ∀ pl, depends g pl f = true ↔ g.versionDependent = true ∧ Reacts OwnPart g pl f := by
  have hl := obj_leaf ho
  clear ho
  induction hl with
  | @mk f h1 h2 ih =>
    intro pl
    cases he with
    | mk e1 e2 =>
      cases hg : g.versionDependent with
      | false =>
        unfold depends
        rw [hg]
        simp
      | true =>
        unfold depends
        rw [hg, Bool.true_and, Bool.or_eq_true, impl_iff hg h1 e1, ← wrapped_iff]
        constructor
        · rintro (h | h | ⟨pl', m, hm, h⟩)
          · exact ⟨rfl, .wrapped h⟩
          · exact ⟨rfl, .valid h⟩
          · exact ⟨rfl, .part hm ((ih m (ownPart_sub hm) (e2 m (ownPart_sub hm)) pl').1 h).2⟩
        · rintro ⟨_, h⟩
          cases h with
          | wrapped h => exact Or.inl h
          | valid h => exact Or.inr (Or.inl h)
          | part hm h => exact Or.inr (Or.inr ⟨_, _, hm, (ih _ (ownPart_sub hm) (e2 _ (ownPart_sub hm)) _).2 ⟨hg, h⟩⟩)

/-- `HasVersionDependentMembers` is given with `true` iff the code depends on versions and a part is wrapped or has valid values of its own versions, or has such
    parts. -/
theorem C92_members_option (g : GVer) (pl : Place) (f : Field) (b : Bool) (ho : Obj f) (he : Hered (EnumsOk g) f) (h : membersOption g pl f = some b) :
    b = true ↔ g.versionDependent = true ∧ ∃ pl' m, OwnPart pl f pl' m ∧ Reacts OwnPart g pl' m := by
  have hs : ∀ m ∈ f.subs, Obj m := fun m hm => .inner ho hm
  have hh : ∀ pl' m, OwnPart pl f pl' m → (depends g pl' m = true ↔ g.versionDependent = true ∧ Reacts OwnPart g pl' m) := by
    intro pl' m hm
    cases he with
    | mk e1 e2 => exact C92_hint g m (hs m (ownPart_sub hm)) (e2 m (ownPart_sub hm)) pl'
  have key : (∃ pl' m, OwnPart pl f pl' m ∧ depends g pl' m = true) ↔ g.versionDependent = true ∧ ∃ pl' m, OwnPart pl f pl' m ∧ Reacts OwnPart g pl' m := by
    constructor
    · rintro ⟨pl', m, hm, h⟩
      have := (hh pl' m hm).1 h
      exact ⟨this.1, pl', m, hm, this.2⟩
    · rintro ⟨hg, pl', m, hm, h⟩
      exact ⟨pl', m, hm, (hh pl' m hm).2 ⟨hg, h⟩⟩
  rw [← key]
  unfold membersOption at h
  split at h
  · cases h
    unfold dependsImpl
    rw [any_iff]
    constructor
    · rintro ⟨m, hm, h⟩; exact ⟨_, m, .bitfield hm, h⟩
    · rintro ⟨_, _, h, h'⟩; cases h with | bitfield hm => exact ⟨_, hm, h'⟩
  · cases h
    unfold dependsImpl
    rw [any_iff]
    constructor
    · rintro ⟨m, hm, h⟩; exact ⟨_, m, .bundle hm, h⟩
    · rintro ⟨_, _, h, h'⟩; cases h with | bundle hm => exact ⟨_, hm, h'⟩
  · cases h
    unfold dependsImpl
    rw [any_iff]
    constructor
    · rintro ⟨m, hm, h⟩; exact ⟨_, m, .variant hm, h⟩
    · rintro ⟨_, _, h, h'⟩; cases h with | variant hm => exact ⟨_, hm, h'⟩
  · cases h

/-- No part is missed if all of them are defined inside; `C92_ref_witness` is about the others. -/
theorem C92_complete_partial (g : GVer) (pl : Place) (f : Field) (ho : Obj f) (he : Hered (EnumsOk g) f) (hg : g.versionDependent = true) (hs : SelfContained pl f)
    (h : Reacts AnyPart g pl f) : depends g pl f = true := by
  have key : ∀ pl f, Reacts AnyPart g pl f → SelfContained pl f → Reacts OwnPart g pl f := by
    intro pl f h
    induction h with
    | wrapped h => intro _; exact .wrapped h
    | valid h => intro _; exact .valid h
    | part hm _ ih =>
      intro hs
      cases hs with
      | mk h1 h2 => exact .part (h1 _ _ hm) (ih (h2 _ _ (h1 _ _ hm)))
  exact (C92_hint g f ho he pl).2 ⟨hg, key pl f h hs⟩

/-- For an `<int>` that does not react, `valid()` gives the same for all versions the field is in. -/
theorem C92_int (g : GVer) (c : Common) (st : IntF.State) (t : IntType) (names : Str → Option Int) (opts : List VOpt) (v1 v2 : Nat) (x : Int)
    (h : ¬ OwnReacts g (.int c st)) (h1 : c.w.since ≤ v1 ∧ v1 < c.w.depr) (h2 : c.w.since ≤ v2 ∧ v2 < c.w.depr) :
    Valid names opts (intBody g t st.validCheckVersion st.validRanges) v1 x ↔ Valid names opts (intBody g t st.validCheckVersion st.validRanges) v2 x := by
  unfold intBody
  split
  · exact Iff.rfl
  · rename_i hc
    have hv : st.validCheckVersion = true := by
      unfold checkVersion at hc
      cases hx : st.validCheckVersion with
      | true => rfl
      | false => rw [hx] at hc; simp at hc
    have hw : ∀ r ∈ st.validRanges, r.since ≤ c.w.since ∧ c.w.depr ≤ r.depr := by
      intro r hr
      refine Decidable.byContradiction fun hn => h (.int hv ⟨_, List.mem_map.2 ⟨r, hr, rfl⟩, ?_⟩)
      show c.w.since < r.since ∨ r.depr < c.w.depr
      omega
    dsimp only
    split
    · exact Iff.rfl
    · have one : ∀ ck ∈ (st.validRanges.filter fun r => isOptional g r.since r.depr true).map (intCheck t), Holds ck v1 x ↔ Holds ck v2 x := by
        intro ck hck
        obtain ⟨r, hr, rfl⟩ := List.mem_map.1 hck
        have := hw r (List.mem_filter.1 hr).1
        have hf : ∀ v, c.w.since ≤ v → (∀ n, (intCheck t r).frm = some n → n ≤ v) := by
          intro v hv n hn
          unfold intCheck at hn
          dsimp only at hn
          split at hn
          · cases hn; omega
          · cases hn
        have hu : ∀ v, v < c.w.depr → (∀ n, (intCheck t r).upto = some n → v < n) := by
          intro v hv n hn
          unfold intCheck at hn
          dsimp only at hn
          split at hn
          · cases hn; omega
          · cases hn
        unfold Spec.Holds
        constructor
        · rintro ⟨_, _, h⟩; exact ⟨hf v2 h2.1, hu v2 h2.2, h⟩
        · rintro ⟨_, _, h⟩; exact ⟨hf v1 h1.1, hu v1 h1.2, h⟩
      unfold Valid
      dsimp only
      constructor
      · rintro (h | ⟨ck, hck, h⟩)
        · exact Or.inl h
        · exact Or.inr ⟨ck, hck, (one ck hck).1 h⟩
      · rintro (h | ⟨ck, hck, h⟩)
        · exact Or.inl h
        · exact Or.inr ⟨ck, hck, (one ck hck).2 h⟩

/-- The same for an `<enum>`. -/
theorem C92_enum (g : GVer) (c : Common) (st : EnumF.State) (b : Bool) (ha : EnumF.Accepted b st) (t : IntType) (R : List RangeInfo) (names : Str → Option Int)
    (opts : List VOpt) (v1 v2 : Nat) (x : Int) (hR : enumRanges g t st = .ok R)
    (h : ¬ OwnReacts g (.enum c st)) (h1 : c.w.since ≤ v1 ∧ v1 < c.w.depr) (h2 : c.w.since ≤ v2 ∧ v2 < c.w.depr) :
    Valid names opts (enumBody g t st R) v1 x ↔ Valid names opts (enumBody g t st R) v2 x := by
  unfold enumBody
  split
  · split <;> exact Iff.rfl
  · rename_i hc
    have hc : checkVersion g st.num.validCheckVersion = true := by simpa using hc
    have hv : st.num.validCheckVersion = true := by
      unfold checkVersion at hc
      rw [Bool.and_eq_true] at hc
      exact hc.2
    have hw : ∀ r ∈ R, r.since ≤ c.w.since ∧ c.w.depr ≤ r.depr := by
      intro r hr
      obtain ⟨p, hp, hle, e⟩ := (enum_windows hc hR (C77_windows b st ha) (r.since, r.depr)).1 ⟨r, hr, rfl⟩
      have e1 : p.2.since = r.since := congrArg Prod.fst e
      have e2 : p.2.depr = r.depr := congrArg Prod.snd e
      refine Decidable.byContradiction fun hn => h (.enum hv ⟨_, List.mem_map.2 ⟨p, List.mem_filter.2 ⟨hp, decide_eq_true hle⟩, rfl⟩, ?_⟩)
      show c.w.since < p.2.since ∨ p.2.depr < c.w.depr
      omega
    have one : ∀ ck ∈ (R.filter fun r => !uncond r).map (enumCheck t), Holds ck v1 x ↔ Holds ck v2 x := by
      intro ck hck
      obtain ⟨r, hr, rfl⟩ := List.mem_map.1 hck
      have := hw r (List.mem_filter.1 hr).1
      have hf : ∀ v, c.w.since ≤ v → (∀ n, (enumCheck t r).frm = some n → n ≤ v) := by
        intro v hv n hn
        unfold enumCheck at hn
        dsimp only at hn
        split at hn
        · cases hn
        · cases hn; omega
      have hu : ∀ v, v < c.w.depr → (∀ n, (enumCheck t r).upto = some n → v < n) := by
        intro v hv n hn
        unfold enumCheck at hn
        dsimp only at hn
        split at hn
        · cases hn
        · cases hn; omega
      unfold Spec.Holds
      constructor
      · rintro ⟨_, _, h⟩; exact ⟨hf v2 h2.1, hu v2 h2.2, h⟩
      · rintro ⟨_, _, h⟩; exact ⟨hf v1 h1.1, hu v1 h1.2, h⟩
    unfold Valid
    dsimp only
    constructor
    · rintro (h | ⟨ck, hck, h⟩)
      · exact Or.inl h
      · exact Or.inr ⟨ck, hck, (one ck hck).1 h⟩
    · rintro (h | ⟨ck, hck, h⟩)
      · exact Or.inl h
      · exact Or.inr ⟨ck, hck, (one ck hck).2 h⟩

/-- The same for a `<set>`: there are no conditions about versions at all. -/
theorem C92_set (g : GVer) (c : Common) (st : SetF.State) (conds : List SetCond) (v1 v2 : Nat) (x : BitVec 64) (hc : setConds g c.w.since c.w.depr st = .ok conds)
    (h : ¬ OwnReacts g (.set c st)) :
    SetValid (setOpts g c.w.since c.w.depr st) conds v1 x ↔ SetValid (setOpts g c.w.since c.w.depr st) conds v2 x := by
  have e : conds = [] := by
    unfold setConds at hc
    split at hc
    · cases hc; rfl
    · rename_i hk
      have hv : st.validCheckVersion = true := by
        unfold checkVersion at hk
        cases hx : st.validCheckVersion with
        | true => rfl
        | false => rw [hx] at hk; simp at hk
      have hw : ∀ p ∈ (sortedBits st).map Prod.snd, handled g c.w.since c.w.depr p = false := by
        intro p hp
        obtain ⟨q, hq, rfl⟩ := List.mem_map.1 hp
        have hq : q ∈ st.bits := (mem_sortBy _ _ _).1 hq
        have : q.2.since ≤ c.w.since ∧ c.w.depr ≤ q.2.depr := by
          refine Decidable.byContradiction fun hn => h (.set hv ⟨_, List.mem_map.2 ⟨q, hq, rfl⟩, ?_⟩)
          show c.w.since < q.2.since ∨ q.2.depr < c.w.depr
          omega
        unfold handled
        rw [decide_eq_true this.1, decide_eq_true this.2]
        rfl
      have hb : ∀ (l : List SetF.BitInfo) (a : SetAcc), (∀ p ∈ l, handled g c.w.since c.w.depr p = false) → addBits g c.w.since c.w.depr a l = .ok a := by
        intro l
        induction l with
        | nil => intro a _; rfl
        | cons p l ih =>
          intro a hp
          unfold addBits addBit
          rw [hp p List.mem_cons_self]
          simp only [Bool.not_false, if_true, Res.bind_ok]
          exact ih a fun q hq => hp q (List.mem_cons_of_mem _ hq)
      rw [hb _ _ hw] at hc
      cases hc
      rfl
  subst e
  unfold SetValid
  simp

/-- The same for a `<float>`. -/
theorem C92_float (g : GVer) (c : Common) (st : FloatState) (double : Bool) (v1 v2 : Nat) (x : FloatF.Dbl)
    (h : ¬ OwnReacts g (.float c st)) :
    FloatValid double (floatOpts g st.validCheckVersion c.w.since c.w.depr st.validRanges) (floatBody g double st.validCheckVersion c.w.since c.w.depr st.validRanges) v1 x ↔
      FloatValid double (floatOpts g st.validCheckVersion c.w.since c.w.depr st.validRanges) (floatBody g double st.validCheckVersion c.w.since c.w.depr st.validRanges) v2 x := by
  unfold floatBody
  rw [if_neg]
  · unfold FloatValid plainCheck
    have one : ∀ ck ∈ st.validRanges.map (fun r => (⟨none, none, rangeCmp double r⟩ : FCheck)), ck.frm = none ∧ ck.upto = none := by
      intro ck hck
      obtain ⟨r, hr, rfl⟩ := List.mem_map.1 hck
      exact ⟨rfl, rfl⟩
    have imp : ∀ v v' : Nat, (∃ ck ∈ st.validRanges.map (fun r => (⟨none, none, rangeCmp double r⟩ : FCheck)), (∀ n, ck.frm = some n → n ≤ v) ∧ (∀ n, ck.upto = some n → v < n) ∧ FCmpHolds double x ck.cmp) →
        (∃ ck ∈ st.validRanges.map (fun r => (⟨none, none, rangeCmp double r⟩ : FCheck)), (∀ n, ck.frm = some n → n ≤ v') ∧ (∀ n, ck.upto = some n → v' < n) ∧ FCmpHolds double x ck.cmp) := by
      rintro v v' ⟨ck, hck, _, _, hx⟩
      have := one ck hck
      exact ⟨ck, hck, fun n hn => by rw [this.1] at hn; (cases hn), fun n hn => by rw [this.2] at hn; (cases hn), hx⟩
    exact or_congr Iff.rfl ⟨imp v1 v2, imp v2 v1⟩
  · rw [Bool.and_eq_true]
    rintro ⟨h1, h2⟩
    unfold checkVersion at h1
    rw [Bool.and_eq_true] at h1
    exact h (.float h1.2 ((part_map _ _ _ _ _).1 h2))

namespace GenVersionSample
open Sample

/-- Code for the versions up to 3. -/
def gver : GVer := { parsed := 3, versionDependent := true }

def late : Xml := el "validRange" [("value", "[6, 9]"), ("sinceVersion", "2")]
def early : Xml := el "validRange" [("value", "[0, 5]")]

/-- A field with a valid range that comes in version 2. -/
def ranged (name : String) : Xml := el "int" [("name", name), ("type", "uint8"), ("validCheckVersion", "true")] [early, late]

end GenVersionSample
open GenVersionSample

open Sample in
/-- A member that is not there in all versions, or has a valid range that is not, makes the bundle pass on versions: the hypotheses of the theorems above. -/
example : ∃ f, Spec.Accepted f ∧ Hered (EnumsOk gver) f ∧ SelfContained .other f ∧ membersOption gver .other f = some true := by
  obtain ⟨f, h1, h2⟩ := accepted env0_ok (parent := .top) (x := el "bundle" [("name", "b")] [ranged "r", el "int" [("name", "s"), ("type", "uint8")]])
    (p := fun f => membersOption gver .other f == some true && match f with
      | .bundle _ [.int _ _, .int _ _] _ _ => true
      | _ => false) (by decide +kernel)
  rw [Bool.and_eq_true] at h2
  obtain ⟨h2, h3⟩ := h2
  split at h3
  · refine ⟨_, h1, .mk (by unfold EnumsOk; trivial) ?_, .mk ?_ ?_, by simpa using h2⟩
    · intro m hm
      simp only [Field.subs, List.mem_cons, List.not_mem_nil, or_false] at hm
      rcases hm with rfl | rfl <;> exact .mk (by unfold EnumsOk; trivial) (by simp [Field.subs])
    · intro pl' m hm
      cases hm with | own h => exact h
    · intro pl' m hm
      cases hm with
      | bundle hm =>
        simp only [List.mem_cons, List.not_mem_nil, or_false] at hm
        rcases hm with rfl | rfl
        · exact .mk (fun _ _ h => by cases h with | own h => exact h) (fun _ _ h => by cases h)
        · exact .mk (fun _ _ h => by cases h with | own h => exact h) (fun _ _ h => by cases h)
  · cases h3

open Sample in
/-- A field of versions 1 and 2 in a message of all versions: the hypotheses of `C91_wrapper`. -/
example : ∃ f w, Spec.Accepted f ∧ wrapperOf gver (.message 0) f = some w ∧ w = ⟨true, .between 1 2⟩ ∧ f.since < f.depr ∧ gver.minRemote ≤ gver.version := by
  obtain ⟨f, h1, h2⟩ := accepted env0_ok (parent := .message 0 4294967295)
    (x := el "int" [("name", "x"), ("type", "uint8"), ("sinceVersion", "1"), ("deprecated", "3"), ("removed", "true")])
    (p := fun f => decide (wrapperOf gver (.message 0) f = some ⟨true, .between 1 2⟩) && decide (f.since < f.depr)) (by decide +kernel)
  rw [Bool.and_eq_true] at h2
  exact ⟨f, _, h1, of_decide_eq_true h2.1, rfl, of_decide_eq_true h2.2, by decide⟩

open Sample in
/-- A field of a message that came in the same version, in code that depends on versions: the hypotheses of `C91_no_wrapper`. -/
example : ∃ f, Spec.Accepted f ∧ wrapperOf gver (.message 2) f = none ∧ f.since = 2 ∧ (Place.message 2).since ≤ f.since ∧ f.since ≤ gver.version ∧ gver.version < Versions.notYet ∧
    gver.versionDependent = true ∧ f.depr = Versions.notYet := by
  obtain ⟨f, h1, h2⟩ := accepted env0_ok (parent := .message 2 4294967295) (x := el "int" [("name", "x"), ("type", "uint8")])
    (p := fun f => decide (wrapperOf gver (.message 2) f = none) && (decide (f.since = 2) && decide (f.depr = Versions.notYet))) (by decide +kernel)
  simp only [Bool.and_eq_true, decide_eq_true_eq] at h2
  exact ⟨f, h1, h2.1, h2.2.1, by rw [h2.2.1]; exact Nat.le_refl _, by rw [h2.2.1]; decide, by decide, rfl, h2.2.2⟩

open Sample in
/-- Refutation for parts that are referred to: what is valid for the field behind the `<ref>` depends on the version, but the bundle is told that the version
    matters for no member. -/
theorem C92_ref_witness : ∃ f, Spec.Accepted f ∧ membersOption gver .other f = some false ∧ depends gver .other f = false ∧ Reacts AnyPart gver .other f ∧
    ∃ (r m : Field) (c : Common) (st : IntF.State) (t : IntType) (opts : List VOpt), AnyPart .other f (.field 0 .other) r ∧ AnyPart (.field 0 .other) r .other m ∧ m = .int c st ∧
      st.type = some t ∧ intOpts gver t st.length st.validCheckVersion st.validRanges = .ok opts ∧
      Valid (fun _ => none) opts (intBody gver t st.validCheckVersion st.validRanges) 2 7 ∧ ¬ Valid (fun _ => none) opts (intBody gver t st.validCheckVersion st.validRanges) 1 7 := by
  obtain ⟨f, h1, h2⟩ := accepted (withGlobal_ok env0_ok "r" (ranged "r")) (parent := .top)
    (x := el "bundle" [("name", "b")] [el "ref" [("name", "x"), ("field", "r")]])
    (p := fun f => decide (membersOption gver .other f = some false) && (decide (depends gver .other f = false) && match f with
      | .bundle bc [.ref _ _ (.ext (.int c st))] _ _ => decide (bc.w.since = 0) && (decide (c.w.since = 0) && decide (st.type = some .uint8 ∧ st.length = 1 ∧ st.validCheckVersion = true ∧
          st.validRanges = [⟨0, 5, 0, Versions.notYet⟩, ⟨6, 9, 2, Versions.notYet⟩]))
      | _ => false)) (by decide +kernel)
  simp only [Bool.and_eq_true, decide_eq_true_eq] at h2
  obtain ⟨e1, e2, e3⟩ := h2
  split at e3
  · rename_i bc rc rb c st al cd
    simp only [Bool.and_eq_true, decide_eq_true_eq] at e3
    obtain ⟨e3, e4, e5, el, e6, e7⟩ := e3
    have hr : OwnReacts gver (.int c st) := .int e6 ⟨(2, Versions.notYet), by rw [e7]; decide, Or.inl (by rw [e4]; decide)⟩
    refine ⟨_, h1, e1, e2, .part (.own (.bundle List.mem_cons_self)) (.part .refTo (.valid hr)),
      _, _, c, st, .uint8, [.range 0 5, .versionStorage], by have := AnyPart.own (OwnPart.bundle (pl := .other) (c := bc) (al := al) (cd := cd) (List.mem_cons_self (a := Field.ref rc rb (.ext (.int c st))) (l := []))); rw [e3] at this; exact this,
      .refTo, rfl, e5, ?_, ?_, ?_⟩
    · rw [el, e6, e7]
      decide +kernel
    · rw [e6, e7]
      refine Or.inr ⟨intCheck .uint8 ⟨6, 9, 2, Versions.notYet⟩, by decide, ?_⟩
      refine ⟨?_, ?_, by decide, by decide⟩
      · intro n hn
        have : n = 2 := by simpa [intCheck] using hn.symm
        omega
      · intro n hn
        have : (intCheck .uint8 ⟨6, 9, 2, Versions.notYet⟩).upto = none := by decide
        rw [this] at hn
        cases hn
    · rw [e6, e7]
      intro h
      have hb : intBody gver .uint8 true [⟨0, 5, 0, Versions.notYet⟩, ⟨6, 9, 2, Versions.notYet⟩] = .anyOf [intCheck .uint8 ⟨6, 9, 2, Versions.notYet⟩] := by decide
      rw [hb] at h
      rcases h with h | ⟨ck, hck, h⟩
      · rcases h with ⟨o, ho, a, b, e, h1, h2⟩ | ⟨h, _⟩
        · simp only [List.mem_cons, List.not_mem_nil, or_false] at ho
          rcases ho with rfl | rfl
          · cases e; omega
          · cases e
        · have := h _ List.mem_cons_self
          cases this
      · simp only [List.mem_cons, List.not_mem_nil, or_false] at hck
        subst hck
        have := h.1 2 (by decide)
        omega
  · cases e3

open Sample in
/-- The other way: in a bundle of version 2 the member asks for the version, which it has only to tell whether its range of version 2 is there, and the bundle is told
    that the version matters for no member. -/
theorem C92_storage_witness : ∃ f c st opts, Spec.Accepted f ∧ membersOption gver (.message 2) f = some false ∧ OwnPart (.message 2) f (.field 2 (.message 2)) (.int c st) ∧
    st.type = some .uint8 ∧ intOpts gver .uint8 st.length st.validCheckVersion st.validRanges = .ok opts ∧ VOpt.versionStorage ∈ opts ∧
    ∃ cs, intBody gver .uint8 st.validCheckVersion st.validRanges = .anyOf cs ∧ ∃ ck ∈ cs, ck.frm = some 2 := by
  obtain ⟨f, h1, h2⟩ := accepted env0_ok (parent := .message 2 4294967295)
    (x := el "bundle" [("name", "b")] [el "int" [("name", "x"), ("type", "uint8"), ("validCheckVersion", "true")] [early]])
    (p := fun f => decide (membersOption gver (.message 2) f = some false) && match f with
      | .bundle bc [.int _ st] _ _ => decide (bc.w.since = 2) && decide (st.type = some .uint8 ∧ st.length = 1 ∧ st.validCheckVersion = true ∧
          st.validRanges = [⟨0, 5, 2, Versions.notYet⟩])
      | _ => false) (by decide +kernel)
  simp only [Bool.and_eq_true, decide_eq_true_eq] at h2
  obtain ⟨e1, e3⟩ := h2
  split at e3
  · rename_i bc c st al cd
    simp only [Bool.and_eq_true, decide_eq_true_eq] at e3
    obtain ⟨e3, e5, el, e6, e7⟩ := e3
    refine ⟨_, c, st, [.versionStorage, .invalidByDefault], h1, e1,
      by have := OwnPart.bundle (pl := .message 2) (c := bc) (al := al) (cd := cd) (List.mem_cons_self (a := Field.int c st) (l := [])); rw [e3] at this; exact this, e5, ?_, by decide,
      [intCheck .uint8 ⟨0, 5, 2, Versions.notYet⟩], ?_, _, List.mem_cons_self, rfl⟩
    · rw [el, e6, e7]
      decide +kernel
    · rw [e6, e7]
      decide
  · cases e3

end Commsdsl.Props
