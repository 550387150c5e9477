import Verif.Props.GenValid
import Verif.Props.EnumField
import Verif.Lemmas.GenSchema
/-!
# C77 (generated validity checks of `<enum>` fields)
-/
namespace Commsdsl.Props
open Commsdsl Text IntF Spec Gen

namespace GenEnumProofs
open GenValidProofs

def win (r : RangeInfo) : Nat × Nat := (r.since, r.depr)

/-- The pair of versions and the value are covered by a range that was not absorbed. -/
def Cov (big chk : Bool) (l : List RangeInfo) (w : Nat × Nat) (v : Int) : Prop :=
  ∃ r ∈ l, r.depr ≠ 0 ∧ (chk = true → win r = w) ∧ InR big r v

def T (big chk : Bool) (a b : RangeInfo) : Prop := a.depr ≠ 0 → b.depr ≠ 0 → (chk = true → win a = win b) → rd big a.min ≤ rd big b.min

theorem Cov_cons (big chk : Bool) (r : RangeInfo) (l : List RangeInfo) (w : Nat × Nat) (v : Int) :
    Cov big chk (r :: l) w v ↔ (r.depr ≠ 0 ∧ (chk = true → win r = w) ∧ InR big r v) ∨ Cov big chk l w v := by
  unfold Cov
  simp only [List.mem_cons]
  constructor
  · rintro ⟨x, hx | hx, h⟩
    · subst hx; exact Or.inl h
    · exact Or.inr ⟨x, hx, h⟩
  · rintro (h | ⟨x, hx, h⟩)
    · exact ⟨r, Or.inl rfl, h⟩
    · exact ⟨x, Or.inr hx, h⟩

theorem noGap {big : Bool} {a b : RangeInfo} (h : enumGap big a b = false) (h1 : rd big a.min ≤ rd big b.min) (hb : rd big b.min ≤ rd big b.max)
    (ib : i64Min ≤ b.max ∧ b.max ≤ i64Max) (v : Int) : InR big (mergeMax big a b) v ↔ InR big a v ∨ InR big b v := by
  unfold InR
  rw [mergeMax_max, (mergeMax_same big a b).1]
  have hg : rd big b.min ≤ rd big a.max + 1 ∨ rd big b.max ≤ rd big a.max := by
    unfold enumGap at h
    cases big with
    | true =>
      simp only [if_true, Bool.and_eq_false_iff, decide_eq_false_iff_not] at h
      simp only [rd_true]
      unfold castU64 at h
      omega
    | false =>
      simp only [Bool.false_eq_true, if_false, Bool.and_eq_false_iff, decide_eq_false_iff_not] at h
      simp only [rd_false] at *
      omega
  omega

/-- All bounds are 64 bit numbers, in order, and have the property. -/
def Sane (big : Bool) (Q : Int → Prop) (r : RangeInfo) : Prop :=
  (i64Min ≤ r.min ∧ r.min ≤ i64Max) ∧ (i64Min ≤ r.max ∧ r.max ≤ i64Max) ∧ rd big r.min ≤ rd big r.max ∧ Q r.min ∧ Q r.max

theorem mergeMax_sane {big : Bool} {Q : Int → Prop} {a b : RangeInfo} (ha : Sane big Q a) (hb : Sane big Q b) : Sane big Q (mergeMax big a b) := by
  have hs := mergeMax_same big a b
  refine ⟨by rw [hs.1]; exact ha.1, ?_, ?_, by rw [hs.1]; exact ha.2.2.2.1, ?_⟩
  · rcases hs.2.2.2 with h | h <;> rw [h]
    · exact ha.2.1
    · exact hb.2.1
  · rw [mergeMax_max, hs.1]
    have := ha.2.2.1
    omega
  · rcases hs.2.2.2 with h | h <;> rw [h]
    · exact ha.2.2.2.2
    · exact hb.2.2.2.2

/-- What one pass of the inner loop keeps. -/
structure InnerKept (big chk : Bool) (Q : Int → Prop) (cur : RangeInfo) (ns : List RangeInfo) (res : RangeInfo × List RangeInfo) : Prop where
  cov : ∀ w v, Cov big chk (res.1 :: res.2) w v ↔ Cov big chk (cur :: ns) w v
  same : res.1.min = cur.min ∧ res.1.since = cur.since ∧ res.1.depr = cur.depr
  sane : Sane big Q res.1 ∧ ∀ r ∈ res.2, Sane big Q r
  sorted : (res.1 :: res.2).Pairwise (T big chk)
  sub : ((res.2.filter fun r => r.depr ≠ 0).map win).Sublist ((ns.filter fun r => r.depr ≠ 0).map win)
  len : res.2.length = ns.length

theorem T_sameL {big chk : Bool} {a a' b : RangeInfo} (h1 : a'.min = a.min) (h2 : a'.since = a.since) (h3 : a'.depr = a.depr) (h : T big chk a b) : T big chk a' b := by
  unfold T win at *
  rw [h1, h2, h3]
  exact h

theorem inner (big chk : Bool) (Q : Int → Prop) : ∀ (ns : List RangeInfo) (cur : RangeInfo), cur.depr ≠ 0 → Sane big Q cur → (∀ r ∈ ns, Sane big Q r) →
    (cur :: ns).Pairwise (T big chk) → InnerKept big chk Q cur ns (enumMergeInner big chk cur ns) := by
  intro ns
  induction ns with
  | nil =>
    intro cur _ hc _ hs
    exact ⟨fun _ _ => Iff.rfl, ⟨rfl, rfl, rfl⟩, ⟨hc, fun r hr => by simp [enumMergeInner] at hr⟩, hs, by simp [enumMergeInner], rfl⟩
  | cons n ns ih =>
    intro cur hd hc hn hs
    have hsn := (List.pairwise_cons.1 hs)
    have hsn2 := List.pairwise_cons.1 hsn.2
    have hcn : (cur :: ns).Pairwise (T big chk) := List.pairwise_cons.2 ⟨fun y hy => hsn.1 y (by simp [hy]), hsn2.2⟩
    simp only [enumMergeInner]
    split
    · rename_i h0
      have hk := ih cur hd hc (fun r hr => hn r (by simp [hr])) hcn
      refine ⟨fun w v => ?_, hk.same, ⟨hk.sane.1, fun r hr => ?_⟩, ?_, ?_, by simp [hk.len]⟩
      · have := hk.cov w v
        simp only [Cov_cons, h0, ne_eq, not_true, false_and, false_or] at this ⊢
        exact this
      · rcases List.mem_cons.1 hr with hr | hr
        · subst hr; exact hn r (by simp)
        · exact hk.sane.2 r hr
      · have hp := List.pairwise_cons.1 hk.sorted
        refine List.pairwise_cons.2 ⟨fun y hy => ?_, List.pairwise_cons.2 ⟨fun y hy h => absurd h0 h, hp.2⟩⟩
        rcases List.mem_cons.1 hy with hy | hy
        · subst hy; exact fun _ h => absurd h0 h
        · exact hp.1 y hy
      · simpa [List.filter_cons, h0] using hk.sub
    · rename_i h0
      have hstop : InnerKept big chk Q cur (n :: ns) (cur, n :: ns) :=
        ⟨fun _ _ => Iff.rfl, ⟨rfl, rfl, rfl⟩, ⟨hc, hn⟩, hs, List.Sublist.refl _, rfl⟩
      split
      · exact hstop
      · rename_i hw
        split
        · exact hstop
        · rename_i hg
          have hwin : chk = true → win cur = win n := by
            intro hchk
            simp only [hchk, Bool.true_and, Bool.or_eq_true, bne_iff_ne, ne_eq, not_or, Decidable.not_not] at hw
            unfold win
            rw [hw.1, hw.2]
          have hle : rd big cur.min ≤ rd big n.min := hsn.1 n (by simp) hd h0 hwin
          have hms := mergeMax_same big cur n
          have hsane := mergeMax_sane hc (hn n (by simp))
          have hsort : (mergeMax big cur n :: ns).Pairwise (T big chk) :=
            List.pairwise_cons.2 ⟨fun y hy => T_sameL hms.1 hms.2.1 hms.2.2.1 (hsn.1 y (by simp [hy])), hsn2.2⟩
          have hk := ih (mergeMax big cur n) (by rw [hms.2.2.1]; exact hd) hsane (fun r hr => hn r (by simp [hr])) hsort
          refine ⟨fun w v => ?_, ⟨hk.same.1.trans hms.1, hk.same.2.1.trans hms.2.1, hk.same.2.2.trans hms.2.2.1⟩, ⟨hk.sane.1, fun r hr => ?_⟩, ?_, ?_, by simp [hk.len]⟩
          · have h1 := hk.cov w v
            have h2 := noGap (Bool.eq_false_iff.2 hg) hle (hn n (by simp)).2.2.1 (hn n (by simp)).2.1 v
            have h3 : win (mergeMax big cur n) = win cur := by unfold win; rw [hms.2.1, hms.2.2.1]
            simp only [Cov_cons, ne_eq, not_true, false_and, false_or] at h1 ⊢
            rw [h1, h2, h3, hms.2.2.1]
            constructor
            · rintro (⟨a, b, c | c⟩ | h)
              · exact Or.inl ⟨a, b, c⟩
              · exact Or.inr (Or.inl ⟨h0, fun hchk => (hwin hchk) ▸ b hchk, c⟩)
              · exact Or.inr (Or.inr h)
            · rintro (⟨a, b, c⟩ | ⟨a, b, c⟩ | h)
              · exact Or.inl ⟨a, b, Or.inl c⟩
              · exact Or.inl ⟨hd, fun hchk => (hwin hchk).trans (b hchk), Or.inr c⟩
              · exact Or.inr h
          · rcases List.mem_cons.1 hr with hr | hr
            · subst hr; exact hn n (by simp)
            · exact hk.sane.2 r hr
          · have hp := List.pairwise_cons.1 hk.sorted
            refine List.pairwise_cons.2 ⟨fun y hy => ?_, List.pairwise_cons.2 ⟨fun y hy h => absurd rfl h, hp.2⟩⟩
            rcases List.mem_cons.1 hy with hy | hy
            · subst hy; exact fun _ h => absurd rfl h
            · exact hp.1 y hy
          · have := hk.sub
            simp only [List.filter_cons, ne_eq, not_true, decide_false, Bool.false_eq_true, if_false, h0, not_false_eq_true, decide_true, if_true, List.map_cons]
            exact List.Sublist.cons _ this

/-- What the merge keeps. -/
structure MergeKept (big chk : Bool) (Q : Int → Prop) (l res : List RangeInfo) : Prop where
  cov : ∀ w v, Cov big chk res w v ↔ Cov big chk l w v
  sane : ∀ r ∈ res, Sane big Q r
  sub : ((res.filter fun r => r.depr ≠ 0).map win).Sublist ((l.filter fun r => r.depr ≠ 0).map win)
  head : ∀ r rs, l = r :: rs → r.depr ≠ 0 → ∃ x ∈ res, x.depr ≠ 0

theorem merge (big chk : Bool) (Q : Int → Prop) : ∀ (fuel : Nat) (l : List RangeInfo), l.length ≤ fuel → (∀ r ∈ l, Sane big Q r) → l.Pairwise (T big chk) →
    MergeKept big chk Q l (enumMerge big chk fuel l) := by
  intro fuel
  induction fuel with
  | zero =>
    intro l h _ _
    have : l = [] := List.length_eq_zero_iff.1 (by omega)
    subst this
    exact ⟨fun _ _ => Iff.rfl, fun r hr => by simp [enumMerge] at hr, by simp [enumMerge], fun r rs h => by simp at h⟩
  | succ fuel ih =>
    intro l hl hs hp
    match l, hl, hs, hp with
    | [], _, _, _ => exact ⟨fun _ _ => Iff.rfl, fun r hr => by simp [enumMerge] at hr, by simp [enumMerge], fun r rs h => by simp at h⟩
    | r :: rs, hl, hs, hp =>
      simp only [List.length_cons] at hl
      simp only [enumMerge]
      split
      · rename_i h0
        have hk := ih rs (by omega) (fun x hx => hs x (by simp [hx])) (List.pairwise_cons.1 hp).2
        refine ⟨fun w v => ?_, fun x hx => ?_, ?_, fun a as h hne => ?_⟩
        · simp only [Cov_cons, hk.cov w v]
        · rcases List.mem_cons.1 hx with hx | hx
          · subst hx; exact hs x (by simp)
          · exact hk.sane x hx
        · simpa [List.filter_cons, h0] using hk.sub
        · cases h; exact absurd h0 hne
      · rename_i h0
        have hi := inner big chk Q rs r h0 (hs r (by simp)) (fun x hx => hs x (by simp [hx])) hp
        have hk := ih (enumMergeInner big chk r rs).2 (by rw [hi.len]; omega) hi.sane.2 (List.pairwise_cons.1 hi.sorted).2
        have hne : (enumMergeInner big chk r rs).1.depr ≠ 0 := by rw [hi.same.2.2]; exact h0
        refine ⟨fun w v => ?_, fun x hx => ?_, ?_, fun _ _ _ _ => ⟨_, List.mem_cons_self, hne⟩⟩
        · rw [← hi.cov w v, Cov_cons, Cov_cons, hk.cov w v]
        · rcases List.mem_cons.1 hx with hx | hx
          · subst hx; exact hi.sane.1
          · exact hk.sane x hx
        · have h1 : win (enumMergeInner big chk r rs).1 = win r := by unfold win; rw [hi.same.2.1, hi.same.2.2]
          simp only [List.filter_cons, hne, h0, ne_eq, not_false_eq_true, decide_true, if_true, List.map_cons, h1]
          exact (hk.sub.trans hi.sub).cons_cons _

/-- Order of version pairs. -/
def wle (a b : RangeInfo) : Prop := a.since < b.since ∨ (a.since = b.since ∧ a.depr ≤ b.depr)

theorem enumSort (big chk : Bool) (l : List RangeInfo) :
    (sortBy (enumLt big chk) l).Pairwise (T big chk) ∧ (chk = true → (sortBy (enumLt big chk) l).Pairwise wle) := by
  let r : RangeInfo → RangeInfo → Prop := fun a b => if chk then
      (a.since < b.since ∨ (a.since = b.since ∧ (a.depr < b.depr ∨ (a.depr = b.depr ∧ rd big a.min ≤ rd big b.min)))) else rd big a.min ≤ rd big b.min
  have hr : (sortBy (enumLt big chk) l).Pairwise r := by
    refine sortBy_pairwise (enumLt big chk) (fun _ => True) r ?_ ?_ ?_ l (fun _ _ => trivial)
    · intro a b c _ _ _ h1 h2
      simp only [r] at *
      cases chk with
      | true => simp only [if_true] at *; omega
      | false => simp only [Bool.false_eq_true, if_false] at *; omega
    · intro a b _ _ h
      simp only [r]
      unfold enumLt at h
      cases chk with
      | true =>
        simp only [Bool.true_and, bne_iff_ne, ne_eq, if_true] at h ⊢
        split at h
        · have := of_decide_eq_true h; omega
        · split at h
          · have := of_decide_eq_true h; omega
          · rw [lessN_iff] at h; omega
      | false =>
        simp only [Bool.false_and, Bool.false_eq_true, if_false] at h ⊢
        rw [lessN_iff] at h; omega
    · intro a b _ _ h
      simp only [r]
      unfold enumLt at h
      cases chk with
      | true =>
        simp only [Bool.true_and, bne_iff_ne, ne_eq, if_true] at h ⊢
        split at h
        · have := of_decide_eq_false h; omega
        · split at h
          · have := of_decide_eq_false h; omega
          · rw [Bool.eq_false_iff, ne_eq, lessN_iff] at h; omega
      | false =>
        simp only [Bool.false_and, Bool.false_eq_true, if_false] at h ⊢
        rw [Bool.eq_false_iff, ne_eq, lessN_iff] at h; omega
  constructor
  · refine hr.imp ?_
    intro a b h _ _ hw
    simp only [r] at h
    cases chk with
    | true =>
      have hw := hw rfl
      unfold win at hw
      simp only [Prod.mk.injEq] at hw
      simp only [if_true] at h
      omega
    | false => simpa using h
  · intro hc
    refine hr.imp ?_
    intro a b h
    simp only [r, hc, if_true] at h
    unfold wle
    omega

/-- What the prepared ranges are. -/
structure Prepared (big chk : Bool) (Q : Int → Prop) (l R : List RangeInfo) : Prop where
  cov : ∀ w v, (∃ r ∈ R, (chk = true → win r = w) ∧ InR big r v) ↔ ∃ r ∈ l, (chk = true → win r = w) ∧ InR big r v
  sane : ∀ r ∈ R, Sane big Q r
  ne : R ≠ []
  sorted : chk = true → R.Pairwise wle

theorem prepared {g : GVer} {t : IntType} {st : EnumF.State} {R : List RangeInfo} {Q : Int → Prop} (h : enumRanges g t st = .ok R)
    (hs : ∀ r ∈ enumSingles g (checkVersion g st.num.validCheckVersion) st, Sane (bigBody t) Q r ∧ r.depr ≠ 0) :
    Prepared (bigBody t) (checkVersion g st.num.validCheckVersion) Q (enumSingles g (checkVersion g st.num.validCheckVersion) st) R := by
  unfold enumRanges at h
  dsimp only at h
  generalize hc : checkVersion g st.num.validCheckVersion = chk at *
  generalize hl : enumSingles g chk st = l at *
  generalize bigBody t = big at *
  split at h
  · cases h
  rename_i hne
  have hne : l ≠ [] := by intro e; rw [e] at hne; simp at hne
  split at h
  · rename_i h1
    have e := Res.ok.inj h
    have hp : R.Pairwise wle := by
      rw [← e]
      clear hs hl h e hne
      match l, h1 with
      | [], _ => exact List.Pairwise.nil
      | [r], _ => simp
      | a :: b :: c, h1 => simp at h1
    rw [← e]
    rw [← e] at hp
    exact ⟨fun _ _ => Iff.rfl, fun r hr => (hs r hr).1, hne, fun _ => hp⟩
  · cases Res.ok.inj h
    obtain ⟨hT, hW⟩ := enumSort big chk l
    have hm : ∀ r, r ∈ sortBy (enumLt big chk) l ↔ r ∈ l := mem_sortBy _ _
    have hk := merge big chk Q _ (sortBy (enumLt big chk) l) (Nat.le_refl _) (fun r hr => (hs r ((hm r).1 hr)).1) hT
    generalize hM : enumMerge big chk (sortBy (enumLt big chk) l).length (sortBy (enumLt big chk) l) = M at hk
    have hall : (sortBy (enumLt big chk) l).filter (fun r => r.depr ≠ 0) = sortBy (enumLt big chk) l := by
      rw [List.filter_eq_self]
      intro r hr
      simpa using (hs r ((hm r).1 hr)).2
    refine ⟨fun w v => ?_, fun r hr => hk.sane r (List.mem_filter.1 hr).1, ?_, fun hchk => ?_⟩
    · have := hk.cov w v
      unfold Cov at this
      constructor
      · rintro ⟨r, hr, h⟩
        obtain ⟨hr, hd⟩ := List.mem_filter.1 hr
        obtain ⟨x, hx, _, h⟩ := this.1 ⟨r, hr, by simpa using hd, h⟩
        exact ⟨x, (hm x).1 hx, h⟩
      · rintro ⟨r, hr, h⟩
        obtain ⟨x, hx, hd, h⟩ := this.2 ⟨r, (hm r).2 hr, (hs r hr).2, h⟩
        exact ⟨x, List.mem_filter.2 ⟨hx, by simpa using hd⟩, h⟩
    · cases hsl : sortBy (enumLt big chk) l with
      | nil =>
        exfalso
        obtain ⟨x, hx⟩ := List.exists_mem_of_ne_nil _ hne
        have := (hm x).2 hx
        rw [hsl] at this
        simp at this
      | cons r rs =>
        obtain ⟨x, hx, hd⟩ := hk.head r rs hsl ((hs r ((hm r).1 (by rw [hsl]; simp))).2)
        exact List.ne_nil_of_mem (List.mem_filter.2 ⟨hx, by simpa using hd⟩)
    · have hsub := hk.sub
      rw [hall] at hsub
      have h1 : ((sortBy (enumLt big chk) l).map win).Pairwise (fun a b => a.1 < b.1 ∨ (a.1 = b.1 ∧ a.2 ≤ b.2)) := by
        rw [List.pairwise_map]
        exact hW hchk
      have h2 := h1.sublist hsub
      rw [List.pairwise_map] at h2
      exact h2

theorem uncond_iff (r : RangeInfo) : uncond r = true ↔ r.since = 0 ∧ r.depr = Versions.notYet := by
  simp [uncond]

/-- The run of unconditional ranges has all of them. -/
theorem run_mem {R : List RangeInfo} (hs : R.Pairwise wle) (r : RangeInfo) :
    r ∈ (R.dropWhile fun r => !uncond r).takeWhile uncond ↔ r ∈ R ∧ uncond r = true := by
  have htake : ∀ (l : List RangeInfo), l.Pairwise wle → (∀ a as, l = a :: as → uncond a = true) → (r ∈ l.takeWhile uncond ↔ r ∈ l ∧ uncond r = true) := by
    intro l
    induction l with
    | nil => simp
    | cons a as ih =>
      intro hp hh
      have ha := hh a as rfl
      rw [List.takeWhile_cons, if_pos ha]
      have hpc := List.pairwise_cons.1 hp
      by_cases hb : ∃ b bs, as = b :: bs ∧ uncond b = false
      · obtain ⟨b, bs, e, hb⟩ := hb
        subst e
        rw [List.takeWhile_cons, if_neg (by simp [hb])]
        simp only [List.mem_cons, List.not_mem_nil, or_false]
        constructor
        · rintro rfl; exact ⟨Or.inl rfl, ha⟩
        · rintro ⟨h | h, hu⟩
          · exact h
          · exfalso
            have h1 := hpc.1 b (by simp)
            have h2 : wle b r ∨ r = b := by
              rcases h with h | h
              · exact Or.inr h
              · exact Or.inl ((List.pairwise_cons.1 hpc.2).1 r h)
            rw [uncond_iff] at ha hu
            have hb' : ¬ (b.since = 0 ∧ b.depr = Versions.notYet) := by rw [← uncond_iff]; simp [hb]
            rcases h2 with h2 | h2
            · unfold wle at h1 h2
              omega
            · subst h2; exact hb' hu
      · have := ih hpc.2 (fun b bs e => by
          cases hu : uncond b with
          | true => rfl
          | false => exact absurd ⟨b, bs, e, hu⟩ hb)
        rw [List.mem_cons, this, List.mem_cons]
        constructor
        · rintro (rfl | h)
          · exact ⟨Or.inl rfl, ha⟩
          · exact ⟨Or.inr h.1, h.2⟩
        · rintro ⟨rfl | h, hu⟩
          · exact Or.inl rfl
          · exact Or.inr ⟨h, hu⟩
  have hdrop : ∀ (l : List RangeInfo), (r ∈ l.dropWhile (fun r => !uncond r) ∧ uncond r = true) ↔ (r ∈ l ∧ uncond r = true) := by
    intro l
    induction l with
    | nil => simp
    | cons a as ih =>
      rw [List.dropWhile_cons]
      split
      · rename_i h
        rw [ih]
        constructor
        · rintro ⟨h1, h2⟩; exact ⟨by simp [h1], h2⟩
        · rintro ⟨h1, h2⟩
          rcases List.mem_cons.1 h1 with rfl | h1
          · simp [h2] at h
          · exact ⟨h1, h2⟩
      · exact Iff.rfl
  rw [htake _ (hs.sublist (List.dropWhile_sublist _)) ?_, hdrop]
  intro a as e
  have := List.head?_dropWhile_not (fun r => !uncond r) R
  rw [e] at this
  simpa using this

/-- Binary search in a list of numbers in ascending order. -/
theorem search_iff (l : List Int) (hs : l.Pairwise (· ≤ ·)) (v : Int) :
    l[lowerBound (fun x => decide (x < v)) l l.length 0 l.length]? = some v ↔ v ∈ l := by
  have hij : ∀ (i j : Nat) (x y : Int), i < j → l[i]? = some x → l[j]? = some y → x ≤ y := by
    intro i j x y h hx hy
    obtain ⟨hi, ex⟩ := List.getElem?_eq_some_iff.1 hx
    obtain ⟨hj, ey⟩ := List.getElem?_eq_some_iff.1 hy
    rw [← ex, ← ey]
    exact List.pairwise_iff_getElem.1 hs i j hi hj h
  obtain ⟨hb, ha⟩ := lowerBound_spec (fun x => decide (x < v)) l (by
    intro i j x y h hx hy hl
    have := hij i j x y h hx hy
    have := of_decide_eq_true hl
    exact decide_eq_true (by omega)) l.length 0 l.length (Nat.le_refl _) (by omega) (by omega)
    (by intro i x h hx; rw [List.getElem?_eq_none (by omega)] at hx; cases hx)
  constructor
  · exact List.mem_of_getElem?
  · intro hv
    obtain ⟨k, hk, ek⟩ := List.getElem_of_mem hv
    have hk2 : l[k]? = some v := by rw [List.getElem?_eq_getElem hk, ek]
    generalize hn : lowerBound (fun x => decide (x < v)) l l.length 0 l.length = n at *
    have hnk : n ≤ k := by
      rcases Nat.lt_or_ge k n with h | h
      · have := of_decide_eq_true (hb k v h hk2)
        omega
      · exact h
    have hnl : n < l.length := by omega
    have hx : l[n]? = some l[n] := List.getElem?_eq_getElem hnl
    have h1 := of_decide_eq_false (ha n _ (Nat.le_refl _) hx)
    rw [hx]
    rcases Nat.lt_or_ge n k with h | h
    · have := hij n k _ _ h hx hk2
      have : l[n] = v := by omega
      rw [this]
    · have : n = k := by omega
      subst this
      rw [ek]

theorem listed_map (f : Str → Option Int) (h : Int → Int) : ∀ (l : List (Int × Str)) (prev : Option Int), (∀ e ∈ l, f e.2 = some (h e.1)) →
    ∃ vs : List Int, (listedNames prev l).map f = vs.map some ∧ (∀ v ∈ vs, ∃ e ∈ l, v = h e.1) ∧ (∀ e ∈ l, prev = some e.1 ∨ h e.1 ∈ vs) ∧
      (∀ R : Int → Int → Prop, (l.map fun e => h e.1).Pairwise R → vs.Pairwise R) := by
  intro l
  induction l with
  | nil => intro prev _; exact ⟨[], by simp [listedNames]⟩
  | cons e es ih =>
    intro prev hf
    unfold listedNames
    split
    · rename_i hp
      obtain ⟨vs, h1, h2, h3, h4⟩ := ih prev (fun x hx => hf x (by simp [hx]))
      refine ⟨vs, h1, fun v hv => ?_, fun x hx => ?_, fun R hR => h4 R (List.pairwise_cons.1 hR).2⟩
      · obtain ⟨x, hx, hv⟩ := h2 v hv; exact ⟨x, by simp [hx], hv⟩
      · rcases List.mem_cons.1 hx with rfl | hx
        · exact Or.inl hp
        · exact h3 x hx
    · obtain ⟨vs, h1, h2, h3, h4⟩ := ih (some e.1) (fun x hx => hf x (by simp [hx]))
      refine ⟨h e.1 :: vs, by simp [h1, hf e (by simp)], fun v hv => ?_, fun x hx => ?_, fun R hR => ?_⟩
      · rcases List.mem_cons.1 hv with rfl | hv
        · exact ⟨e, by simp, rfl⟩
        · obtain ⟨x, hx, hv⟩ := h2 v hv; exact ⟨x, by simp [hx], hv⟩
      · rcases List.mem_cons.1 hx with rfl | hx
        · exact Or.inr (by simp)
        · rcases h3 x hx with h5 | h5
          · exact Or.inr (by simp only [Option.some.injEq] at h5; rw [h5]; simp)
          · exact Or.inr (by simp [h5])
      · rw [List.map_cons, List.pairwise_cons] at hR
        refine List.pairwise_cons.2 ⟨fun v hv => ?_, h4 R hR.2⟩
        obtain ⟨x, hx, hv⟩ := h2 v hv
        rw [hv]
        exact hR.1 _ (List.mem_map.2 ⟨x, hx, rfl⟩)

theorem single_sane {g : GVer} {t : IntType} {chk : Bool} {st : EnumF.State} {Q : Int → Prop}
    (h64 : ∀ p ∈ st.values, i64Min ≤ p.2.value ∧ p.2.value ≤ i64Max) (hw : ∀ p ∈ st.values, p.2.since < p.2.depr) (hq : ∀ p ∈ st.values, Q p.2.value) :
    ∀ r ∈ enumSingles g chk st, Sane (bigBody t) Q r ∧ r.depr ≠ 0 := by
  intro r hr
  unfold enumSingles at hr
  obtain ⟨p, hp, rfl⟩ := List.mem_map.1 hr
  have hp := (List.mem_filter.1 hp).1
  have := hw p hp
  exact ⟨⟨h64 p hp, h64 p hp, Int.le_refl _, hq p hp, hq p hp⟩, by simp only; omega⟩

theorem base_map {big : Bool} {l : List RangeInfo} {pre : List VOpt} (hpre : ∀ o ∈ pre, o = .versionStorage) (hne : l ≠ [])
    (h64 : ∀ r ∈ l, (i64Min ≤ r.min ∧ r.min ≤ i64Max) ∧ (i64Min ≤ r.max ∧ r.max ≤ i64Max)) (v : Int) :
    BaseValid (pre ++ l.map (rangeOpt big)) v ↔ ∃ r ∈ l, InR big r v := by
  unfold BaseValid
  constructor
  · rintro (⟨o, ho, a, b, hab, h⟩ | ⟨h, _⟩)
    · rcases List.mem_append.1 ho with ho | ho
      · rw [hpre o ho] at hab; cases hab
      · obtain ⟨r, hr, rfl⟩ := List.mem_map.1 ho
        rw [rangeOpt_bounds _ _ (h64 r hr).1 (h64 r hr).2] at hab
        cases hab
        exact ⟨r, hr, h⟩
    · obtain ⟨r, hr⟩ := List.exists_mem_of_ne_nil _ hne
      have := h _ (List.mem_append.2 (Or.inr (List.mem_map.2 ⟨r, hr, rfl⟩)))
      rw [rangeOpt_bounds _ _ (h64 r hr).1 (h64 r hr).2] at this
      cases this
  · rintro ⟨r, hr, h⟩
    exact Or.inl ⟨_, List.mem_append.2 (Or.inr (List.mem_map.2 ⟨r, hr, rfl⟩)), _, _, rangeOpt_bounds _ _ (h64 r hr).1 (h64 r hr).2, h⟩

theorem in_single {g : GVer} {t : IntType} {chk : Bool} {st : EnumF.State} (P : RangeInfo → Prop) (v : Int) :
    (∃ r ∈ enumSingles g chk st, P r ∧ InR (bigBody t) r v) ↔
      ∃ p ∈ st.values, doesExist g p.2.since p.2.depr (!chk) = true ∧ P ⟨p.2.value, p.2.value, p.2.since, p.2.depr⟩ ∧ interp t p.2.value = v := by
  unfold enumSingles InR
  constructor
  · rintro ⟨r, hr, hP, h⟩
    obtain ⟨p, hp, rfl⟩ := List.mem_map.1 hr
    obtain ⟨hp, he⟩ := List.mem_filter.1 hp
    simp only [rd_body] at h
    exact ⟨p, hp, he, hP, by omega⟩
  · rintro ⟨p, hp, he, hP, h⟩
    refine ⟨_, List.mem_map.2 ⟨p, List.mem_filter.2 ⟨hp, he⟩, rfl⟩, hP, ?_⟩
    simp only [rd_body]
    omega

/-- A property of the tables that every added value keeps holds of all accepted enums. -/
theorem accepted_ind (P : List (Str × SpecialInfo) → List (Int × Str) → Prop) (h0 : P [] [])
    (hs : ∀ (env : Env) (c : Ctx) (t : IntType) (x : Xml) (s s' : EnumF.State), EnumF.valueStep env c t x s = .ok s' → (s.rev.map Prod.fst).Pairwise (· ≤ ·) →
      P s.values s.rev → P s'.values s'.rev) {b : Bool} {st : EnumF.State} (h : EnumF.Accepted b st) : P st.values st.rev := by
  have hl : ∀ (env : Env) (c : Ctx) (t : IntType) (xs : List Xml) (s s' : EnumF.State), EnumF.valuesLoop env c t xs s = .ok s' → (s.rev.map Prod.fst).Pairwise (· ≤ ·) →
      P s.values s.rev → P s'.values s'.rev := by
    intro env c t xs
    induction xs with
    | nil => intro s s' h _ hp; simp only [EnumF.valuesLoop, Res.ok.injEq] at h; subst h; exact hp
    | cons x xs ih =>
      intro s s' h hsd hp
      unfold EnumF.valuesLoop at h
      rw [Res.bind_eq_ok] at h
      obtain ⟨s1, ha, hb⟩ := h
      have h1 := hs env c t x s s1 ha hsd hp
      refine ih s1 s' hb ?_ h1
      unfold EnumF.valueStep at ha
      simp only [Res.bind_eq_ok] at ha
      obtain ⟨props, _, _, _, _, _, _, _, _, _, _, _, _, _, _, _, _, _, val, _, _, _, _, _, ⟨since, depr⟩, _, disp, _, ha⟩ := ha
      simp only [Res.pure_eq, Res.ok.injEq] at ha
      subst ha
      exact MultiMap.insert_sorted _ _ _ hsd
  have hstep : ∀ (env : Env) (c : Ctx) (s s' : EnumF.State), (s.rev.map Prod.fst).Pairwise (· ≤ ·) → P s.values s.rev → EnumF.parseImpl env c s = .ok s' → P s'.values s'.rev := by
    intro env c s st hsd hp h
    unfold EnumF.parseImpl at h
    rw [Res.bind_eq_ok] at h
    obtain ⟨s1, h1, h⟩ := h
    split at h
    · simp at h
    rename_i t ht
    simp only [Res.bind_eq_ok] at h
    obtain ⟨s2, h2, s3, h3, s4, h4, s5, h5, s6, h6, s7, h7, s8, h8, s9, h9, s10, h10, h11⟩ := h
    obtain ⟨n1, _, rfl⟩ := EnumProofs.onNum_ok h1
    obtain ⟨n2, _, rfl⟩ := EnumProofs.onNum_ok h2
    obtain ⟨n3, _, rfl⟩ := EnumProofs.onNum_ok h3
    obtain ⟨n4, _, rfl⟩ := EnumProofs.onNum_ok h4
    unfold EnumF.updateNonUnique at h5
    rw [Res.bind_eq_ok] at h5
    obtain ⟨nu, _, h5⟩ := h5
    have h5 := Res.ok.inj h5
    subst h5
    obtain ⟨n6, _, rfl⟩ := EnumProofs.onNum_ok h6
    obtain ⟨n7, _, rfl⟩ := EnumProofs.onNum_ok h7
    have r8 : P s8.values s8.rev := by
      unfold EnumF.updateValues at h8
      dsimp only at h8
      split at h8
      · split at h8
        · have h8 := Res.ok.inj h8
          subst h8
          exact hp
        · simp at h8
      · exact hl _ _ _ _ _ _ h8 hsd hp
    unfold EnumF.updateDefault at h9
    rw [Res.bind_eq_ok] at h9
    obtain ⟨n9, _, h9⟩ := h9
    have h9 := Res.ok.inj h9
    subst h9
    unfold EnumF.updateHexAssign at h10
    simp only [Res.bind_eq_ok] at h10
    obtain ⟨hx, _, _, _, h10⟩ := h10
    have h10 := Res.ok.inj h10
    subst h10
    obtain ⟨n11, _, rfl⟩ := EnumProofs.onNum_ok h11
    exact r8
  induction h with
  | fresh h => exact hstep _ _ _ _ (by simp) h0 h
  | reuse ha h ih => exact hstep _ _ _ _ (C17_reverse_table _ _ ha).2 ih h

end GenEnumProofs

open GenValidProofs GenEnumProofs

/-- The values of an accepted enum are there before they are deprecated. -/
theorem C77_windows (b : Bool) (st : EnumF.State) (h : EnumF.Accepted b st) : ∀ p ∈ st.values, p.2.since < p.2.depr := by
  refine accepted_ind (fun values _ => ∀ p ∈ values, p.2.since < p.2.depr) (by simp) ?_ h
  intro env c t x s s' h _ hp
  unfold EnumF.valueStep at h
  simp only [Res.bind_eq_ok] at h
  obtain ⟨props, _, _, _, _, _, _, _, _, _, _, _, _, _, _, _, _, _, val, _, _, _, _, _, ⟨since, depr⟩, hw, disp, _, h⟩ := h
  have h := Res.ok.inj h
  subst h
  intro p hm
  rcases List.mem_append.1 hm with hm | hm
  · exact hp p hm
  · rw [List.mem_singleton] at hm
    subst hm
    rw [Res.ofOption_eq_ok] at hw
    unfold Versions.getAndCheck at hw
    simp only [Option.bind_eq_bind, Option.bind_eq_some_iff] at hw
    obtain ⟨a, _, d, _, hw⟩ := hw
    split at hw
    · rename_i hc
      cases hw
      unfold Versions.checkVersions at hc
      simp only
      by_cases hlt : depr ≤ since
      · rw [if_pos hlt] at hc
        repeat' (split at hc <;> try (simp at hc))
      · omega
    · cases hw

/-- C77, versions looked at: for each version up to the one of the schema the generated check accepts exactly the numbers declared for it. Missing: numbers the
    generator misreads (`C77_misread_witness`). -/
theorem C77_versioned_partial (g : GVer) (t : IntType) (st : EnumF.State) (R : List RangeInfo) (hv : checkVersion g st.num.validCheckVersion = true)
    (h : enumRanges g t st = .ok R) (h64 : ∀ p ∈ st.values, i64Min ≤ p.2.value ∧ p.2.value ≤ i64Max) (hw : ∀ p ∈ st.values, p.2.since < p.2.depr)
    (hr : ∀ p ∈ st.values, ReadsAs t st.num.length p.2.value) (hver : g.version < Versions.notYet) :
    Fits (enumOpts g t st R) (enumBody g t st R) ∧
      ∀ enumerator ver v, ver ≤ g.version → (Valid enumerator (enumOpts g t st R) (enumBody g t st R) ver v ↔ DeclaredAt t st.values ver v) := by
  have hp := prepared h (single_sane h64 hw hr)
  rw [hv] at hp
  have hread : ∀ r ∈ R, ∀ v, InR (bigOpt t st.num.length) r v ↔ InR (bigBody t) r v := by
    intro r hr v
    unfold InR
    rw [rd_opt (hp.sane r hr).2.2.2.1, rd_opt (hp.sane r hr).2.2.2.2, rd_body, rd_body]
  have hmem := run_mem (hp.sorted rfl)
  unfold enumOpts enumBody
  rw [hv]
  simp only [Bool.not_true, Bool.false_eq_true, if_false]
  generalize hrun : (R.dropWhile fun r => !uncond r).takeWhile uncond = run at *
  have hsub : run.Sublist R := by
    rw [← hrun]
    exact (List.takeWhile_sublist _).trans (List.dropWhile_sublist _)
  refine ⟨⟨?_, ?_⟩, ?_⟩
  · intro o ho a b hab
    split at ho
    · rcases List.mem_cons.1 ho with rfl | ho
      · cases hab
      · rw [List.mem_singleton] at ho; subst ho; cases hab
    · rcases List.mem_append.1 ho with ho | ho
      · split at ho
        · rw [List.mem_singleton] at ho; subst ho; cases hab
        · simp at ho
      · obtain ⟨r, hr, rfl⟩ := List.mem_map.1 ho
        have hrR := ((hmem r).1 hr).1
        have hs := hp.sane r hrR
        rw [rangeOpt_bounds _ _ hs.1 hs.2.1] at hab
        cases hab
        have h1 := hs.2.2.1
        have e1 := rd_opt hs.2.2.2.1
        have e2 := rd_opt hs.2.2.2.2
        have e3 := rd_body t r.min
        have e4 := rd_body t r.max
        omega
  · rintro cs hcs ⟨c, hc, _⟩
    cases hcs
    obtain ⟨r, hr, rfl⟩ := List.mem_map.1 hc
    obtain ⟨hr, hu⟩ := List.mem_filter.1 hr
    split
    · simp
    · rw [if_pos ?_]
      · simp
      · intro e
        have := hsub.eq_of_length e
        rw [← this] at hr
        rw [((hmem r).1 hr).2] at hu
        simp at hu
  · intro en ver v hle
    have hbase : BaseValid (if run.isEmpty = true then [VOpt.versionStorage, VOpt.invalidByDefault]
        else (if run.length ≠ R.length then [VOpt.versionStorage] else []) ++ run.map (rangeOpt (bigOpt t st.num.length))) v ↔
        ∃ r ∈ R, uncond r = true ∧ InR (bigBody t) r v := by
      split
      · rename_i he
        have he : run = [] := by simpa using he
        constructor
        · rintro (⟨o, ho, a, b, hab, _⟩ | ⟨_, h⟩)
          · rcases List.mem_cons.1 ho with rfl | ho
            · cases hab
            · rw [List.mem_singleton] at ho; subst ho; cases hab
          · simp at h
        · rintro ⟨r, hr, hu, _⟩
          have := (hmem r).2 ⟨hr, hu⟩
          rw [he] at this
          simp at this
      · rename_i he
        have hne : run ≠ [] := by simpa using he
        rw [base_map (by intro o ho; split at ho <;> simp_all) hne (fun r hr => ⟨(hp.sane r ((hmem r).1 hr).1).1, (hp.sane r ((hmem r).1 hr).1).2.1⟩)]
        constructor
        · rintro ⟨r, hr, h⟩
          obtain ⟨h1, h2⟩ := (hmem r).1 hr
          exact ⟨r, h1, h2, (hread r h1 v).1 h⟩
        · rintro ⟨r, h1, h2, h⟩
          exact ⟨r, (hmem r).2 ⟨h1, h2⟩, (hread r h1 v).2 h⟩
    have hhold : ∀ r : RangeInfo, Holds (enumCheck t r) ver v ↔ (r.since ≤ ver ∧ ver < r.depr) ∧ InR (bigBody t) r v := by
      intro r
      unfold Holds enumCheck InR rd
      simp only
      constructor
      · rintro ⟨h1, h2, h3, h4⟩
        refine ⟨⟨?_, ?_⟩, by split <;> simp_all, by split <;> simp_all⟩
        · by_cases h0 : r.since = 0
          · omega
          · exact h1 r.since (by rw [if_neg h0])
        · by_cases h0 : r.since ≠ 0 ∧ Versions.notYet ≤ r.depr
          · omega
          · exact h2 r.depr (by rw [if_neg h0])
      · rintro ⟨⟨h1, h2⟩, h3, h4⟩
        refine ⟨fun n hn => ?_, fun n hn => ?_, by split <;> simp_all, by split <;> simp_all⟩
        · split at hn
          · cases hn
          · cases hn; exact h1
        · split at hn
          · cases hn
          · cases hn; exact h2
    have hR : Valid en (if run.isEmpty = true then [VOpt.versionStorage, VOpt.invalidByDefault]
        else (if run.length ≠ R.length then [VOpt.versionStorage] else []) ++ run.map (rangeOpt (bigOpt t st.num.length)))
        (Body.anyOf ((R.filter fun r => !uncond r).map (enumCheck t))) ver v ↔ ∃ r ∈ R, (r.since ≤ ver ∧ ver < r.depr) ∧ InR (bigBody t) r v := by
      show (_ ∨ _) ↔ _
      rw [hbase]
      constructor
      · rintro (⟨r, hr, hu, h⟩ | ⟨c, hc, h⟩)
        · rw [uncond_iff] at hu
          exact ⟨r, hr, ⟨by omega, by omega⟩, h⟩
        · obtain ⟨r, hr, rfl⟩ := List.mem_map.1 hc
          exact ⟨r, (List.mem_filter.1 hr).1, (hhold r).1 h⟩
      · rintro ⟨r, hr, h⟩
        cases hu : uncond r with
        | true => exact Or.inl ⟨r, hr, hu, h.2⟩
        | false => exact Or.inr ⟨_, List.mem_map.2 ⟨r, List.mem_filter.2 ⟨hr, by simp [hu]⟩, rfl⟩, (hhold r).2 h⟩
    rw [hR]
    have hcov : (∃ r ∈ R, (r.since ≤ ver ∧ ver < r.depr) ∧ InR (bigBody t) r v) ↔
        ∃ r ∈ enumSingles g true st, (r.since ≤ ver ∧ ver < r.depr) ∧ InR (bigBody t) r v := by
      constructor
      · rintro ⟨r, hr, hw, h⟩
        obtain ⟨x, hx, hwin, hx2⟩ := (hp.cov (win r) v).1 ⟨r, hr, fun _ => rfl, h⟩
        have hwin := hwin rfl
        unfold win at hwin
        simp only [Prod.mk.injEq] at hwin
        exact ⟨x, hx, by rw [hwin.1, hwin.2]; exact hw, hx2⟩
      · rintro ⟨r, hr, hw, h⟩
        obtain ⟨x, hx, hwin, hx2⟩ := (hp.cov (win r) v).2 ⟨r, hr, fun _ => rfl, h⟩
        have hwin := hwin rfl
        unfold win at hwin
        simp only [Prod.mk.injEq] at hwin
        exact ⟨x, hx, by rw [hwin.1, hwin.2]; exact hw, hx2⟩
    rw [hcov, in_single (fun r => r.since ≤ ver ∧ ver < r.depr)]
    unfold DeclaredAt
    constructor
    · rintro ⟨p, hp, _, ⟨h1, h2⟩, h3⟩; exact ⟨p, hp, h1, h2, h3⟩
    · rintro ⟨p, hp, h1, h2, h3⟩
      exact ⟨p, hp, by unfold doesExist; simp; omega, ⟨h1, h2⟩, h3⟩

theorem exist_some (g : GVer) (since depr : Nat) : doesExist g since depr true = true ↔ since ≤ g.version ∧ g.minRemote < depr := by
  unfold doesExist
  constructor
  · intro h
    split at h
    · cases h
    · split at h
      · cases h
      · rename_i h1 h2
        simp at h2
        omega
  · rintro ⟨h1, h2⟩
    rw [if_neg (by omega), if_neg (by simp; omega)]

/-- C77, versions not looked at, few ranges: the generated check accepts exactly the numbers declared for some supported version. Missing: misread numbers. -/
theorem C77_few_partial (g : GVer) (t : IntType) (st : EnumF.State) (R : List RangeInfo) (hv : checkVersion g st.num.validCheckVersion = false)
    (h : enumRanges g t st = .ok R) (h64 : ∀ p ∈ st.values, i64Min ≤ p.2.value ∧ p.2.value ≤ i64Max) (hw : ∀ p ∈ st.values, p.2.since < p.2.depr)
    (hr : ∀ p ∈ st.values, ReadsAs t st.num.length p.2.value) (hn : R.length ≤ maxRangesInOpts) :
    Fits (enumOpts g t st R) (enumBody g t st R) ∧
      ∀ enumerator ver v, Valid enumerator (enumOpts g t st R) (enumBody g t st R) ver v ↔ DeclaredSome g t st.values v := by
  have hp := prepared h (single_sane h64 hw hr)
  rw [hv] at hp
  have e1 : enumOpts g t st R = R.map (rangeOpt (bigOpt t st.num.length)) := by
    unfold enumOpts
    rw [hv]
    simp only [Bool.not_false, if_true]
    rw [if_neg (by omega)]
  have e2 : enumBody g t st R = .none := by
    unfold enumBody
    rw [hv]
    simp only [Bool.not_false, if_true]
    rw [if_pos hn]
  rw [e1, e2]
  refine ⟨⟨?_, fun cs h => by cases h⟩, fun en ver v => ?_⟩
  · intro o ho a b hab
    obtain ⟨r, hr, rfl⟩ := List.mem_map.1 ho
    have hs := hp.sane r hr
    rw [rangeOpt_bounds _ _ hs.1 hs.2.1] at hab
    cases hab
    have h1 := hs.2.2.1
    have e1 := rd_opt hs.2.2.2.1
    have e2 := rd_opt hs.2.2.2.2
    have e3 := rd_body t r.min
    have e4 := rd_body t r.max
    omega
  · show BaseValid _ v ↔ _
    have hb := base_map (big := bigOpt t st.num.length) (pre := []) (by simp) hp.ne (fun r hr => ⟨(hp.sane r hr).1, (hp.sane r hr).2.1⟩) v
    rw [List.nil_append] at hb
    rw [hb]
    have : (∃ r ∈ R, InR (bigOpt t st.num.length) r v) ↔ ∃ r ∈ enumSingles g false st, True ∧ InR (bigBody t) r v := by
      have hc := hp.cov (0, 0) v
      simp only [Bool.false_eq_true, false_implies, true_and] at hc ⊢
      rw [← hc]
      constructor
      · rintro ⟨r, hr, h⟩
        refine ⟨r, hr, ?_⟩
        unfold InR at h ⊢
        rw [rd_body, rd_body]
        rwa [rd_opt (hp.sane r hr).2.2.2.1, rd_opt (hp.sane r hr).2.2.2.2] at h
      · rintro ⟨r, hr, h⟩
        refine ⟨r, hr, ?_⟩
        unfold InR at h ⊢
        rw [rd_body, rd_body] at h
        rwa [rd_opt (hp.sane r hr).2.2.2.1, rd_opt (hp.sane r hr).2.2.2.2]
    rw [this, in_single (fun _ => True)]
    unfold DeclaredSome
    constructor
    · rintro ⟨p, hp, h1, _, h3⟩
      obtain ⟨h1, h2⟩ := (exist_some _ _ _).1 h1
      exact ⟨p, hp, h1, h2, h3⟩
    · rintro ⟨p, hp, h1, h2, h3⟩
      exact ⟨p, hp, (exist_some _ _ _).2 ⟨h1, h2⟩, trivial, h3⟩

/-- C77, versions not looked at, many ranges: a binary search among the enumerators accepts exactly the numbers declared for some supported version. Missing:
    `uint64` and `uintvar` numbers of 2^63 and above (`C77_order_witness`), values not in any supported version (`C77_removed_witness`, `C77_later_witness`). -/
theorem C77_many_partial (g : GVer) (t : IntType) (b : Bool) (st : EnumF.State) (hacc : EnumF.Accepted b st) (R : List RangeInfo)
    (hv : checkVersion g st.num.validCheckVersion = false)
    (hn : maxRangesInOpts < R.length) (hi : ∀ p ∈ st.values, interp t p.2.value = p.2.value)
    (he : ∀ p ∈ st.values, p.2.since ≤ g.version ∧ g.minRemote < p.2.depr)
    (enumerator : Str → Option Int) (hen : ∀ p ∈ st.values, enumerator p.1 = some (interp t p.2.value)) :
    Fits (enumOpts g t st R) (enumBody g t st R) ∧
      ∀ ver v, Valid enumerator (enumOpts g t st R) (enumBody g t st R) ver v ↔ DeclaredSome g t st.values v := by
  obtain ⟨hperm, hsort⟩ := C17_reverse_table b st hacc
  have e1 : enumOpts g t st R = [] := by
    unfold enumOpts
    rw [hv]
    simp only [Bool.not_false, if_true]
    rw [if_pos (by omega)]
  have e2 : enumBody g t st R = .listed (listedNames none st.rev) := by
    unfold enumBody
    rw [hv]
    simp only [Bool.not_false, if_true]
    rw [if_neg (by omega)]
  rw [e1, e2]
  refine ⟨⟨by simp, fun cs h => by cases h⟩, fun ver v => ?_⟩
  have hrev : ∀ e ∈ st.rev, ∃ p ∈ st.values, e = (p.2.value, p.1) := by
    intro e he
    obtain ⟨p, hp, h⟩ := List.mem_map.1 (hperm.mem_iff.1 he)
    exact ⟨p, hp, h.symm⟩
  obtain ⟨vs, h1, h2, h3, h4⟩ := listed_map enumerator id st.rev none (by
    intro e he
    obtain ⟨p, hp, rfl⟩ := hrev e he
    rw [hen p hp, hi p hp]
    rfl)
  have hs : vs.Pairwise (· ≤ ·) := h4 _ hsort
  have hlen : (listedNames none st.rev).length = vs.length := by
    have := congrArg List.length h1
    simpa using this
  show (BaseValid [] v ∧ _) ↔ _
  have hb : BaseValid [] v := Or.inr ⟨by simp, by simp⟩
  have hlb : ∀ (fuel a b : Nat), lowerBound (fun x : Option Int => decide (x.getD 0 < v)) (vs.map some) fuel a b = lowerBound (fun x => decide (x < v)) vs fuel a b := by
    intro fuel
    induction fuel with
    | zero => intro a b; rfl
    | succ n ih =>
      intro a b
      unfold lowerBound
      rw [List.getElem?_map]
      simp only [ih]
      cases hx : vs[a + b / 2]? with
      | none => simp
      | some y => simp
  rw [h1, hlen, hlb, List.getElem?_map]
  have hsome : (vs[lowerBound (fun x => decide (x < v)) vs vs.length 0 vs.length]?.map some = some (some v)) ↔
      vs[lowerBound (fun x => decide (x < v)) vs vs.length 0 vs.length]? = some v := by
    cases vs[lowerBound (fun x => decide (x < v)) vs vs.length 0 vs.length]? <;> simp
  rw [hsome, search_iff vs hs v]
  unfold DeclaredSome
  constructor
  · rintro ⟨_, hm⟩
    obtain ⟨e, hme, rfl⟩ := h2 v hm
    obtain ⟨p, hp, rfl⟩ := hrev e hme
    exact ⟨p, hp, (he p hp).1, (he p hp).2, hi p hp⟩
  · rintro ⟨p, hp, _, _, h⟩
    refine ⟨hb, ?_⟩
    have hm : ((p.2.value, p.1) : Int × Str) ∈ st.rev := hperm.mem_iff.2 (List.mem_map.2 ⟨p, hp, rfl⟩)
    rcases h3 _ hm with h | h
    · cases h
    · rw [hi p hp] at *
      rename_i h5
      rw [← h5]
      exact h

/-- The generator gives up exactly if no value of the enum is to be supported. -/
theorem C77_error_iff (g : GVer) (t : IntType) (st : EnumF.State) : enumRanges g t st = .err ↔
    ∀ p ∈ st.values, g.version < p.2.since ∨ (checkVersion g st.num.validCheckVersion = false ∧ p.2.depr ≤ g.minRemote) := by
  have key : (enumSingles g (checkVersion g st.num.validCheckVersion) st).isEmpty = true ↔
      ∀ p ∈ st.values, g.version < p.2.since ∨ (checkVersion g st.num.validCheckVersion = false ∧ p.2.depr ≤ g.minRemote) := by
    unfold enumSingles
    rw [List.isEmpty_iff, List.map_eq_nil_iff, List.filter_eq_nil_iff]
    constructor
    · intro h p hp
      have := h p hp
      unfold doesExist at this
      cases hc : checkVersion g st.num.validCheckVersion <;> simp [hc] at this ⊢ <;> omega
    · intro h p hp
      have := h p hp
      unfold doesExist
      cases hc : checkVersion g st.num.validCheckVersion <;> simp [hc] at this ⊢ <;> omega
  unfold enumRanges
  dsimp only
  rw [← key]
  split
  · simp [*]
  · split <;> simp [*]

namespace GenEnumSample

def ctx (attrs : List (String × String)) (children : List Xml) : Ctx :=
  { node := .elem "enum".toList (attrs.map fun a => (a.1.toList, a.2.toList)) children, props := attrs.map fun a => (a.1.toList, a.2.toList), since := 0, depr := Versions.notYet, bitfieldMember := false }
def env : Env := { dsl := 7, schemaVersion := 5, schemaEndian := .little, strToNumeric := fun _ => none }
def value (n v : String) (more : List (String × String) := []) : Xml :=
  .elem "validValue".toList ([("name".toList, n.toList), ("val".toList, v.toList)] ++ more.map fun a => (a.1.toList, a.2.toList)) []

def parsed (attrs : List (String × String)) (children : List Xml) : EnumF.State := match EnumF.parseImpl env (ctx attrs children) {} with
  | .ok st => st
  | _ => {}

theorem parsed_ok {attrs : List (String × String)} {children : List Xml} (h : okWithE (EnumF.parseImpl env (ctx attrs children) {}) (fun _ => true) = true) :
    EnumF.Accepted (parsed attrs children).nonUnique (parsed attrs children) := by
  unfold parsed
  cases he : EnumF.parseImpl env (ctx attrs children) {} with
  | ok st => exact .fresh he
  | err => rw [he] at h; simp [okWithE] at h
  | ub => rw [he] at h; simp [okWithE] at h

/-- Two values valid in all versions, one from version 2 on, one that ends with version 4. -/
def versioned : EnumF.State := parsed [("type", "uint8"), ("validCheckVersion", "true")]
  [value "A" "1", value "B" "2", value "C" "3" [("sinceVersion", "2")], value "D" "0" [("deprecated", "4")]]

/-- A signed number. -/
def signed : EnumF.State := parsed [("type", "int64")] [value "A" "-1", value "B" "1"]

/-- Seven ranges. -/
def many (last : String) (more : List (String × String)) : EnumF.State := parsed [("type", "uint64")]
  [value "A" "1", value "B" "3", value "C" "5", value "D" "7", value "E" "9", value "F" "11", value "G" last more]

end GenEnumSample
open GenEnumSample

/-- All conditions at once: the hypotheses of `C77_versioned_partial`. -/
example : EnumF.Accepted false versioned ∧ checkVersion { parsed := 5, versionDependent := true } versioned.num.validCheckVersion = true ∧
    enumRanges { parsed := 5, versionDependent := true } .uint8 versioned = .ok [⟨0, 0, 0, 4⟩, ⟨1, 2, 0, Versions.notYet⟩, ⟨3, 3, 2, Versions.notYet⟩] ∧
    (∀ p ∈ versioned.values, ReadsAs .uint8 versioned.num.length p.2.value) ∧
    enumOpts { parsed := 5, versionDependent := true } .uint8 versioned [⟨0, 0, 0, 4⟩, ⟨1, 2, 0, Versions.notYet⟩, ⟨3, 3, 2, Versions.notYet⟩] = [.versionStorage, .range 1 2] ∧
    enumBody { parsed := 5, versionDependent := true } .uint8 versioned [⟨0, 0, 0, 4⟩, ⟨1, 2, 0, Versions.notYet⟩, ⟨3, 3, 2, Versions.notYet⟩] =
      .anyOf [⟨none, some 4, 0, 0⟩, ⟨some 2, none, 3, 3⟩] := by
  refine ⟨?_, by decide +kernel, by decide +kernel, by decide +kernel, by decide +kernel, by decide +kernel⟩
  have := parsed_ok (attrs := [("type", "uint8"), ("validCheckVersion", "true")])
    (children := [value "A" "1", value "B" "2", value "C" "3" [("sinceVersion", "2")], value "D" "0" [("deprecated", "4")]]) (by decide +kernel)
  have e : versioned.nonUnique = false := by decide +kernel
  unfold versioned at e
  rw [e] at this
  exact this

/-- Many ranges: the hypotheses of `C77_many_partial`. -/
example : checkVersion { parsed := 5 } (many "13" []).num.validCheckVersion = false ∧
    enumRanges { parsed := 5 } .uint64 (many "13" []) = .ok ([1, 3, 5, 7, 9, 11, 13].map fun x => ⟨x, x, 0, Versions.notYet⟩) ∧
    (∀ p ∈ (many "13" []).values, interp .uint64 p.2.value = p.2.value) ∧
    enumBody { parsed := 5 } .uint64 (many "13" []) ([1, 3, 5, 7, 9, 11, 13].map fun x => ⟨x, x, 0, Versions.notYet⟩) =
      .listed ["A".toList, "B".toList, "C".toList, "D".toList, "E".toList, "F".toList, "G".toList] := by
  refine ⟨by decide +kernel, by decide +kernel, by decide +kernel, by decide +kernel⟩

/-- Refutation for signed 64 bit enums: the negative number is taken for an unsigned one, and is not valid. -/
theorem C77_misread_witness : ∃ (g : GVer) (b : Bool) (st : EnumF.State) (R : List RangeInfo), EnumF.Accepted b st ∧ st.num.type = some .int64 ∧
    checkVersion g st.num.validCheckVersion = false ∧ enumRanges g .int64 st = .ok R ∧ DeclaredSome g .int64 st.values (-1) ∧
    ∀ enumerator ver, ¬ Valid enumerator (enumOpts g .int64 st R) (enumBody g .int64 st R) ver (-1) := by
  refine ⟨{ parsed := 5 }, _, signed, [⟨-1, -1, 0, Versions.notYet⟩, ⟨1, 1, 0, Versions.notYet⟩], parsed_ok (by decide +kernel), by decide +kernel, by decide +kernel, by decide +kernel,
    ?_, fun en ver => ?_⟩
  · have : signed.values.head? = some ("A".toList, ⟨-1, 0, Versions.notYet, [], []⟩) := by decide +kernel
    exact ⟨_, List.mem_of_head? this, by decide, by decide, by decide⟩
  · have e1 : enumOpts { parsed := 5 } .int64 signed [⟨-1, -1, 0, Versions.notYet⟩, ⟨1, 1, 0, Versions.notYet⟩] = [.bigNum 18446744073709551615, .num 1] := by decide +kernel
    have e2 : enumBody { parsed := 5 } .int64 signed [⟨-1, -1, 0, Versions.notYet⟩, ⟨1, 1, 0, Versions.notYet⟩] = .none := by decide +kernel
    rw [e1, e2]
    rintro (⟨o, ho, a, b, hab, h⟩ | ⟨h, _⟩)
    · simp only [List.mem_cons, List.not_mem_nil, or_false] at ho
      rcases ho with rfl | rfl <;> cases hab <;> omega
    · have := h (.num 1) (by simp)
      cases this

/-- Refutation for `uint64` enums of many ranges: the enumerators are listed in the order of signed numbers, and the search misses declared ones. -/
theorem C77_order_witness : ∃ (g : GVer) (b : Bool) (st : EnumF.State) (R : List RangeInfo) (enumerator : Str → Option Int), EnumF.Accepted b st ∧ st.num.type = some .uint64 ∧
    checkVersion g st.num.validCheckVersion = false ∧ enumRanges g .uint64 st = .ok R ∧ (∀ p ∈ st.values, enumerator p.1 = some (interp .uint64 p.2.value)) ∧
    DeclaredSome g .uint64 st.values 1 ∧ ∀ ver, ¬ Valid enumerator (enumOpts g .uint64 st R) (enumBody g .uint64 st R) ver 1 := by
  refine ⟨{ parsed := 5 }, _, many "0xffffffffffffffff" [], [1, 3, 5, 7, 9, 11, -1].map fun x => ⟨x, x, 0, Versions.notYet⟩,
    fun s => (findSpecial (many "0xffffffffffffffff" []).values s).map fun i => interp .uint64 i.value,
    parsed_ok (by decide +kernel), by decide +kernel, by decide +kernel, by decide +kernel, by decide +kernel, ?_, fun ver => ?_⟩
  · have : (many "0xffffffffffffffff" []).values.head? = some ("A".toList, ⟨1, 0, Versions.notYet, [], []⟩) := by decide +kernel
    exact ⟨_, List.mem_of_head? this, by decide, by decide, by decide⟩
  · have e2 : enumBody { parsed := 5 } .uint64 (many "0xffffffffffffffff" []) ([1, 3, 5, 7, 9, 11, -1].map fun x => ⟨x, x, 0, Versions.notYet⟩) =
        .listed ["G".toList, "A".toList, "B".toList, "C".toList, "D".toList, "E".toList, "F".toList] := by decide +kernel
    rw [e2]
    rintro ⟨_, h⟩
    exact absurd h (by decide +kernel)

/-- Values that no supported version has are refused if there are few ranges, and accepted if there are many. -/
theorem C77_removed_witness : ∃ (g : GVer) (b : Bool) (st : EnumF.State) (R : List RangeInfo) (enumerator : Str → Option Int), EnumF.Accepted b st ∧ st.num.type = some .uint64 ∧
    checkVersion g st.num.validCheckVersion = false ∧ enumRanges g .uint64 st = .ok R ∧ (∀ p ∈ st.values, enumerator p.1 = some (interp .uint64 p.2.value)) ∧
    ¬ DeclaredSome g .uint64 st.values 13 ∧ ∀ ver, Valid enumerator (enumOpts g .uint64 st R) (enumBody g .uint64 st R) ver 13 := by
  refine ⟨{ parsed := 5, minRemote := 3 }, _, many "13" [("deprecated", "2")], [1, 3, 5, 7, 9, 11].map fun x => ⟨x, x, 0, Versions.notYet⟩,
    fun s => (findSpecial (many "13" [("deprecated", "2")]).values s).map fun i => interp .uint64 i.value,
    parsed_ok (by decide +kernel), by decide +kernel, by decide +kernel, by decide +kernel, by decide +kernel, ?_, fun ver => ?_⟩
  · have : ∀ p ∈ (many "13" [("deprecated", "2")]).values, ¬ (p.2.since ≤ GVer.version { parsed := 5, minRemote := 3 } ∧ 3 < p.2.depr ∧ interp .uint64 p.2.value = 13) := by decide +kernel
    rintro ⟨p, hp, h⟩
    exact this p hp h
  · have e1 : enumOpts { parsed := 5, minRemote := 3 } .uint64 (many "13" [("deprecated", "2")]) ([1, 3, 5, 7, 9, 11].map fun x => ⟨x, x, 0, Versions.notYet⟩) = [] := by decide +kernel
    have e2 : enumBody { parsed := 5, minRemote := 3 } .uint64 (many "13" [("deprecated", "2")]) ([1, 3, 5, 7, 9, 11].map fun x => ⟨x, x, 0, Versions.notYet⟩) =
        .listed ["A".toList, "B".toList, "C".toList, "D".toList, "E".toList, "F".toList, "G".toList] := by decide +kernel
    rw [e1, e2]
    exact ⟨Or.inr ⟨by simp, by simp⟩, by decide +kernel⟩

/-- With a forced schema version the list has enumerators that are not generated (it does not compile). -/
theorem C77_later_witness : ∃ (g : GVer) (b : Bool) (st : EnumF.State) (R : List RangeInfo) (names : List Str) (es : List (Str × Str)), EnumF.Accepted b st ∧
    st.num.type = some .uint64 ∧ g.prepareOk = true ∧ enumRanges g .uint64 st = .ok R ∧ enumBody g .uint64 st R = .listed names ∧
    enumerators g .uint64 st = .ok es ∧ "G".toList ∈ names ∧ "G".toList ∉ es.map Prod.fst := by
  refine ⟨forceVersion { parsed := 5 } 1, _, many "13" [("sinceVersion", "2")], [1, 3, 5, 7, 9, 11].map fun x => ⟨x, x, 0, Versions.notYet⟩,
    ["A".toList, "B".toList, "C".toList, "D".toList, "E".toList, "F".toList, "G".toList],
    [("A".toList, "1".toList), ("B".toList, "3".toList), ("C".toList, "5".toList), ("D".toList, "7".toList), ("E".toList, "9".toList), ("F".toList, "11".toList),
      ("FirstValue".toList, "1".toList), ("LastValue".toList, "13".toList), ("ValuesLimit".toList, "14".toList)],
    parsed_ok (by decide +kernel), by decide +kernel, by decide +kernel, by decide +kernel, by decide +kernel, by decide +kernel, by decide +kernel, by decide +kernel⟩

end Commsdsl.Props
