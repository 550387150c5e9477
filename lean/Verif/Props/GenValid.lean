import Verif.Spec.GenValid
import Verif.Spec.GenSchema
import Verif.Props.IntDeclared
import Verif.Props.GenNum
/-!
# C76 (generated validity checks of `<int>` fields)
-/
namespace Commsdsl.Props
open Commsdsl Text IntF Spec Gen

namespace GenValidProofs

/-- A number as the generator compares it. -/
def rd (big : Bool) (x : Int) : Int := if big then (castU64 x : Int) else x

def InR (big : Bool) (r : RangeInfo) (v : Int) : Prop := rd big r.min ≤ v ∧ v ≤ rd big r.max

theorem rd_true (x : Int) : rd true x = x % 18446744073709551616 := by simp only [rd, if_true, castU64]; omega
theorem rd_false (x : Int) : rd false x = x := by simp [rd]

theorem lessN_iff (big : Bool) (x y : Int) : lessN big x y = true ↔ rd big x < rd big y := by
  unfold lessN
  cases big with
  | true =>
    simp only [if_true, rd_true]
    rw [decide_eq_true_iff]
    unfold castU64
    omega
  | false =>
    simp only [Bool.false_eq_true, if_false, rd_false]
    exact decide_eq_true_iff

theorem mergeMax_max (big : Bool) (a b : RangeInfo) : rd big (mergeMax big a b).max = max (rd big a.max) (rd big b.max) := by
  unfold mergeMax
  split
  · rename_i h
    rw [lessN_iff] at h
    show rd big b.max = _
    omega
  · rename_i h
    rw [lessN_iff] at h
    omega

theorem mergeMax_same (big : Bool) (a b : RangeInfo) : (mergeMax big a b).min = a.min ∧ (mergeMax big a b).since = a.since ∧ (mergeMax big a b).depr = a.depr ∧
    ((mergeMax big a b).max = a.max ∨ (mergeMax big a b).max = b.max) := by
  unfold mergeMax
  split <;> simp

theorem mergeCheck_true {big : Bool} {a b : RangeInfo} (h : mergeCheck big a b = .ok true) (h1 : rd big a.min ≤ rd big b.min)
    (v : Int) : InR big (mergeMax big a b) v ↔ InR big a v ∨ InR big b v := by
  unfold InR
  rw [mergeMax_max, (mergeMax_same big a b).1]
  have hb : rd big b.min ≤ rd big a.max + 1 ∨ (rd big b.min = 0 ∧ rd big a.min = 0 ∧ rd big b.max ≤ rd big a.max) := by
    unfold mergeCheck at h
    cases big with
    | true =>
      simp only [if_true] at h
      have h := of_decide_eq_true (Res.ok.inj h)
      unfold castU64 at h
      simp only [rd_true] at *
      by_cases hw : a.max % 18446744073709551616 = 18446744073709551615
      · exact Or.inr (by omega)
      · exact Or.inl (by omega)
    | false =>
      simp only [Bool.false_eq_true, if_false] at h
      split at h
      · cases h
      · have h := of_decide_eq_true (Res.ok.inj h)
        simp only [rd_false]
        omega
  omega

/-- What the merge keeps. -/
structure Kept (big : Bool) (l l' : List RangeInfo) : Prop where
  same : ∀ v, (∃ r ∈ l', InR big r v) ↔ ∃ r ∈ l, InR big r v
  frm : ∀ r ∈ l', ∃ a ∈ l, ∃ b ∈ l, r.min = a.min ∧ r.max = b.max ∧ r.since = a.since ∧ r.depr = a.depr
  ord : ∀ r ∈ l', rd big r.min ≤ rd big r.max
  ne : l ≠ [] → l' ≠ []

theorem unify_kept (big : Bool) : ∀ (n : Nat) (l l' : List RangeInfo), l.length ≤ n → unify big l = .ok l' →
    l.Pairwise (fun a b => rd big a.min ≤ rd big b.min) → (∀ r ∈ l, rd big r.min ≤ rd big r.max) → Kept big l l' := by
  intro n
  induction n with
  | zero =>
    intro l l' hn h _ _
    have : l = [] := List.length_eq_zero_iff.1 (by omega)
    subst this
    rw [unify] at h
    cases h
    exact ⟨fun _ => Iff.rfl, fun r hr => by simp at hr, fun r hr => by simp at hr, fun h => h⟩
  | succ n ih =>
    intro l l' hn h hs ho
    match l, hn, h, hs, ho with
    | [], _, h, _, _ =>
      rw [unify] at h
      cases h
      exact ⟨fun _ => Iff.rfl, fun r hr => by simp at hr, fun r hr => by simp at hr, fun h => h⟩
    | [r], _, h, _, ho =>
      rw [unify] at h
      cases h
      exact ⟨fun _ => Iff.rfl, fun x hx => ⟨x, hx, x, hx, rfl, rfl, rfl, rfl⟩, ho, fun _ => by simp⟩
    | r :: x :: rest, hn, h, hs, ho =>
      rw [unify] at h
      rw [Res.bind_eq_ok] at h
      obtain ⟨m, hm, h⟩ := h
      have hrx : rd big r.min ≤ rd big x.min := (List.pairwise_cons.1 hs).1 x (by simp)
      have hsame := mergeMax_same big r x
      cases m with
      | true =>
        simp only [if_true] at h
        have hs' : (mergeMax big r x :: rest).Pairwise (fun a b => rd big a.min ≤ rd big b.min) := by
          rw [List.pairwise_cons]
          refine ⟨fun y hy => ?_, (List.pairwise_cons.1 (List.pairwise_cons.1 hs).2).2⟩
          rw [hsame.1]
          exact (List.pairwise_cons.1 hs).1 y (by simp [hy])
        have ho' : ∀ y ∈ mergeMax big r x :: rest, rd big y.min ≤ rd big y.max := by
          intro y hy
          rcases List.mem_cons.1 hy with hy | hy
          · subst hy
            rw [mergeMax_max, hsame.1]
            have := ho r (by simp)
            omega
          · exact ho y (by simp [hy])
        have hk := ih _ _ (by simp only [List.length_cons] at hn ⊢; omega) h hs' ho'
        refine ⟨fun v => ?_, fun y hy => ?_, hk.ord, fun _ => hk.ne (by simp)⟩
        · rw [hk.same v]
          have := mergeCheck_true hm hrx v
          constructor
          · rintro ⟨y, hy, hv⟩
            rcases List.mem_cons.1 hy with hy | hy
            · subst hy
              rcases this.1 hv with h1 | h1
              · exact ⟨r, by simp, h1⟩
              · exact ⟨x, by simp, h1⟩
            · exact ⟨y, by simp [hy], hv⟩
          · rintro ⟨y, hy, hv⟩
            rcases List.mem_cons.1 hy with hy | hy
            · subst hy
              exact ⟨_, by simp, this.2 (Or.inl hv)⟩
            · rcases List.mem_cons.1 hy with hy | hy
              · subst hy
                exact ⟨_, by simp, this.2 (Or.inr hv)⟩
              · exact ⟨y, by simp [hy], hv⟩
        · obtain ⟨a, ha, b, hb, e1, e2, e3, e4⟩ := hk.frm y hy
          have key : ∀ z ∈ mergeMax big r x :: rest, ∃ c ∈ r :: x :: rest, z.min = c.min ∧ z.since = c.since ∧ z.depr = c.depr := by
            intro z hz
            rcases List.mem_cons.1 hz with hz | hz
            · subst hz
              exact ⟨r, by simp, hsame.1, hsame.2.1, hsame.2.2.1⟩
            · exact ⟨z, by simp [hz], rfl, rfl, rfl⟩
          have key2 : ∀ z ∈ mergeMax big r x :: rest, ∃ c ∈ r :: x :: rest, z.max = c.max := by
            intro z hz
            rcases List.mem_cons.1 hz with hz | hz
            · subst hz
              rcases hsame.2.2.2 with h1 | h1
              · exact ⟨r, by simp, h1⟩
              · exact ⟨x, by simp, h1⟩
            · exact ⟨z, by simp [hz], rfl⟩
          obtain ⟨c, hc, c1, c2, c3⟩ := key a ha
          obtain ⟨d, hd, d1⟩ := key2 b hb
          exact ⟨c, hc, d, hd, e1.trans c1, e2.trans d1, e3.trans c2, e4.trans c3⟩
      | false =>
        simp only [Bool.false_eq_true, if_false, Res.bind_eq_ok, Res.pure_eq] at h
        obtain ⟨l2, h2, h3⟩ := h
        cases Res.ok.inj h3
        have hk := ih _ _ (by simp only [List.length_cons] at hn ⊢; omega) h2 (List.pairwise_cons.1 hs).2 (fun y hy => ho y (by simp [hy]))
        refine ⟨fun v => ?_, fun y hy => ?_, fun y hy => ?_, fun _ => by simp⟩
        · simp only [List.mem_cons] at hk ⊢
          constructor
          · rintro ⟨y, hy | hy, hv⟩
            · exact ⟨y, Or.inl hy, hv⟩
            · obtain ⟨z, hz, hv⟩ := (hk.same v).1 ⟨y, hy, hv⟩
              exact ⟨z, Or.inr (List.mem_cons.1 hz), hv⟩
          · rintro ⟨y, hy | hy, hv⟩
            · exact ⟨y, Or.inl hy, hv⟩
            · obtain ⟨z, hz, hv⟩ := (hk.same v).2 ⟨y, List.mem_cons.2 hy, hv⟩
              exact ⟨z, Or.inr hz, hv⟩
        · rcases List.mem_cons.1 hy with hy | hy
          · subst hy
            exact ⟨y, by simp, y, by simp, rfl, rfl, rfl, rfl⟩
          · obtain ⟨a, ha, b, hb, e⟩ := hk.frm y hy
            exact ⟨a, List.mem_cons.2 (Or.inr ha), b, List.mem_cons.2 (Or.inr hb), e⟩
        · rcases List.mem_cons.1 hy with hy | hy
          · subst hy
            exact ho y (by simp)
          · exact hk.ord y hy

/-- Without a bound at the very end of the signed range nothing undefined happens. -/
theorem unify_ok (big : Bool) : ∀ (n : Nat) (l : List RangeInfo), l.length ≤ n → (big = false → ∀ r ∈ l, r.max < i64Max) → ∃ l', unify big l = .ok l' := by
  intro n
  induction n with
  | zero =>
    intro l hn _
    have : l = [] := List.length_eq_zero_iff.1 (by omega)
    subst this
    exact ⟨[], by rw [unify]⟩
  | succ n ih =>
    intro l hn hm
    match l, hn, hm with
    | [], _, _ => exact ⟨[], by rw [unify]⟩
    | [r], _, _ => exact ⟨[r], by rw [unify]⟩
    | r :: x :: rest, hn, hm =>
      have hc : ∃ m, mergeCheck big r x = .ok m := by
        unfold mergeCheck
        cases big with
        | true => exact ⟨_, rfl⟩
        | false =>
          have := hm rfl r (by simp)
          simp only [Bool.false_eq_true, if_false]
          rw [if_neg (by omega)]
          exact ⟨_, rfl⟩
      obtain ⟨m, hc⟩ := hc
      rw [unify, hc]
      simp only [Res.bind_ok]
      cases m with
      | true =>
        simp only [if_true]
        refine ih _ (by simp only [List.length_cons] at hn ⊢; omega) (fun hb y hy => ?_)
        rcases List.mem_cons.1 hy with hy | hy
        · subst hy
          rcases (mergeMax_same big r x).2.2.2 with h1 | h1 <;> rw [h1]
          · exact hm hb r (by simp)
          · exact hm hb x (by simp)
        · exact hm hb y (by simp [hy])
      | false =>
        simp only [Bool.false_eq_true, if_false]
        obtain ⟨l2, h2⟩ := ih (x :: rest) (by simp only [List.length_cons] at hn ⊢; omega) (fun hb y hy => hm hb y (by simp only [List.mem_cons] at hy ⊢; exact Or.inr hy))
        rw [h2]
        exact ⟨_, rfl⟩

/-- The option for a range declares exactly the range, as the generator reads it. -/
theorem rangeOpt_bounds (big : Bool) (r : RangeInfo) (h1 : i64Min ≤ r.min ∧ r.min ≤ i64Max) (h2 : i64Min ≤ r.max ∧ r.max ≤ i64Max) :
    boundsOf (rangeOpt big r) = some (rd big r.min, rd big r.max) := by
  unfold rangeOpt
  unfold i64Min i64Max at *
  cases big with
  | true =>
    simp only [Bool.true_and]
    split
    · split
      · rename_i h; simp [boundsOf, rd, h]
      · simp [boundsOf, rd]
    · rename_i h
      simp only [Bool.not_eq_true, Bool.not_eq_false', Bool.and_eq_true] at h
      have ha := of_decide_eq_true h.1
      have hb := of_decide_eq_true h.2
      unfold castU64 at ha hb
      split
      · rename_i h3
        simp only [boundsOf, rd_true]
        rw [← h3]
        simp only [Option.some.injEq, Prod.mk.injEq]
        omega
      · simp only [boundsOf, rd_true, Option.some.injEq, Prod.mk.injEq]
        omega
  | false =>
    simp only [Bool.false_and, Bool.false_eq_true, if_false, rd_false]
    split
    · rename_i h; simp [boundsOf, h]
    · simp [boundsOf]

theorem rangeOpt_ne (big : Bool) (r : RangeInfo) : rangeOpt big r ≠ .invalidByDefault ∧ rangeOpt big r ≠ .versionStorage := by
  unfold rangeOpt
  repeat' split
  all_goals simp

/-- The loop over the ranges: the options, without the two about versions. -/
theorem loop_mem (g : GVer) (chk big : Bool) : ∀ (l : List RangeInfo) (o : VOpt), o ∈ (intOptsLoop g chk big l).1 ↔
    ∃ r ∈ l, o = rangeOpt big r ∧ doesExist g r.since r.depr (!chk) = true ∧ ¬ (chk = true ∧ isOptional g r.since r.depr false = true) := by
  intro l
  induction l with
  | nil => intro o; simp [intOptsLoop]
  | cons r rs ih =>
    intro o
    simp only [intOptsLoop]
    split
    · rename_i h
      rw [ih o]
      constructor
      · rintro ⟨x, hx, hr⟩; exact ⟨x, by simp [hx], hr⟩
      · rintro ⟨x, hx, h1, h2, h3⟩
        rcases List.mem_cons.1 hx with hx | hx
        · subst hx; simp [h2] at h
        · exact ⟨x, hx, h1, h2, h3⟩
    · rename_i he
      split
      · rename_i h
        simp only [Bool.and_eq_true] at h
        rw [ih o]
        constructor
        · rintro ⟨x, hx, hr⟩; exact ⟨x, by simp [hx], hr⟩
        · rintro ⟨x, hx, h1, h2, h3⟩
          rcases List.mem_cons.1 hx with hx | hx
          · subst hx; exact absurd h h3
          · exact ⟨x, hx, h1, h2, h3⟩
      · rename_i h
        simp only [Bool.and_eq_true] at h
        rw [List.mem_cons, ih o]
        constructor
        · rintro (hx | ⟨x, hx, hr⟩)
          · exact ⟨r, by simp, hx, by simpa using he, h⟩
          · exact ⟨x, by simp [hx], hr⟩
        · rintro ⟨x, hx, h1, h2, h3⟩
          rcases List.mem_cons.1 hx with hx | hx
          · subst hx; exact Or.inl h1
          · exact Or.inr ⟨x, hx, h1, h2, h3⟩

theorem loop_storage (g : GVer) (chk big : Bool) : ∀ l : List RangeInfo, (intOptsLoop g chk big l).2 = true ↔
    ∃ r ∈ l, doesExist g r.since r.depr (!chk) = true ∧ chk = true ∧ isOptional g r.since r.depr false = true := by
  intro l
  induction l with
  | nil => simp [intOptsLoop]
  | cons r rs ih =>
    simp only [intOptsLoop]
    split
    · rename_i h
      rw [ih]
      constructor
      · rintro ⟨x, hx, hr⟩; exact ⟨x, by simp [hx], hr⟩
      · rintro ⟨x, hx, h1, h2⟩
        rcases List.mem_cons.1 hx with hx | hx
        · subst hx; simp [h1] at h
        · exact ⟨x, hx, h1, h2⟩
    · rename_i he
      split
      · rename_i h
        simp only [Bool.and_eq_true] at h
        simp only [true_iff]
        exact ⟨r, by simp, by simpa using he, h⟩
      · rename_i h
        simp only [Bool.and_eq_true] at h
        rw [ih]
        constructor
        · rintro ⟨x, hx, hr⟩; exact ⟨x, by simp [hx], hr⟩
        · rintro ⟨x, hx, h1, h2⟩
          rcases List.mem_cons.1 hx with hx | hx
          · subst hx; exact absurd h2 h
          · exact ⟨x, hx, h1, h2⟩

theorem rd_opt {t : IntType} {n : Nat} {x : Int} (h : ReadsAs t n x) : rd (bigOpt t n) x = interp t x := by
  unfold ReadsAs at h
  rw [← h]
  cases hb : bigOpt t n with
  | true => rw [rd_true]; simp
  | false => rw [rd_false]; simp

theorem rd_body (t : IntType) (x : Int) : rd (bigBody t) x = interp t x := by
  cases t <;> simp [bigBody, rd, interp, castU64] <;> omega

end GenValidProofs

open GenValidProofs

/-- The ranges of a field, in the order in which the parser keeps them (C12), their bounds in order; the generator reads the bounds as the type says. -/
structure PlainRanges (t : IntType) (maxLen : Nat) (ranges : List RangeInfo) : Prop where
  in64 : ∀ r ∈ ranges, (i64Min ≤ r.min ∧ r.min ≤ i64Max) ∧ (i64Min ≤ r.max ∧ r.max ≤ i64Max)
  ordered : ∀ r ∈ ranges, interp t r.min ≤ interp t r.max
  sorted : ranges.Pairwise fun a b => interp t a.min ≤ interp t b.min
  reads : ∀ r ∈ ranges, ReadsAs t maxLen r.min ∧ ReadsAs t maxLen r.max

/-- C76, versions not looked at: the generated check accepts exactly the values in one of the declared ranges. Missing: ranges that do not exist in any supported
    version (`C76_merged_witness`), bounds that the generator misreads (`C76_int64_witness`), the greatest signed number as bound (`C76_overflow_witness`). -/
theorem C76_unversioned_partial (g : GVer) (t : IntType) (maxLen : Nat) (vcv : Bool) (ranges : List RangeInfo) (hv : checkVersion g vcv = false)
    (hne : ranges ≠ []) (hp : PlainRanges t maxLen ranges) (hm : ∀ r ∈ ranges, r.max < i64Max) (he : ∀ r ∈ ranges, doesExist g r.since r.depr true = true) :
    ∃ opts, intOpts g t maxLen vcv ranges = .ok opts ∧ Fits opts (intBody g t vcv ranges) ∧
      ∀ enumerator ver v, Valid enumerator opts (intBody g t vcv ranges) ver v ↔ ∃ r ∈ ranges, interp t r.min ≤ v ∧ v ≤ interp t r.max := by
  have hb : intBody g t vcv ranges = .none := by simp [intBody, hv]
  obtain ⟨l, hl⟩ := unify_ok (bigOpt t maxLen) _ ranges (Nat.le_refl _) (fun _ => hm)
  have hk := unify_kept (bigOpt t maxLen) _ ranges l (Nat.le_refl _) hl
    (hp.sorted.imp_of_mem fun {a b} ha hb h => by rw [rd_opt (hp.reads a ha).1, rd_opt (hp.reads b hb).1]; exact h)
    (fun r hr => by rw [rd_opt (hp.reads r hr).1, rd_opt (hp.reads r hr).2]; exact hp.ordered r hr)
  have hex : ∀ r ∈ l, doesExist g r.since r.depr true = true := by
    intro r hr
    obtain ⟨a, ha, _, _, _, _, e1, e2⟩ := hk.frm r hr
    rw [e1, e2]
    exact he a ha
  have h64 : ∀ r ∈ l, (i64Min ≤ r.min ∧ r.min ≤ i64Max) ∧ (i64Min ≤ r.max ∧ r.max ≤ i64Max) := by
    intro r hr
    obtain ⟨a, ha, b, hb, e1, e2, _, _⟩ := hk.frm r hr
    rw [e1, e2]
    exact ⟨(hp.in64 a ha).1, (hp.in64 b hb).2⟩
  have hst : (intOptsLoop g false (bigOpt t maxLen) l).2 = false := by
    rw [Bool.eq_false_iff]
    intro h
    obtain ⟨r, _, _, h, _⟩ := (loop_storage g false (bigOpt t maxLen) l).1 h
    cases h
  have hmem : ∀ o, o ∈ (intOptsLoop g false (bigOpt t maxLen) l).1 ↔ ∃ r ∈ l, o = rangeOpt (bigOpt t maxLen) r := by
    intro o
    rw [loop_mem]
    constructor
    · rintro ⟨r, hr, h, _⟩; exact ⟨r, hr, h⟩
    · rintro ⟨r, hr, h⟩; exact ⟨r, hr, h, hex r hr, by simp⟩
  refine ⟨(intOptsLoop g false (bigOpt t maxLen) l).1, ?_, ⟨?_, ?_⟩, ?_⟩
  · unfold intOpts intRanges
    rw [if_neg (by simpa using hne), hv]
    simp only [Bool.false_eq_true, if_false, hl, Res.bind_ok, hst, List.append_nil, Res.pure_eq]
  · intro o ho a b hab
    obtain ⟨r, hr, e⟩ := (hmem o).1 ho
    subst e
    rw [rangeOpt_bounds _ _ (h64 r hr).1 (h64 r hr).2] at hab
    cases hab
    exact hk.ord r hr
  · intro cs h
    rw [hb] at h
    cases h
  · intro en ver v
    rw [hb]
    show BaseValid _ v ↔ _
    have hreal : (∃ r ∈ ranges, interp t r.min ≤ v ∧ v ≤ interp t r.max) ↔ ∃ r ∈ ranges, InR (bigOpt t maxLen) r v := by
      constructor
      · rintro ⟨r, hr, h⟩; exact ⟨r, hr, by unfold InR; rw [rd_opt (hp.reads r hr).1, rd_opt (hp.reads r hr).2]; exact h⟩
      · rintro ⟨r, hr, h⟩; exact ⟨r, hr, by unfold InR at h; rw [rd_opt (hp.reads r hr).1, rd_opt (hp.reads r hr).2] at h; exact h⟩
    rw [hreal, ← hk.same v]
    unfold BaseValid
    constructor
    · rintro (⟨o, ho, a, b, hab, hv⟩ | ⟨h, _⟩)
      · obtain ⟨r, hr, e⟩ := (hmem o).1 ho
        subst e
        rw [rangeOpt_bounds _ _ (h64 r hr).1 (h64 r hr).2] at hab
        cases hab
        exact ⟨r, hr, hv⟩
      · obtain ⟨r, hr⟩ := List.exists_mem_of_ne_nil _ (hk.ne hne)
        have := h _ ((hmem _).2 ⟨r, hr, rfl⟩)
        rw [rangeOpt_bounds _ _ (h64 r hr).1 (h64 r hr).2] at this
        cases this
    · rintro ⟨r, hr, h⟩
      exact Or.inl ⟨_, (hmem _).2 ⟨r, hr, rfl⟩, _, _, rangeOpt_bounds _ _ (h64 r hr).1 (h64 r hr).2, h⟩

/-- C76 without valid ranges: every value is valid. -/
theorem C76_no_ranges (g : GVer) (t : IntType) (maxLen : Nat) (vcv : Bool) : intOpts g t maxLen vcv [] = .ok [] ∧
    ∀ enumerator ver v, Valid enumerator [] (intBody g t vcv []) ver v := by
  refine ⟨by simp [intOpts], fun en ver v => ?_⟩
  have : intBody g t vcv [] = .none := by simp [intBody]
  rw [this]
  exact Or.inr ⟨by simp, by simp⟩

/-- C76, versions looked at: for each supported version of the other side the generated check accepts exactly the values declared valid in it. Missing: ranges that
    exist in all supported versions from the first on and are deprecated later (`C76_deprecated_witness`), ranges added after a forced schema version
    (`C76_later_witness`), misread bounds. -/
theorem C76_versioned_partial (g : GVer) (t : IntType) (maxLen : Nat) (vcv : Bool) (ranges : List RangeInfo) (hv : checkVersion g vcv = true)
    (hp : PlainRanges t maxLen ranges) (hd : ∀ r ∈ ranges, r.since ≤ g.minRemote → Versions.notYet ≤ r.depr) (hne : ranges ≠ [])
    (hs : ∀ r ∈ ranges, r.since ≤ g.version) (hver : g.version < Versions.notYet) :
    ∃ opts, intOpts g t maxLen vcv ranges = .ok opts ∧ Fits opts (intBody g t vcv ranges) ∧
      ∀ enumerator ver v, Supported g ver → (Valid enumerator opts (intBody g t vcv ranges) ver v ↔ ValidAt t ranges ver v) := by
  let L := intOptsLoop g true (bigOpt t maxLen) ranges
  have hL : L = intOptsLoop g true (bigOpt t maxLen) ranges := rfl
  have hex : ∀ r : RangeInfo, doesExist g r.since r.depr (!true) = true ↔ r.since ≤ g.version := by
    intro r; unfold doesExist; simp
  have hopt : ∀ r : RangeInfo, isOptional g r.since r.depr false = true ↔ g.minRemote < r.since := by
    intro r; unfold isOptional; simp
  have hmem : ∀ o, o ∈ L.1 ↔ ∃ r ∈ ranges, o = rangeOpt (bigOpt t maxLen) r ∧ r.since ≤ g.version ∧ r.since ≤ g.minRemote := by
    intro o
    rw [hL, loop_mem]
    constructor
    · rintro ⟨r, hr, h, h2, h3⟩
      rw [hex] at h2
      rw [hopt] at h3
      exact ⟨r, hr, h, h2, by simpa using h3⟩
    · rintro ⟨r, hr, h, h2, h3⟩
      exact ⟨r, hr, h, (hex r).2 h2, by rw [hopt]; simpa using h3⟩
  have hst : L.2 = true ↔ ∃ r ∈ ranges, r.since ≤ g.version ∧ g.minRemote < r.since := by
    rw [hL, loop_storage]
    simp only [hex, hopt, true_and]
  refine ⟨L.1 ++ (if L.2 then .versionStorage :: (if L.1.isEmpty then [.invalidByDefault] else []) else []), ?_, ⟨?_, ?_⟩, ?_⟩
  · unfold intOpts intRanges
    rw [if_neg (by simpa using hne), hv]
    simp only [if_true, Res.bind_ok, Res.pure_eq]
    rfl
  · intro o ho a b hab
    rw [List.mem_append] at ho
    rcases ho with ho | ho
    · obtain ⟨r, hr, e, _⟩ := (hmem o).1 ho
      subst e
      rw [rangeOpt_bounds _ _ (hp.in64 r hr).1 (hp.in64 r hr).2] at hab
      cases hab
      rw [rd_opt (hp.reads r hr).1, rd_opt (hp.reads r hr).2]
      exact hp.ordered r hr
    · split at ho
      · rcases List.mem_cons.1 ho with ho | ho
        · subst ho; cases hab
        · split at ho
          · rw [List.mem_singleton] at ho; subst ho; cases hab
          · simp at ho
      · simp at ho
  · intro cs h hc
    obtain ⟨c, hc, _⟩ := hc
    have hcs : ∃ r ∈ ranges, g.minRemote < r.since := by
      unfold intBody at h
      rw [hv] at h
      simp only [Bool.not_true, Bool.false_eq_true, if_false] at h
      split at h
      · cases h
      · cases h
        obtain ⟨r, hr, _⟩ := List.mem_map.1 hc
        obtain ⟨hr, ho⟩ := List.mem_filter.1 hr
        refine ⟨r, hr, ?_⟩
        rcases Nat.lt_or_ge g.minRemote r.since with h1 | h1
        · exact h1
        · have := hd r hr h1
          unfold isOptional at ho
          simp only [Bool.true_and] at ho
          rw [if_neg (by omega), if_neg (by simp; omega)] at ho
          cases ho
    obtain ⟨r, hr, h1⟩ := hcs
    have : L.2 = true := hst.2 ⟨r, hr, hs r hr, h1⟩
    simp [this]
  · intro en ver v hsup
    have hbase : BaseValid (L.1 ++ (if L.2 then .versionStorage :: (if L.1.isEmpty then [.invalidByDefault] else []) else [])) v ↔
        ∃ r ∈ ranges, r.since ≤ g.minRemote ∧ interp t r.min ≤ v ∧ v ≤ interp t r.max := by
      unfold BaseValid
      constructor
      · rintro (⟨o, ho, a, b, hab, hv⟩ | ⟨h1, h2⟩)
        · rw [List.mem_append] at ho
          rcases ho with ho | ho
          · obtain ⟨r, hr, e, _, h3⟩ := (hmem o).1 ho
            subst e
            rw [rangeOpt_bounds _ _ (hp.in64 r hr).1 (hp.in64 r hr).2, rd_opt (hp.reads r hr).1, rd_opt (hp.reads r hr).2] at hab
            cases hab
            exact ⟨r, hr, h3, hv⟩
          · split at ho
            · rcases List.mem_cons.1 ho with ho | ho
              · subst ho; cases hab
              · split at ho
                · rw [List.mem_singleton] at ho; subst ho; cases hab
                · simp at ho
            · simp at ho
        · exfalso
          have hnil : L.1 = [] := by
            cases hl : L.1 with
            | nil => rfl
            | cons o os =>
              obtain ⟨r, hr, e, _⟩ := (hmem o).1 (by rw [hl]; simp)
              have := h1 o (by rw [hl]; simp)
              rw [e, rangeOpt_bounds _ _ (hp.in64 r hr).1 (hp.in64 r hr).2] at this
              cases this
          obtain ⟨r, hr⟩ := List.exists_mem_of_ne_nil _ hne
          have hlt : g.minRemote < r.since := by
            rcases Nat.lt_or_ge g.minRemote r.since with h3 | h3
            · exact h3
            · have := (hmem _).2 ⟨r, hr, rfl, hs r hr, h3⟩
              rw [hnil] at this
              simp at this
          have hs2 : L.2 = true := hst.2 ⟨r, hr, hs r hr, hlt⟩
          rw [hnil, hs2] at h2
          simp at h2
      · rintro ⟨r, hr, h1, h2⟩
        refine Or.inl ⟨_, List.mem_append.2 (Or.inl ((hmem _).2 ⟨r, hr, rfl, hs r hr, h1⟩)), _, _, rangeOpt_bounds _ _ (hp.in64 r hr).1 (hp.in64 r hr).2, ?_⟩
        rw [rd_opt (hp.reads r hr).1, rd_opt (hp.reads r hr).2]
        exact h2
    generalize (L.1 ++ (if L.2 then VOpt.versionStorage :: (if L.1.isEmpty then [VOpt.invalidByDefault] else []) else [])) = O at hbase ⊢
    have hcheck : ∀ r ∈ ranges, Holds (intCheck t r) ver v ↔ (r.since ≤ ver ∧ ver < r.depr) ∧ interp t r.min ≤ v ∧ v ≤ interp t r.max := by
      intro r hr
      have e1 : (intCheck t r).min = interp t r.min := rd_body t r.min
      have e2 : (intCheck t r).max = interp t r.max := rd_body t r.max
      unfold Holds
      rw [e1, e2]
      have h3 : (∀ n, (intCheck t r).frm = some n → n ≤ ver) ↔ r.since ≤ ver := by
        unfold intCheck
        simp only
        split
        · simp
        · simp; omega
      have h4 : (∀ n, (intCheck t r).upto = some n → ver < n) ↔ ver < r.depr := by
        have := hsup.2
        unfold intCheck
        simp only
        split
        · simp
        · simp; omega
      rw [h3, h4, and_assoc]
    have hvalid : Valid en O (intBody g t vcv ranges) ver v ↔
        (∃ r ∈ ranges, r.since ≤ g.minRemote ∧ interp t r.min ≤ v ∧ v ≤ interp t r.max) ∨
        ∃ r ∈ ranges, isOptional g r.since r.depr true = true ∧ (r.since ≤ ver ∧ ver < r.depr) ∧ interp t r.min ≤ v ∧ v ≤ interp t r.max := by
      unfold intBody
      rw [hv]
      simp only [Bool.not_true, Bool.false_eq_true, if_false]
      split
      · rename_i he
        show BaseValid _ v ↔ _
        rw [hbase]
        constructor
        · exact Or.inl
        · rintro (h | ⟨r, hr, ho, _⟩)
          · exact h
          · have hm : r ∈ ranges.filter (fun r => isOptional g r.since r.depr true) := List.mem_filter.2 ⟨hr, ho⟩
            rw [List.isEmpty_iff.1 he] at hm
            simp at hm
      · show (BaseValid _ v ∨ _) ↔ _
        rw [hbase]
        refine or_congr Iff.rfl ?_
        constructor
        · rintro ⟨c, hc, hh⟩
          obtain ⟨r, hr, e⟩ := List.mem_map.1 hc
          obtain ⟨hr, ho⟩ := List.mem_filter.1 hr
          subst e
          exact ⟨r, hr, ho, (hcheck r hr).1 hh⟩
        · rintro ⟨r, hr, ho, hh⟩
          exact ⟨_, List.mem_map.2 ⟨r, List.mem_filter.2 ⟨hr, ho⟩, rfl⟩, (hcheck r hr).2 hh⟩
    rw [hvalid]
    unfold ValidAt
    have h1 := hsup.1
    have h2 := hsup.2
    constructor
    · rintro (⟨r, hr, ha, hb⟩ | ⟨r, hr, _, ha, hb⟩)
      · have := hd r hr ha
        exact ⟨r, hr, by omega, by omega, hb⟩
      · exact ⟨r, hr, ha.1, ha.2, hb⟩
    · rintro ⟨r, hr, ha, hb, hc⟩
      rcases Nat.lt_or_ge g.minRemote r.since with h3 | h3
      · exact Or.inr ⟨r, hr, by unfold isOptional; rw [if_pos h3], ⟨ha, hb⟩, hc⟩
      · exact Or.inl ⟨r, hr, h3, hc⟩

/-- The text of an option is its name with literals of exactly its numbers. -/
theorem C76_text (big : Bool) (r : RangeInfo) (h1 : i64Min < r.min ∧ r.min ≤ i64Max) (h2 : i64Min < r.max ∧ r.max ≤ i64Max) :
    ∃ text a b, (rangeOpt big r).text = .ok text ∧ boundsOf (rangeOpt big r) = some (a, b) ∧
      ∃ la, CppExpr la a ∧ ((a = b ∧ ∃ n ∈ ["ValidNumValue", "ValidBigUnsignedNumValue"], text = "comms::option::def::".toList ++ n.toList ++ "<".toList ++ la ++ ">".toList) ∨
        ∃ lb, CppExpr lb b ∧ ∃ n ∈ ["ValidNumValueRange", "ValidBigUnsignedNumValueRange"],
          text = "comms::option::def::".toList ++ n.toList ++ "<".toList ++ la ++ ", ".toList ++ lb ++ ">".toList) := by
  unfold i64Min i64Max at *
  have hS : ∀ x : Int, -9223372036854775808 < x → x ≤ 9223372036854775807 → ∃ s, numToStringS x = .ok s ∧ CppExpr s x :=
    fun x ha hb => C51_signed_partial x (by omega) (by omega)
  have hU : ∀ x : Int, CppExpr (numToStringU (castU64 x) 0) (castU64 x : Int) := by
    intro x
    obtain ⟨sg, hl⟩ := C51_unsigned (castU64 x) 0 (by unfold castU64; omega)
    exact Or.inl ⟨_, sg, hl, rfl⟩
  unfold rangeOpt
  split
  · split
    · exact ⟨_, _, _, rfl, rfl, _, hU _, Or.inl ⟨rfl, _, List.mem_cons_of_mem _ (List.mem_singleton.2 rfl), by simp only [List.append_assoc]; rfl⟩⟩
    · exact ⟨_, _, _, rfl, rfl, _, hU _, Or.inr ⟨_, hU _, _, List.mem_cons_of_mem _ (List.mem_singleton.2 rfl), by simp only [List.append_assoc]; rfl⟩⟩
  · obtain ⟨s1, e1, c1⟩ := hS r.min h1.1 h1.2
    obtain ⟨s2, e2, c2⟩ := hS r.max h2.1 h2.2
    split
    · refine ⟨"comms::option::def::ValidNumValue<".toList ++ s1 ++ ">".toList, _, _, by simp only [VOpt.text, e1, Res.bind_ok, Res.pure_eq], rfl, _, c1, Or.inl ⟨rfl, _, List.mem_cons_self, by simp only [List.append_assoc]; rfl⟩⟩
    · refine ⟨"comms::option::def::ValidNumValueRange<".toList ++ s1 ++ ", ".toList ++ s2 ++ ">".toList, _, _, by simp only [VOpt.text, e1, e2, Res.bind_ok, Res.pure_eq], rfl, _, c1, Or.inr ⟨_, c2, _, List.mem_cons_self, by simp only [List.append_assoc]; rfl⟩⟩

/-- The ranges of an accepted field are sorted: the hypotheses of C76 are about single bounds only. -/
theorem C76_field (st : State) (h : Accepted st) (t : IntType) (ht : st.type = some t)
    (h64 : ∀ r ∈ st.validRanges, (i64Min ≤ r.min ∧ r.min ≤ i64Max) ∧ (i64Min ≤ r.max ∧ r.max ≤ i64Max))
    (ho : ∀ r ∈ st.validRanges, interp t r.min ≤ interp t r.max)
    (hr : ∀ r ∈ st.validRanges, ReadsAs t (IntF.maxLength st) r.min ∧ ReadsAs t (IntF.maxLength st) r.max) :
    PlainRanges t (IntF.maxLength st) st.validRanges := by
  have hn : ∃ t l, st.type = some t ∧ normaliseRanges t l = .ok st.validRanges := by
    cases h with
    | fresh h =>
      obtain ⟨t, add, h1, h2, _⟩ := C11_field _ _ _ _ h
      exact ⟨t, _, h1, h2⟩
    | reuse _ h =>
      obtain ⟨t, add, h1, h2, _⟩ := C11_field _ _ _ _ h
      exact ⟨t, _, h1, h2⟩
  obtain ⟨t', l, ht', hl⟩ := hn
  rw [ht] at ht'
  cases ht'
  refine ⟨h64, ho, ?_, hr⟩
  unfold normaliseRanges at hl
  simp only [Res.bind_eq_ok, Res.pure_eq] at hl
  obtain ⟨m, _, h2⟩ := hl
  have e : sortBy (ltByValue (isBigUnsigned t)) (m.filter fun r => r.depr ≠ 0) = st.validRanges := by simpa using h2
  rw [← e] at h64 ⊢
  refine (IntDeclaredProofs.sorted_w _ _ (fun r hr => h64 r ((mem_sortBy _ _ _).2 hr))).imp ?_
  intro a b hw
  unfold IntDeclaredProofs.wle at hw
  unfold interp
  by_cases hb : isBigUnsigned t = true
  · rw [if_pos ((IntDeclaredProofs.big_iff t).1 hb), if_pos ((IntDeclaredProofs.big_iff t).1 hb)]
    rw [hb] at hw
    simp only [if_true, castU64] at hw
    omega
  · have hn := mt (IntDeclaredProofs.big_iff t).2 hb
    rw [if_neg hn, if_neg hn]
    have hb : isBigUnsigned t = false := by simpa using hb
    rw [hb] at hw
    simp only [Bool.false_eq_true, if_false] at hw
    omega

/-- The bounds are read as the type says for all types of at most 32 bits and for `uint64`, and for the others as long as they are not negative as signed 64 bit numbers. -/
theorem C76_reads (t : IntType) (maxLen : Nat) (x : Int) (hl : maxLen ≤ maxTypeLength t)
    (h : (t ≠ .int64 ∧ t ≠ .intvar ∧ t ≠ .uintvar) ∨ (0 ≤ x ∧ x ≤ i64Max)) : ReadsAs t maxLen x := by
  unfold i64Max at h
  unfold ReadsAs bigOpt interp
  cases t <;> simp [maxTypeLength] at hl h ⊢ <;> (try split) <;> omega

/-- Deprecated ranges: with versions looked at, a range from the first supported version on stays valid in all of them, and the function asks for a version that
    is not there. -/
theorem C76_deprecated_witness : ∃ (g : GVer) (r : RangeInfo) (opts : List VOpt), checkVersion g true = true ∧ PlainRanges .uint8 1 [r] ∧ r.depr ≤ g.version ∧ Supported g g.version ∧
    intOpts g .uint8 1 true [r] = .ok opts ∧ Valid (fun _ => none) opts (intBody g .uint8 true [r]) g.version 5 ∧ ¬ ValidAt .uint8 [r] g.version 5 ∧
    ¬ Fits opts (intBody g .uint8 true [r]) := by
  refine ⟨{ parsed := 5, versionDependent := true }, ⟨5, 10, 0, 2⟩, [.range 5 10], by decide, ⟨by decide, by decide, by simp, by decide⟩, by decide, ⟨by decide, by decide⟩,
    by decide +kernel, Or.inl (Or.inl ⟨.range 5 10, by simp, 5, 10, rfl, by decide, by decide⟩), ?_, ?_⟩
  · rintro ⟨r, hr, h1, h2, _⟩
    rw [List.mem_singleton] at hr
    subst hr
    exact absurd h2 (by decide)
  · rintro ⟨_, h⟩
    have := h [⟨none, some 2, 5, 10⟩] (by decide) ⟨_, List.mem_singleton.2 rfl, Or.inr (by simp)⟩
    simp at this

/-- Ranges of a later version than the forced one: the function asks for a version that is not there. -/
theorem C76_later_witness : ∃ (g : GVer) (rs : List RangeInfo) (opts : List VOpt), checkVersion g true = true ∧ g.prepareOk = true ∧ PlainRanges .uint8 1 rs ∧
    intOpts g .uint8 1 true rs = .ok opts ∧ ¬ Fits opts (intBody g .uint8 true rs) := by
  refine ⟨forceVersion { parsed := 5, versionDependent := true } 3, [⟨5, 10, 0, Versions.notYet⟩, ⟨20, 20, 4, Versions.notYet⟩], [.range 5 10], by decide, by decide,
    ⟨by decide, by decide, by decide, by decide⟩, by decide +kernel, ?_⟩
  rintro ⟨_, h⟩
  have := h [⟨some 4, none, 20, 20⟩] (by decide) ⟨_, List.mem_singleton.2 rfl, Or.inl (by simp)⟩
  simp at this

/-- Merging ignores versions: a range that exists is dropped with its predecessor, and all values become valid; or a range that no supported version has stays. -/
theorem C76_merged_witness : ∃ (g : GVer) (a b : RangeInfo), checkVersion g true = false ∧
    (intOpts g .uint8 1 true [a, b] = .ok [] ∧ intBody g .uint8 true [a, b] = .none ∧ doesExist g b.since b.depr true = true) ∧
    ∃ c, doesExist g c.since c.depr true = false ∧ ∃ d, doesExist g d.since d.depr true = true ∧ intOpts g .uint8 1 true [d, c] = .ok [.range 0 10] ∧ c.max = 10 := by
  exact ⟨{ parsed := 5, minRemote := 3 }, ⟨0, 5, 0, 2⟩, ⟨6, 10, 2, Versions.notYet⟩, by decide, ⟨by decide +kernel, by decide, by decide⟩,
    ⟨6, 10, 0, 2⟩, by decide, ⟨0, 5, 0, Versions.notYet⟩, by decide, by decide +kernel, rfl⟩

/-- `int64`: negative bounds are taken for huge unsigned ones; the option does not compile, or the range of positive numbers is lost. -/
theorem C76_int64_witness : ∃ g : GVer, checkVersion g false = false ∧
    intOpts g .int64 8 false [⟨-5, 3, 0, Versions.notYet⟩] = .ok [.bigRange 18446744073709551611 3] ∧
    intOpts g .int64 8 false [⟨-5, -3, 0, Versions.notYet⟩, ⟨2, 3, 0, Versions.notYet⟩] = .ok [.bigRange 18446744073709551611 18446744073709551613] ∧
    intOpts g .uintvar 10 false [⟨5, -1, 0, Versions.notYet⟩] = .ok [.range 5 (-1)] ∧ interp .uintvar (-1) = 18446744073709551615 := by
  exact ⟨{ parsed := 5 }, by decide, by decide +kernel, by decide +kernel, by decide +kernel, by decide⟩

/-- The sum of the greatest signed number and one is undefined. -/
theorem C76_overflow_witness : intOpts { parsed := 5 } .intvar 4 false [⟨5, i64Max, 0, 5⟩, ⟨7, 9, 0, 6⟩] = .ub := by decide +kernel

/-- Several ranges, overlapping and adjacent ones; with and without versions. -/
example : intOpts { parsed := 5 } .uint8 1 false [⟨1, 5, 0, Versions.notYet⟩, ⟨3, 4, 0, 3⟩, ⟨6, 6, 2, Versions.notYet⟩, ⟨9, 9, 0, Versions.notYet⟩] = .ok [.range 1 6, .num 9] ∧
    intOpts { parsed := 5, versionDependent := true } .uint8 1 true [⟨1, 5, 0, Versions.notYet⟩, ⟨6, 6, 2, Versions.notYet⟩] = .ok [.range 1 5, .versionStorage] ∧
    intOpts { parsed := 5, versionDependent := true } .uint64 8 true [⟨1, -1, 1, 4⟩] = .ok [.versionStorage, .invalidByDefault] ∧
    intBody { parsed := 5, versionDependent := true } .uint64 true [⟨1, -1, 1, 4⟩] = .anyOf [⟨some 1, some 4, 1, 18446744073709551615⟩] := by
  refine ⟨?_, ?_, ?_, ?_⟩ <;> decide +kernel

example : PlainRanges .uint64 8 [⟨1, 5, 0, Versions.notYet⟩, ⟨3, 4, 0, 3⟩, ⟨6, -7, 2, Versions.notYet⟩] ∧
    (∀ r ∈ [(⟨1, 5, 0, Versions.notYet⟩ : RangeInfo), ⟨3, 4, 0, 3⟩, ⟨6, -7, 2, Versions.notYet⟩], doesExist { parsed := 5 } r.since r.depr true = true) :=
  ⟨⟨by decide, by decide, by decide, by decide⟩, by decide⟩

end Commsdsl.Props
