import Verif.Lemmas.Sorting
import Verif.Props.FloatField
import Verif.Props.GenFloat
import Verif.Props.GenEnum
import Verif.Model.GenSet
import Verif.Model.GenMsgs
/-!
# The orders used for sorting (C103)
-/
namespace Commsdsl.Props
open Commsdsl Spec Sorting Text Gen Msg Proto
open Commsdsl.FloatF hiding Accepted
open FloatProofs

namespace SortProofs

theorem cast_inj {a b : Int} (ha : IsI64 a) (hb : IsI64 b) : castU64 a = castU64 b ↔ a = b := by
  unfold castU64
  unfold IsI64 at ha hb
  omega

/-- The numbers of a range fit. -/
def Fits (r : IntF.RangeInfo) : Prop := IsI64 r.min ∧ IsI64 r.max

theorem int_version (big : Bool) : Total Fits (IntF.ltByVersion big) := by
  refine ⟨?_, ?_, ?_⟩
  · intro a _
    simp [IntF.ltByVersion]
  · intro a b c ha hb hc h h'
    have i1 := @cast_inj a.min b.min ha.1 hb.1
    have i2 := @cast_inj b.min c.min hb.1 hc.1
    have i3 := @cast_inj a.min c.min ha.1 hc.1
    unfold IntF.ltByVersion at *
    cases big <;> simp only [Bool.false_eq_true, if_true, if_false] at * <;> repeat' split at h
    all_goals (repeat' split at h')
    all_goals (repeat' split)
    all_goals simp only [decide_eq_true_eq] at *
    all_goals omega
  · intro a b ha hb h h'
    have i1 := @cast_inj a.min b.min ha.1 hb.1
    have i2 := @cast_inj a.max b.max ha.2 hb.2
    have : a.min = b.min ∧ a.max = b.max ∧ a.since = b.since ∧ a.depr = b.depr := by
      unfold IntF.ltByVersion at *
      cases big <;> simp only [Bool.false_eq_true, if_true, if_false] at * <;> repeat' split at h
      all_goals (repeat' split at h')
      all_goals simp only [decide_eq_false_iff_not] at *
      all_goals omega
    cases a; cases b; simp_all

theorem int_value (big : Bool) : Total Fits (IntF.ltByValue big) := by
  refine ⟨?_, ?_, ?_⟩
  · intro a _
    simp [IntF.ltByValue]
  · intro a b c ha hb hc h h'
    have i1 := @cast_inj a.min b.min ha.1 hb.1
    have i2 := @cast_inj b.min c.min hb.1 hc.1
    have i3 := @cast_inj a.min c.min ha.1 hc.1
    have j1 := @cast_inj a.max b.max ha.2 hb.2
    have j2 := @cast_inj b.max c.max hb.2 hc.2
    have j3 := @cast_inj a.max c.max ha.2 hc.2
    unfold IntF.ltByValue at *
    cases big <;> simp only [Bool.false_eq_true, if_true, if_false] at * <;> repeat' split at h
    all_goals (repeat' split at h')
    all_goals (repeat' split)
    all_goals simp only [decide_eq_true_eq] at *
    all_goals omega
  · intro a b ha hb h h'
    have i1 := @cast_inj a.min b.min ha.1 hb.1
    have i2 := @cast_inj a.max b.max ha.2 hb.2
    have : a.min = b.min ∧ a.max = b.max ∧ a.since = b.since ∧ a.depr = b.depr := by
      unfold IntF.ltByValue at *
      cases big <;> simp only [Bool.false_eq_true, if_true, if_false] at * <;> repeat' split at h
      all_goals (repeat' split at h')
      all_goals simp only [decide_eq_false_iff_not] at *
      all_goals omega
    cases a; cases b; simp_all

/-- Smaller in the order `-inf`, numbers, `inf`, `nan`. -/
def DL (a b : Dbl) : Prop := a.rk < b.rk ∨ (a.rk = b.rk ∧ a.num < b.num)

theorem cl_iff (a b : Dbl) : FloatF.compareLess a b = true ↔ DL a b := by
  rw [compareLess_iff]; rfl

theorem fver_iff (a b : FloatF.RangeInfo) : FloatF.ltByVersion a b = true ↔ a.since < b.since ∨ (a.since = b.since ∧ (a.depr < b.depr ∨ (a.depr = b.depr ∧
    (DL a.min b.min ∨ (¬ DL b.min a.min ∧ DL a.max b.max))))) := by
  unfold FloatF.ltByVersion
  repeat' split
  all_goals simp only [cl_iff, decide_eq_true_eq, Bool.false_eq_true, true_iff, false_iff] at *
  all_goals simp only [DL] at *
  all_goals omega

theorem fval_iff (a b : FloatF.RangeInfo) : FloatF.ltByValue a b = true ↔ DL a.min b.min ∨ (¬ DL b.min a.min ∧ (DL a.max b.max ∨ (¬ DL b.max a.max ∧
    (a.since < b.since ∨ (a.since = b.since ∧ a.depr < b.depr))))) := by
  unfold FloatF.ltByValue
  repeat' split
  all_goals simp only [cl_iff, decide_eq_true_eq, Bool.false_eq_true, true_iff, false_iff] at *
  all_goals simp only [DL] at *
  all_goals omega

theorem float_version : Total (fun _ => True) FloatF.ltByVersion := by
  refine ⟨?_, ?_, ?_⟩
  · intro a _
    rw [Bool.eq_false_iff, ne_eq, fver_iff]
    simp only [DL]
    omega
  · intro a b c _ _ _ h h'
    rw [fver_iff] at *
    simp only [DL] at *
    omega
  · intro a b _ _ h h'
    rw [Bool.eq_false_iff, ne_eq, fver_iff] at h h'
    have : a.min = b.min ∧ a.max = b.max ∧ a.since = b.since ∧ a.depr = b.depr := by
      simp only [DL, Dbl.ext_iff'] at *
      omega
    cases a; cases b; simp_all

theorem float_value : Total (fun _ => True) FloatF.ltByValue := by
  refine ⟨?_, ?_, ?_⟩
  · intro a _
    rw [Bool.eq_false_iff, ne_eq, fval_iff]
    simp only [DL]
    omega
  · intro a b c _ _ _ h h'
    rw [fval_iff] at *
    simp only [DL] at *
    omega
  · intro a b _ _ h h'
    rw [Bool.eq_false_iff, ne_eq, fval_iff] at h h'
    have : a.min = b.min ∧ a.max = b.max ∧ a.since = b.since ∧ a.depr = b.depr := by
      simp only [DL, Dbl.ext_iff'] at *
      omega
    cases a; cases b; simp_all

/-! Comparisons of the generator. -/

/-- No bound is `nan`, or both are. -/
def NanPair (r : FloatF.RangeInfo) : Prop := r.min = .nan ↔ r.max = .nan

theorem isNan_rk (a : Dbl) : a.isNan = true ↔ a.rk = 3 := by cases a <;> simp [Dbl.isNan, Dbl.rk]

theorem lt_iff_rk (a b : Dbl) : a.lt b = true ↔ a.rk < 3 ∧ b.rk < 3 ∧ DL a b := by
  cases a <;> cases b <;> simp [Dbl.lt, Dbl.rk, Dbl.num, DL]

theorem gver_iff (a b : FloatF.RangeInfo) : floatVerLt a b = true ↔ a.since < b.since ∨ (a.since = b.since ∧ (b.depr < a.depr ∨ (a.depr = b.depr ∧
    (DL a.min b.min ∨ (a.min = b.min ∧ a.min ≠ .nan ∧ a.max.lt b.max = true))))) := by
  have hn : ∀ d : Dbl, d = .nan ↔ d.rk = 3 := by intro d; cases d <;> simp [Dbl.rk]
  have r1 := FloatProofs.rk_range a.min
  have r2 := FloatProofs.rk_range b.min
  unfold floatVerLt
  repeat' split
  all_goals simp only [Bool.not_eq_true', Bool.eq_false_iff, ne_eq, isNan_rk, lt_iff_rk, decide_eq_true_eq, Bool.false_eq_true, true_iff, false_iff, hn, Dbl.ext_iff'] at *
  all_goals simp only [DL] at *
  all_goals omega

theorem float_gen : Total NanPair floatVerLt := by
  have hn : ∀ d : Dbl, d = .nan ↔ d.rk = 3 := by intro d; cases d <;> simp [Dbl.rk]
  refine ⟨?_, ?_, ?_⟩
  · intro a _
    rw [Bool.eq_false_iff, ne_eq, gver_iff]
    simp only [lt_iff_rk, DL]
    omega
  · intro a b c _ _ _ h h'
    rw [gver_iff] at *
    simp only [lt_iff_rk, DL, Dbl.ext_iff', ne_eq, hn] at *
    omega
  · intro a b ha hb h h'
    rw [Bool.eq_false_iff, ne_eq, gver_iff] at h h'
    have : a.min = b.min ∧ a.max = b.max ∧ a.since = b.since ∧ a.depr = b.depr := by
      have r1 := FloatProofs.rk_range a.min
      have r2 := FloatProofs.rk_range b.min
      have r3 := FloatProofs.rk_range a.max
      have r4 := FloatProofs.rk_range b.max
      unfold NanPair at ha hb
      simp only [lt_iff_rk, DL, Dbl.ext_iff', ne_eq, hn] at *
      have e0 : a.since = b.since ∧ a.depr = b.depr := by omega
      simp only [e0.1, e0.2, Nat.lt_irrefl, false_or, true_and, and_true] at h h' ⊢
      clear e0
      omega
    cases a; cases b; simp_all

theorem int_special (uns : Bool) {l : List (Str × IntF.SpecialInfo)} (hl : (l.map Prod.fst).Nodup) (hi : ∀ s ∈ l, IsI64 s.2.value) : Total (· ∈ l) (intSpecialLt uns) := by
  refine ⟨?_, ?_, ?_⟩
  · intro a _
    simp only [intSpecialLt, if_true]
    exact str_total'.irrefl _ trivial
  · intro a b c ha hb hc h h'
    have i1 := @cast_inj a.2.value b.2.value (hi a ha) (hi b hb)
    have i2 := @cast_inj b.2.value c.2.value (hi b hb) (hi c hc)
    have i3 := @cast_inj a.2.value c.2.value (hi a ha) (hi c hc)
    have ht := str_total'.trans a.1 b.1 c.1 trivial trivial trivial
    unfold intSpecialLt at *
    cases uns <;> simp only [Bool.false_eq_true, if_true, if_false] at * <;> repeat' split at h
    all_goals (repeat' split at h')
    all_goals (repeat' split)
    all_goals try simp only [decide_eq_true_eq] at *
    all_goals first | exact ht h h' | omega
  · intro a b ha hb h h'
    have i1 := @cast_inj a.2.value b.2.value (hi a ha) (hi b hb)
    refine nodup_inj hl a ha b hb (str_total'.tie _ _ trivial trivial ?_ ?_)
    all_goals
      unfold intSpecialLt at *
      cases uns <;> simp only [Bool.false_eq_true, if_true, if_false] at * <;> repeat' split at h
      all_goals (repeat' split at h')
      all_goals try simp only [decide_eq_false_iff_not] at *
      all_goals first | assumption | (exfalso; omega)

theorem float_special_iff (a b : Str × FloatF.SpecialInfo) : floatSpecialLt a b = true ↔ DL a.2.value b.2.value ∨ (a.2.value = b.2.value ∧ a.1 < b.1) := by
  unfold floatSpecialLt
  cases ha : a.2.value <;> cases hb : b.2.value <;> simp [Dbl.isNan, Dbl.lt, DL, Dbl.rk, Dbl.num, strLt_iff]
  rename_i x y
  by_cases h : x = y
  · subst h; simp [strLt_iff]
  · simp [h, Dbl.lt]

theorem float_special {l : List (Str × FloatF.SpecialInfo)} (hl : (l.map Prod.fst).Nodup) : Total (· ∈ l) floatSpecialLt := by
  refine ⟨?_, ?_, ?_⟩
  · intro a _
    rw [Bool.eq_false_iff, ne_eq, float_special_iff]
    rintro (h | h)
    · simp only [DL] at h; omega
    · exact str_irrefl _ h.2
  · intro a b c _ _ _ h h'
    rw [float_special_iff] at *
    rcases h with h | ⟨h, h1⟩ <;> rcases h' with h' | ⟨h', h2⟩
    · left; simp only [DL] at *; omega
    · left; rw [← h']; exact h
    · left; rw [h]; exact h'
    · right; exact ⟨h.trans h', str_trans h1 h2⟩
  · intro a b ha hb h h'
    rw [Bool.eq_false_iff, ne_eq, float_special_iff] at h h'
    have e : a.2.value = b.2.value := by
      simp only [DL] at *
      rw [Dbl.ext_iff']
      omega
    refine nodup_inj hl a ha b hb (str_total ?_ ?_)
    · exact fun hh => h (Or.inr ⟨e, hh⟩)
    · exact fun hh => h' (Or.inr ⟨e.symm, hh⟩)

theorem key_total : Total (fun _ => True) keyLt := by
  refine ⟨?_, ?_, ?_⟩
  · intro a _; simp [keyLt]
  · intro a b c _ _ _ h h'
    unfold keyLt at *
    split at h <;> split at h' <;> split <;> simp only [decide_eq_true_eq] at * <;> omega
  · intro a b _ _ h h'
    have : a.1 = b.1 ∧ a.2 = b.2 := by
      unfold keyLt at *
      split at h <;> split at h' <;> simp only [decide_eq_false_iff_not] at * <;> omega
    cases a; cases b; simp_all

theorem nat_total : Total (fun _ => True) (fun a b : Nat => decide (a < b)) := by
  refine ⟨?_, ?_, ?_⟩
  · intro a _; simp
  · intro a b c _ _ _ h h'; simp only [decide_eq_true_eq] at *; omega
  · intro a b _ _ h h'; simp only [decide_eq_false_iff_not] at *; omega

theorem dbl_total : Total (fun d : Dbl => d.isNan = false) Dbl.lt := by
  refine ⟨?_, ?_, ?_⟩
  · intro a _; rw [Bool.eq_false_iff, ne_eq, lt_iff_rk]; simp only [DL]; omega
  · intro a b c _ _ _ h h'; rw [lt_iff_rk] at *; simp only [DL] at *; omega
  · intro a b ha hb h h'
    rw [Bool.eq_false_iff, ne_eq, isNan_rk] at ha hb
    rw [Bool.eq_false_iff, ne_eq, lt_iff_rk] at h h'
    have r1 := rk_range a
    have r2 := rk_range b
    simp only [DL] at *
    rw [Dbl.ext_iff']
    omega

theorem sorts_map {α β : Type} {klt : β → β → Bool} (k : α → β) {l r : List α} (h : SortsTo (fun a b => klt (k a) (k b)) l r) :
    SortsTo klt (l.map k) (r.map k) := by
  refine ⟨h.1.map k, ?_⟩
  rw [List.pairwise_map]
  exact h.2

/-- The keys are determined. -/
theorem keys_unique {α β : Type} {klt : β → β → Bool} (k : α → β) {l : List α} (ht : Total (· ∈ l.map k) klt) {r r' : List α}
    (h : SortsTo (fun a b => klt (k a) (k b)) l r) (h' : SortsTo (fun a b => klt (k a) (k b)) l r') : r.map k = r'.map k :=
  (unique ht (sorts_map k h)).trans (unique ht (sorts_map k h')).symm

/-- Id and order of a message. -/
def msgPair (m : Message) : Nat × Nat := (m.id, m.order)

theorem neighbours_keys (nu : Bool) : ∀ (l l' : List Message), l.map msgPair = l'.map msgPair → neighboursOk nu l = neighboursOk nu l'
  | [], l', h => by
    cases l' with
    | nil => rfl
    | cons => simp at h
  | [a], l', h => by
    cases l' with
    | nil => simp at h
    | cons b l' =>
      cases l' with
      | nil => rfl
      | cons => simp at h
  | a :: b :: l, l', h => by
    cases l' with
    | nil => simp at h
    | cons a' l' =>
      cases l' with
      | nil => simp at h
      | cons b' l' =>
        have ih := neighbours_keys nu (b :: l) (b' :: l')
        simp only [List.map_cons, List.cons.injEq, msgPair, Prod.mk.injEq] at h ih
        unfold neighboursOk
        rw [ih ⟨h.2.1, h.2.2⟩, h.1.1, h.1.2, h.2.1.1, h.2.1.2]

/-! Ranges of an `<enum>`. -/

/-- Without versions. -/
def erase (r : IntF.RangeInfo) : IntF.RangeInfo := ⟨r.min, r.max, 0, if r.depr = 0 then 0 else 1⟩

theorem erase_depr (r : IntF.RangeInfo) : (erase r).depr = 0 ↔ r.depr = 0 := by
  unfold erase
  simp only
  split <;> simp_all

theorem erase_merge (big : Bool) (a b : IntF.RangeInfo) : mergeMax big (erase a) (erase b) = erase (mergeMax big a b) := by
  unfold mergeMax
  show (if lessN big a.max b.max then _ else _) = _
  split <;> rfl

theorem erase_inner (big : Bool) (l : List IntF.RangeInfo) : ∀ cur, enumMergeInner big false (erase cur) (l.map erase) =
    (erase (enumMergeInner big false cur l).1, (enumMergeInner big false cur l).2.map erase) := by
  induction l with
  | nil => intro cur; rfl
  | cons n l ih =>
    intro cur
    simp only [List.map_cons, enumMergeInner, erase_depr, Bool.false_and, Bool.false_eq_true, if_false]
    split
    · simp only [ih, List.map_cons]
    · have : enumGap big (erase cur) (erase n) = enumGap big cur n := rfl
      rw [this]
      split
      · simp
      · simp only [erase_merge, ih, List.map_cons, Prod.mk.injEq, List.cons.injEq, true_and, and_true]
        simp [erase]

theorem erase_outer (big : Bool) (fuel : Nat) : ∀ l : List IntF.RangeInfo, enumMerge big false fuel (l.map erase) = (enumMerge big false fuel l).map erase := by
  induction fuel with
  | zero => intro l; simp [enumMerge]
  | succ fuel ih =>
    intro l
    cases l with
    | nil => rfl
    | cons r l =>
      simp only [List.map_cons, enumMerge, erase_depr]
      split
      · simp [ih]
      · simp [erase_inner, ih]

theorem erase_filter (l : List IntF.RangeInfo) : (l.map erase).filter (fun r => decide (r.depr ≠ 0)) = (l.filter fun r => decide (r.depr ≠ 0)).map erase := by
  rw [List.filter_map]
  congr 1
  apply List.filter_congr
  intro r _
  simp only [Function.comp, ne_eq, erase_depr]

theorem erase_pairs (l : List IntF.RangeInfo) : (l.map erase).map (fun r => (r.min, r.max)) = l.map fun r => (r.min, r.max) := by
  rw [List.map_map]
  rfl

theorem enum_weak (big chk : Bool) : StrictWeak (fun _ => True) (enumLt big chk) := by
  refine ⟨?_, ?_, ?_⟩
  · intro a _
    cases chk <;> cases big <;> simp [enumLt, lessN]
  · intro a b c _ _ _ h h'
    unfold enumLt lessN at *
    cases chk <;> cases big <;> simp only [Bool.false_and, Bool.true_and, Bool.false_eq_true, if_false, if_true, bne_iff_ne, ne_eq] at * <;> repeat' split at h
    all_goals (repeat' split at h')
    all_goals (repeat' split)
    all_goals simp only [decide_eq_true_eq] at *
    all_goals omega
  · intro a b c _ _ _ h1 h2 h3 h4
    have key : ∀ a b, (enumLt big chk a b = false ∧ enumLt big chk b a = false) ↔ ((chk = true → a.since = b.since ∧ a.depr = b.depr) ∧
        (if big then castU64 a.min = castU64 b.min else a.min = b.min)) := by
      intro a b
      unfold enumLt lessN
      cases chk <;> cases big <;> simp only [Bool.false_and, Bool.true_and, Bool.false_eq_true, if_false, if_true, bne_iff_ne, ne_eq]
      all_goals (repeat' split)
      all_goals simp only [decide_eq_false_iff_not, false_implies, true_and, forall_const]
      all_goals omega
    obtain ⟨p, q⟩ := (key a b).1 ⟨h1, h2⟩
    obtain ⟨p', q'⟩ := (key b c).1 ⟨h3, h4⟩
    refine (key a c).2 ⟨fun hc => ⟨(p hc).1.trans (p' hc).1, (p hc).2.trans (p' hc).2⟩, ?_⟩
    cases big
    · simp only [Bool.false_eq_true, if_false] at *; omega
    · simp only [if_true] at *; omega

/-- One value. -/
def Single (r : IntF.RangeInfo) : Prop := IsI64 r.min ∧ r.max = r.min

theorem enum_total (big : Bool) : Total Single (enumLt big true) := by
  refine ⟨fun a _ => (enum_weak big true).irrefl a trivial, fun a b c _ _ _ => (enum_weak big true).trans a b c trivial trivial trivial, ?_⟩
  intro a b ha hb h h'
  have i := @cast_inj a.min b.min ha.1 hb.1
  have : a.min = b.min ∧ a.since = b.since ∧ a.depr = b.depr := by
    unfold enumLt lessN at *
    cases big <;> simp only [Bool.true_and, Bool.false_eq_true, if_false, if_true, bne_iff_ne, ne_eq] at * <;> repeat' split at h
    all_goals (repeat' split at h')
    all_goals simp only [decide_eq_false_iff_not] at *
    all_goals omega
  have h1 := ha.2
  have h2 := hb.2
  cases a; cases b; simp_all

/-- One value without versions. -/
def Bare (r : IntF.RangeInfo) : Prop := Single r ∧ r.since = 0 ∧ r.depr = 1

theorem bare_total (big : Bool) : Total Bare (enumLt big false) := by
  refine ⟨fun a _ => (enum_weak big false).irrefl a trivial, fun a b c _ _ _ => (enum_weak big false).trans a b c trivial trivial trivial, ?_⟩
  intro a b ha hb h h'
  have i := @cast_inj a.min b.min ha.1.1 hb.1.1
  have : a.min = b.min := by
    unfold enumLt lessN at *
    cases big <;> simp only [Bool.false_and, Bool.false_eq_true, if_false, if_true] at *
    all_goals simp only [decide_eq_false_iff_not] at *
    all_goals omega
  obtain ⟨⟨_, h1⟩, h2, h3⟩ := ha
  obtain ⟨⟨_, h4⟩, h5, h6⟩ := hb
  cases a; cases b; simp_all

theorem lex_total {α : Type} {lt : α → α → Bool} (h : Total (fun _ => True) lt) : Total (fun _ => True) (Fld.lexLt lt) := by
  have hi := fun a => h.irrefl a trivial
  have asym : ∀ a b, lt a b = true → lt b a = false := by
    intro a b hab
    cases hba : lt b a with
    | false => rfl
    | true =>
      have := h.trans a b a trivial trivial trivial hab hba
      rw [hi] at this; cases this
  have cons : ∀ a b as bs, Fld.lexLt lt (a :: as) (b :: bs) = true ↔ lt a b = true ∨ (a = b ∧ Fld.lexLt lt as bs = true) := by
    intro a b as bs
    simp only [Fld.lexLt]
    split
    · simp_all
    · rename_i h1
      split
      · rename_i h2
        simp only [h1, false_or, Bool.false_eq_true, false_iff, not_and]
        rintro rfl
        exact absurd h2 h1
      · rename_i h2
        have e := h.tie a b trivial trivial (by simpa using h1) (by simpa using h2)
        simp [h1, e]
        intro he
        rw [hi] at he
        cases he
  refine ⟨?_, ?_, ?_⟩
  · intro a _
    induction a with
    | nil => rfl
    | cons x xs ih => simp [Fld.lexLt, hi, ih]
  · intro a b c _ _ _
    induction a generalizing b c with
    | nil =>
      intro h1 h2
      cases b with
      | nil => exact h2
      | cons => cases c with
        | nil => simp [Fld.lexLt] at h2
        | cons => rfl
    | cons x xs ih =>
      intro h1 h2
      cases b with
      | nil => simp [Fld.lexLt] at h1
      | cons y ys => cases c with
        | nil => simp [Fld.lexLt] at h2
        | cons z zs =>
          rw [cons] at *
          rcases h1 with h1 | ⟨rfl, h1⟩ <;> rcases h2 with h2 | ⟨rfl, h2⟩
          · exact Or.inl (h.trans _ _ _ trivial trivial trivial h1 h2)
          · exact Or.inl h1
          · exact Or.inl h2
          · exact Or.inr ⟨rfl, ih ys zs h1 h2⟩
  · intro a b _ _
    induction a generalizing b with
    | nil =>
      intro h1 _
      cases b with
      | nil => rfl
      | cons => simp [Fld.lexLt] at h1
    | cons x xs ih =>
      intro h1 h2
      cases b with
      | nil => simp [Fld.lexLt] at h2
      | cons y ys =>
        rw [Bool.eq_false_iff, ne_eq, cons] at h1 h2
        have e := h.tie x y trivial trivial (by rw [Bool.eq_false_iff]; exact fun hh => h1 (Or.inl hh)) (by rw [Bool.eq_false_iff]; exact fun hh => h2 (Or.inl hh))
        subst e
        rw [ih ys (by rw [Bool.eq_false_iff]; exact fun hh => h1 (Or.inr ⟨rfl, hh⟩)) (by rw [Bool.eq_false_iff]; exact fun hh => h2 (Or.inr ⟨rfl, hh⟩))]

end SortProofs

open SortProofs

/-- C103, valid ranges of an `<int>`: both comparators are strict weak orders on all ranges of numbers of type `std::intmax_t`, and every way of sorting gives the result of
    the model. -/
theorem C103_int_ranges (big : Bool) (l : List IntF.RangeInfo) (hl : ∀ r ∈ l, IsI64 r.min ∧ IsI64 r.max) :
    StrictWeak (· ∈ l) (IntF.ltByVersion big) ∧ StrictWeak (· ∈ l) (IntF.ltByValue big) ∧
      (∀ r, SortsTo (IntF.ltByVersion big) l r ↔ r = sortBy (IntF.ltByVersion big) l) ∧ ∀ r, SortsTo (IntF.ltByValue big) l r ↔ r = sortBy (IntF.ltByValue big) l := by
  have h1 := (int_version big).mono (T := (· ∈ l)) hl
  have h2 := (int_value big).mono (T := (· ∈ l)) hl
  exact ⟨h1.weak, h2.weak, fun r => ⟨unique h1, fun e => e ▸ sorts h1.weak⟩, fun r => ⟨unique h2, fun e => e ▸ sorts h2.weak⟩⟩

/-- C103, valid ranges of a `<float>`: both comparators of the parser are strict weak orders, also with `nan` and infinite bounds, and every way of sorting gives the result
    of the model (which does not tell the two zeros apart). -/
theorem C103_float_ranges (l : List FloatF.RangeInfo) : StrictWeak (· ∈ l) FloatF.ltByVersion ∧ StrictWeak (· ∈ l) FloatF.ltByValue ∧
      (∀ r, SortsTo FloatF.ltByVersion l r ↔ r = sortBy FloatF.ltByVersion l) ∧ ∀ r, SortsTo FloatF.ltByValue l r ↔ r = sortBy FloatF.ltByValue l := by
  have h1 := float_version.mono (T := (· ∈ l)) (fun _ _ => trivial)
  have h2 := float_value.mono (T := (· ∈ l)) (fun _ _ => trivial)
  exact ⟨h1.weak, h2.weak, fun r => ⟨unique h1, fun e => e ▸ sorts h1.weak⟩, fun r => ⟨unique h2, fun e => e ▸ sorts h2.weak⟩⟩

/-- C103, the ranges of a `<float>` in the generated code, partial: the comparator is a strict weak order unless a range has `nan` as one bound only (see
    `C103_nan_witness`), and every way of sorting gives the result of the model. -/
theorem C103_float_generated_partial (l : List FloatF.RangeInfo) (hl : ∀ r ∈ l, r.min = .nan ↔ r.max = .nan) :
    StrictWeak (· ∈ l) floatVerLt ∧ ∀ r, SortsTo floatVerLt l r ↔ r = sortBy floatVerLt l := by
  have h1 := float_gen.mono (T := (· ∈ l)) hl
  exact ⟨h1.weak, fun r => ⟨unique h1, fun e => e ▸ sorts h1.weak⟩⟩

/-- C103, special values of an `<int>`. -/
theorem C103_int_specials (t : IntF.IntType) (l : List (Str × IntF.SpecialInfo)) (hn : (l.map Prod.fst).Nodup) (hl : ∀ s ∈ l, IsI64 s.2.value) :
    StrictWeak (· ∈ l) (intSpecialLt (unsignedType t)) ∧ ∀ r, SortsTo (intSpecialLt (unsignedType t)) l r ↔ r = intSpecials t l := by
  have h1 := int_special (unsignedType t) hn hl
  exact ⟨h1.weak, fun r => ⟨unique h1, fun e => e ▸ sorts h1.weak⟩⟩

/-- C103, special values of a `<float>`. -/
theorem C103_float_specials (l : List (Str × FloatF.SpecialInfo)) (hn : (l.map Prod.fst).Nodup) :
    StrictWeak (· ∈ l) floatSpecialLt ∧ ∀ r, SortsTo floatSpecialLt l r ↔ r = floatSpecials l := by
  have h1 := float_special hn
  exact ⟨h1.weak, fun r => ⟨unique h1, fun e => e ▸ sorts h1.weak⟩⟩

/-- C103, special values of accepted fields. -/
theorem C103_accepted_specials : (∀ (st : IntF.State) (t : IntF.IntType), IntF.Accepted st → (∀ s ∈ st.specials, IsI64 s.2.value) →
      ∀ r, SortsTo (intSpecialLt (unsignedType t)) st.specials r ↔ r = intSpecials t st.specials) ∧
    ∀ st : FloatF.State, FloatF.Accepted st → ∀ r, SortsTo floatSpecialLt st.specials r ↔ r = floatSpecials st.specials :=
  ⟨fun st t h hi => (C103_int_specials t st.specials (C14_names_unique st h) hi).2, fun st h => (C103_float_specials st.specials (C74_names st h).1).2⟩

/-- C103, the look for equal special values of a `<float>`: `nan` is left out. -/
theorem C103_float_values (l : List Dbl) (hl : ∀ d ∈ l, d.isNan = false) : StrictWeak (· ∈ l) Dbl.lt ∧ ∀ r, SortsTo Dbl.lt l r ↔ r = sortBy Dbl.lt l := by
  have h1 := dbl_total.mono (T := (· ∈ l)) hl
  exact ⟨h1.weak, fun r => ⟨unique h1, fun e => e ▸ sorts h1.weak⟩⟩

/-- C103, versions of the bits of a `<set>`. -/
theorem C103_set_versions (l : List (Nat × Nat)) : StrictWeak (· ∈ l) keyLt ∧ ∀ r, SortsTo keyLt l r ↔ r = sortBy keyLt l := by
  have h1 := key_total.mono (T := (· ∈ l)) (fun _ _ => trivial)
  exact ⟨h1.weak, fun r => ⟨unique h1, fun e => e ▸ sorts h1.weak⟩⟩

/-- C103, texts: the includes, the platforms, and everything sorted by a name that no other element has (namespaces, fields, messages, interfaces, frames). -/
theorem C103_names {α : Type} (name : α → Str) (l : List α) :
    StrictWeak (· ∈ l) (fun a b => strLt (name a) (name b)) ∧ ((∀ a ∈ l, ∀ b ∈ l, name a = name b → a = b) →
      ∀ r, SortsTo (fun a b => strLt (name a) (name b)) l r ↔ r = sortBy (fun a b => strLt (name a) (name b)) l) := by
  refine ⟨weak_key name str_total'.weak, fun hn r => ?_⟩
  have h1 : Total (· ∈ l) (fun a b => strLt (name a) (name b)) := total_key name str_total' fun a b ha hb => hn a ha b hb
  exact ⟨unique h1, fun e => e ▸ sorts h1.weak⟩

/-- C103, valid values of `<string>` and `<data>`: the values are listed the same way by every algorithm, the elements themselves if no value is repeated. -/
theorem C103_sequences {α β : Type} (lt : α → α → Bool) (l : List (List α × β))
    (hlt : (∀ a, lt a a = false) ∧ (∀ a b c, lt a b = true → lt b c = true → lt a c = true) ∧ ∀ a b, lt a b = false → lt b a = false → a = b) :
    StrictWeak (· ∈ l) (fun x y => Fld.lexLt lt x.1 y.1) ∧ ∀ r, SortsTo (fun x y => Fld.lexLt lt x.1 y.1) l r →
      r.map Prod.fst = (sortBy (fun x y => Fld.lexLt lt x.1 y.1) l).map Prod.fst ∧
      ((l.map Prod.fst).Nodup → r = sortBy (fun x y => Fld.lexLt lt x.1 y.1) l) := by
  have h0 : Total (fun _ => True) lt := ⟨fun a _ => hlt.1 a, fun a b c _ _ _ => hlt.2.1 a b c, fun a b _ _ => hlt.2.2 a b⟩
  have h1 := lex_total h0
  have hw : StrictWeak (· ∈ l) (fun x y => Fld.lexLt lt x.1 y.1) := weak_key Prod.fst h1.weak
  refine ⟨hw, fun r hr => ⟨keys_unique Prod.fst (h1.mono (fun _ _ => trivial)) hr (sorts hw), fun hn => ?_⟩⟩
  exact unique (total_key Prod.fst h1 fun a b ha hb => nodup_inj hn a ha b hb) hr

/-- C103, messages: the ids are listed the same way by every algorithm, whether the messages of a namespace are accepted does not depend on it, and the messages themselves
    are listed the same way if no two have the same id and order (others may be accepted in different namespaces, see C30). -/
theorem C103_messages (l : List Message) : StrictWeak (· ∈ l) msgLt ∧ ∀ r, SortsTo msgLt l r →
    r.map (fun m => (m.id, m.order)) = (sortBy msgLt l).map (fun m => (m.id, m.order)) ∧ (∀ nu, neighboursOk nu r = neighboursOk nu (sortBy msgLt l)) ∧
      ((∀ a ∈ l, ∀ b ∈ l, a.id = b.id → a.order = b.order → a = b) → r = sortBy msgLt l) := by
  have e : msgLt = fun a b => keyLt (msgPair a) (msgPair b) := rfl
  have hw : StrictWeak (· ∈ l) msgLt := weak_key msgPair key_total.weak
  refine ⟨hw, fun r hr => ?_⟩
  have hk := keys_unique msgPair (key_total.mono (fun _ _ => trivial)) (e ▸ hr) (e ▸ sorts hw)
  refine ⟨hk, fun nu => neighbours_keys nu _ _ hk, fun hn => ?_⟩
  have ht : Total (· ∈ l) msgLt := total_key msgPair key_total fun a b ha hb h => by
    simp only [msgPair, Prod.mk.injEq] at h
    exact hn a ha b hb h.1 h.2
  exact unique ht hr

/-- C103, messages in the generator. -/
theorem C103_generated_messages (l : List (Path × Message)) : StrictWeak (· ∈ l) msgKeyLt ∧ ∀ r, SortsTo msgKeyLt l r →
    r.map (fun m => (m.2.id, m.2.order)) = (sortBy msgKeyLt l).map (fun m => (m.2.id, m.2.order)) ∧
      ((∀ a ∈ l, ∀ b ∈ l, a.2.id = b.2.id → a.2.order = b.2.order → a = b) → r = sortBy msgKeyLt l) := by
  have e : msgKeyLt = fun a b => keyLt (msgPair a.2) (msgPair b.2) := rfl
  have hw : StrictWeak (· ∈ l) msgKeyLt := weak_key (fun a : Path × Message => msgPair a.2) key_total.weak
  refine ⟨hw, fun r hr => ?_⟩
  have hk := keys_unique (fun a : Path × Message => msgPair a.2) (key_total.mono (fun _ _ => trivial)) (e ▸ hr) (e ▸ sorts hw)
  refine ⟨hk, fun hn => ?_⟩
  have ht : Total (· ∈ l) msgKeyLt := total_key (fun a : Path × Message => msgPair a.2) key_total fun a b ha hb h => by
    simp only [msgPair, Prod.mk.injEq] at h
    exact hn a ha b hb h.1 h.2
  exact unique ht hr

/-- C103, the ranges of valid values of an `<enum>` in the generated code: every algorithm gives the same ranges after merging, and the same elements if versions are
    looked at. -/
theorem C103_enum_ranges (g : GVer) (big chk : Bool) (b : Bool) (st : EnumF.State) (h : EnumF.Accepted b st) (hi : ∀ p ∈ st.values, IsI64 p.2.value) :
    StrictWeak (· ∈ enumSingles g chk st) (enumLt big chk) ∧ ∀ r, SortsTo (enumLt big chk) (enumSingles g chk st) r →
      (chk = true → r = sortBy (enumLt big chk) (enumSingles g chk st)) ∧
      ((enumMerge big chk r.length r).filter fun x => x.depr ≠ 0).map (fun x => (x.min, x.max)) =
        ((enumMerge big chk r.length (sortBy (enumLt big chk) (enumSingles g chk st))).filter fun x => x.depr ≠ 0).map fun x => (x.min, x.max) := by
  have hw : StrictWeak (· ∈ enumSingles g chk st) (enumLt big chk) := StrictWeak.mono (enum_weak big chk) (fun _ _ => trivial)
  have hs : ∀ x ∈ enumSingles g chk st, Single x ∧ x.depr ≠ 0 := by
    intro x hx
    obtain ⟨p, hp, rfl⟩ := List.mem_map.1 hx
    have hm := (List.mem_filter.1 hp).1
    have := C77_windows b st h p hm
    exact ⟨⟨hi p hm, rfl⟩, by simp only; omega⟩
  refine ⟨hw, fun r hr => ?_⟩
  cases chk with
  | true =>
    have e := unique ((enum_total big).mono (T := (· ∈ enumSingles g true st)) fun x hx => (hs x hx).1) hr
    exact ⟨fun _ => e, by rw [← e]⟩
  | false =>
    refine ⟨by simp, ?_⟩
    have e1 : enumLt big false = fun a b => enumLt big false (erase a) (erase b) := by
      funext a b
      simp [enumLt, erase]
    have hb : Total (· ∈ (enumSingles g false st).map erase) (enumLt big false) := (bare_total big).mono fun x hx => by
      obtain ⟨y, hy, rfl⟩ := List.mem_map.1 hx
      obtain ⟨h1, h2⟩ := hs y hy
      exact ⟨h1, rfl, by simp [erase, h2]⟩
    have hk : r.map erase = (sortBy (enumLt big false) (enumSingles g false st)).map erase := keys_unique erase hb (e1 ▸ hr) (e1 ▸ sorts hw)
    rw [← erase_pairs, ← erase_pairs (List.filter _ (enumMerge big false r.length (sortBy (enumLt big false) (enumSingles g false st)))), ← erase_filter, ← erase_filter,
      ← erase_outer, ← erase_outer, hk]

/-- C103, the values of an `<enum>` in the generated code, partial: the values are listed the same way by every algorithm; the names as well if no value has two names
    (see `C103_enum_witness`). -/
theorem C103_enum_values_partial (l : List (Int × Str)) (hi : ∀ p ∈ l, IsI64 p.1) : StrictWeak (· ∈ l) (fun a b => decide (castU64 a.1 < castU64 b.1)) ∧
    ∀ r, SortsTo (fun a b => decide (castU64 a.1 < castU64 b.1)) l r →
      r.map (fun p => castU64 p.1) = (sortBy (fun a b => decide (castU64 a.1 < castU64 b.1)) l).map (fun p => castU64 p.1) ∧
      ((l.map Prod.fst).Nodup → r = sortBy (fun a b => decide (castU64 a.1 < castU64 b.1)) l) := by
  have hw : StrictWeak (· ∈ l) (fun a b : Int × Str => decide (castU64 a.1 < castU64 b.1)) := weak_key (fun p : Int × Str => castU64 p.1) nat_total.weak
  refine ⟨hw, fun r hr => ⟨keys_unique (fun p : Int × Str => castU64 p.1) (nat_total.mono (fun _ _ => trivial)) hr (sorts hw), fun hn => ?_⟩⟩
  exact unique (total_key (fun p : Int × Str => castU64 p.1) nat_total fun a b ha hb h => nodup_inj hn a ha b hb ((cast_inj (hi a ha) (hi b hb)).1 h)) hr

/-- C103, two names of one value of a 64 bit `<enum>`: `std::sort` may put either one first. -/
theorem C103_enum_witness : ∃ r r' : List (Int × Str), r ≠ r' ∧ SortsTo (fun a b => decide (castU64 a.1 < castU64 b.1)) [(1, "A".toList), (1, "B".toList)] r ∧
    SortsTo (fun a b => decide (castU64 a.1 < castU64 b.1)) [(1, "A".toList), (1, "B".toList)] r' :=
  ⟨[(1, "A".toList), (1, "B".toList)], [(1, "B".toList), (1, "A".toList)], by decide, ⟨.refl _, by decide⟩, ⟨.swap _ _ _, by decide⟩⟩

open FloatSample in
/-- C103, a range with `nan` as upper bound: there is an accepted `<float>` for whose ranges the comparator of the generator is not a strict weak order. -/
theorem C103_nan_witness : ∃ st : FloatF.State, FloatF.Accepted st ∧ ¬ StrictWeak (· ∈ st.validRanges) floatVerLt := by
  have h : FloatSample.okWith (FloatF.parseImpl env fp (ctx [("type".toList, "double".toList)] [spec "S" "nan", .elem "validRange".toList [("value".toList, "[-inf, 5.0]".toList)] [],
      .elem "validRange".toList [("value".toList, "[-inf, -1.5]".toList)] [], .elem "validRange".toList [("value".toList, "[-inf, S]".toList)] []]) (FloatF.initState env))
      (fun st => decide (st.validRanges = [⟨.negInf, .fin (-3 * 2 ^ 1073), 0, Versions.notYet⟩, ⟨.negInf, .fin (5 * 2 ^ 1074), 0, Versions.notYet⟩,
        ⟨.negInf, .nan, 0, Versions.notYet⟩])) = true := by decide +kernel
  obtain ⟨st, h1, h2⟩ := FloatSample.okWith_spec h
  refine ⟨st, .fresh h1, ?_⟩
  rw [of_decide_eq_true h2]
  intro hw
  have := (hw.incomparable ⟨.negInf, .fin (-3 * 2 ^ 1073), 0, Versions.notYet⟩ ⟨.negInf, .nan, 0, Versions.notYet⟩ ⟨.negInf, .fin (5 * 2 ^ 1074), 0, Versions.notYet⟩
    (by simp) (by simp) (by simp) (by decide +kernel) (by decide +kernel) (by decide +kernel) (by decide +kernel)).1
  revert this
  decide +kernel

/-- Ranges that are not sorted, with a version. -/
example : ∃ r, SortsTo (IntF.ltByVersion false) [⟨5, 6, 1, 9⟩, ⟨3, 4, 0, 9⟩] r ∧ r = [⟨3, 4, 0, 9⟩, ⟨5, 6, 1, 9⟩] ∧
    (∀ x ∈ ([⟨5, 6, 1, 9⟩, ⟨3, 4, 0, 9⟩] : List IntF.RangeInfo), IsI64 x.min ∧ IsI64 x.max) :=
  ⟨_, ⟨.swap _ _ _, by decide⟩, rfl, by simp [IsI64]⟩

end Commsdsl.Props
