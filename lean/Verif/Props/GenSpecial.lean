import Verif.Props.GenFloat
import Verif.Props.IntField
import Verif.Spec.GenValid
/-!
# C94: special values of numeric fields in the generated code
-/
namespace Commsdsl.Props
open Commsdsl Spec Gen FloatS

namespace GenSpecialProofs

theorem exists_iff (g : GVer) (since depr : Nat) : doesExist g since depr true = true ↔ since ≤ g.version ∧ g.minRemote < depr := by
  unfold doesExist
  split
  · constructor
    · intro h; cases h
    · intro h; omega
  · split
    · rename_i h1 h2
      simp only [Bool.true_and, decide_eq_true_eq] at h2
      constructor
      · intro h; cases h
      · intro h; omega
    · rename_i h1 h2
      simp only [Bool.true_and, decide_eq_true_eq] at h2
      exact ⟨fun _ => by omega, fun _ => rfl⟩

theorem text_spec {t : IntF.IntType} {v : Int} (h1 : typeLo t ≤ interp t v) (h2 : interp t v ≤ typeHi t) (h3 : interp t v ≠ -2 ^ 63) :
    ∃ s, intSpecialText t v = .ok s ∧ CppExpr s (interp t v) := by
  unfold intSpecialText
  split
  · rename_i hb
    have hb' : t = .uint64 ∨ t = .uintvar := by
      unfold bigBody at hb
      simpa using hb
    have hc : castU64 v < 2 ^ 64 := by unfold castU64; omega
    obtain ⟨sg, hs⟩ := C51_unsigned (castU64 v) 0 hc
    refine ⟨_, rfl, Or.inl ⟨_, sg, hs, ?_⟩⟩
    unfold interp castU64
    rw [if_pos hb']
    omega
  · rename_i hb
    have hb' : ¬ (t = .uint64 ∨ t = .uintvar) := by
      unfold bigBody at hb
      simpa using hb
    have e : interp t v = v := by unfold interp; rw [if_neg hb']
    rw [e] at h1 h2 h3 ⊢
    have hlo : ∀ t : IntF.IntType, ¬ (t = .uint64 ∨ t = .uintvar) → -2 ^ 63 ≤ typeLo t ∧ typeHi t < 2 ^ 63 := by
      intro t; cases t <;> decide
    have := hlo t hb'
    exact C51_signed_partial v (by omega) (by omega)

theorem accessors_spec (g : GVer) (t : IntF.IntType) : ∀ (l : List (Str × IntF.SpecialInfo)),
    (∀ s ∈ l, typeLo t ≤ interp t s.2.value ∧ interp t s.2.value ≤ typeHi t ∧ interp t s.2.value ≠ -2 ^ 63) →
    ∃ accs, intAccessors g t l = .ok accs ∧
      (∀ s ∈ l, s.2.since ≤ g.version → g.minRemote < s.2.depr → ∃ txt, (className s.1, txt) ∈ accs ∧ CppExpr txt (interp t s.2.value)) ∧
      (∀ p ∈ accs, ∃ s ∈ l, s.2.since ≤ g.version ∧ g.minRemote < s.2.depr ∧ p.1 = className s.1 ∧ CppExpr p.2 (interp t s.2.value)) ∧
      (accs.map Prod.fst).Sublist (l.map fun s => className s.1) := by
  intro l
  induction l with
  | nil => intro _; exact ⟨[], rfl, by simp, by simp, List.Sublist.refl _⟩
  | cons s ss ih =>
    intro hl
    obtain ⟨accs, e, h1, h2, h3⟩ := ih fun x hx => hl x (List.mem_cons_of_mem _ hx)
    unfold intAccessors
    split
    · rename_i hne
      have hne' : ¬ (s.2.since ≤ g.version ∧ g.minRemote < s.2.depr) := by
        rw [← exists_iff]; simpa using hne
      refine ⟨accs, e, ?_, fun p hp => ?_, h3.trans (List.sublist_cons_self _ _)⟩
      · intro x hx a b
        rcases List.mem_cons.1 hx with rfl | hx
        · exact absurd ⟨a, b⟩ hne'
        · exact h1 x hx a b
      · obtain ⟨x, hx, h⟩ := h2 p hp
        exact ⟨x, List.mem_cons_of_mem _ hx, h⟩
    · rename_i hne
      have he : s.2.since ≤ g.version ∧ g.minRemote < s.2.depr := by
        rw [← exists_iff]; simpa using hne
      obtain ⟨b1, b2, b3⟩ := hl s List.mem_cons_self
      obtain ⟨txt, ht, hx⟩ := text_spec b1 b2 b3
      refine ⟨(className s.1, txt) :: accs, ?_, ?_, ?_, ?_⟩
      · rw [ht, e]; rfl
      · intro x hx' a b
        rcases List.mem_cons.1 hx' with rfl | hx'
        · exact ⟨txt, List.mem_cons_self, hx⟩
        · obtain ⟨u, hu, hu'⟩ := h1 x hx' a b
          exact ⟨u, List.mem_cons_of_mem _ hu, hu'⟩
      · intro p hp
        rcases List.mem_cons.1 hp with rfl | hp
        · exact ⟨s, List.mem_cons_self, he.1, he.2, rfl, hx⟩
        · obtain ⟨x, hx, h⟩ := h2 p hp
          exact ⟨x, List.mem_cons_of_mem _ hx, h⟩
      · exact h3.cons_cons _

theorem nodup_classes {α : Type} {l l' : List (Str × α)} (hp : l'.Perm l) (hn : (l.map Prod.fst).Nodup)
    (hc : ∀ a ∈ l, ∀ b ∈ l, className a.1 = className b.1 → a.1 = b.1) : (l'.map fun s => className s.1).Nodup := by
  refine ((hp.map fun s => className s.1).nodup_iff).2 ?_
  unfold List.Nodup at *
  rw [List.pairwise_map] at *
  exact hn.imp_of_mem fun ha hb h e => h (hc _ ha _ hb e)

end GenSpecialProofs
open GenSpecialProofs

/-! ## `<int>` -/

/-- For each special value of the field that some supported version has there is a function `valueX()` that returns its number, and there are no other such
    functions; if no two of the names differ in the case of the first letter only, the functions have different names. Missing for the full claim: names that
    do (`C94_clash_witness`), and the number `-2^63`, which the generator negates (`C51_min_undefined`). -/
theorem C94_int_partial (g : GVer) (st : IntF.State) (h : IntF.Accepted st) (t : IntF.IntType) (ht : st.type = some t)
    (hm : ∀ s ∈ st.specials, interp t s.2.value ≠ -2 ^ 63) :
    ∃ accs, intAccessors g t (intSpecials t st.specials) = .ok accs ∧
      (∀ s ∈ st.specials, s.2.since ≤ g.version → g.minRemote < s.2.depr → ∃ txt, (className s.1, txt) ∈ accs ∧ CppExpr txt (interp t s.2.value)) ∧
      (∀ p ∈ accs, ∃ s ∈ st.specials, s.2.since ≤ g.version ∧ g.minRemote < s.2.depr ∧ p.1 = className s.1 ∧ CppExpr p.2 (interp t s.2.value)) ∧
      ((∀ a ∈ st.specials, ∀ b ∈ st.specials, className a.1 = className b.1 → a.1 = b.1) → (accs.map Prod.fst).Nodup) := by
  obtain ⟨t', ht', _, hs⟩ := C10_default_specials_of_type_partial st h
  rw [ht] at ht'
  cases ht'
  have hp : (intSpecials t st.specials).Perm st.specials := sortBy_perm _ _
  obtain ⟨accs, e, h1, h2, h3⟩ := accessors_spec g t (intSpecials t st.specials) fun s hs' =>
    ⟨(hs s (hp.mem_iff.1 hs')).1, (hs s (hp.mem_iff.1 hs')).2, hm s (hp.mem_iff.1 hs')⟩
  refine ⟨accs, e, fun s hs' => h1 s (hp.mem_iff.2 hs'), fun p hp' => ?_, fun hc => h3.nodup (nodup_classes hp (C14_names_unique st h) hc)⟩
  obtain ⟨s, hs', h⟩ := h2 p hp'
  exact ⟨s, hp.mem_iff.1 hs', h⟩

/-- `specialNamesMap()` lists all special values once, in the order of their numbers. -/
theorem C94_int_map (st : IntF.State) (h : IntF.Accepted st) (t : IntF.IntType) (ht : st.type = some t) :
    ∃ l : List (Str × IntF.SpecialInfo), specialsMap (intSpecials t st.specials) = l.map (fun s => (className s.1, s.1)) ∧ l.Perm st.specials ∧
      l.Pairwise fun a b => interp t a.2.value ≤ interp t b.2.value := by
  obtain ⟨t', ht', _, hs⟩ := C10_default_specials_of_type_partial st h
  rw [ht] at ht'
  cases ht'
  refine ⟨_, rfl, sortBy_perm _ _, ?_⟩
  have hcast : ∀ v, typeLo t ≤ interp t v → interp t v ≤ typeHi t → unsignedType t = true → (castU64 v : Int) = interp t v := by
    intro v h1 h2 hu
    unfold castU64
    unfold interp at h1 h2 ⊢
    cases t <;> simp [unsignedType, typeLo, typeHi, Signed, typeBits] at hu h1 h2 ⊢ <;> omega
  have hbig : unsignedType t = false → ∀ v, interp t v = v := by
    intro hu v
    unfold interp
    cases t <;> first | rfl | cases hu
  refine sortBy_pairwise (intSpecialLt (unsignedType t)) (fun s => typeLo t ≤ interp t s.2.value ∧ interp t s.2.value ≤ typeHi t)
    (fun a b => interp t a.2.value ≤ interp t b.2.value) (fun a b c _ _ _ => Int.le_trans) ?_ ?_ st.specials hs
  · intro a b ha hb hlt
    unfold intSpecialLt at hlt
    split at hlt
    · rename_i e; rw [e]; exact Int.le_refl _
    · split at hlt
      · rename_i hu
        have := of_decide_eq_true hlt
        rw [← hcast _ ha.1 ha.2 hu, ← hcast _ hb.1 hb.2 hu]
        omega
      · rename_i hu
        rw [hbig (by simpa using hu), hbig (by simpa using hu)]
        have := of_decide_eq_true hlt
        omega
  · intro a b ha hb hlt
    unfold intSpecialLt at hlt
    split at hlt
    · rename_i e; rw [e]; exact Int.le_refl _
    · split at hlt
      · rename_i hu
        have := of_decide_eq_false hlt
        rw [← hcast _ ha.1 ha.2 hu, ← hcast _ hb.1 hb.2 hu]
        omega
      · rename_i hu
        rw [hbig (by simpa using hu), hbig (by simpa using hu)]
        have := of_decide_eq_false hlt
        omega

/-- The functions it calls exist if all special values are in some supported version. Missing for the full claim: those that are not
    (`C94_removed_witness`). -/
theorem C94_map_defined_partial (g : GVer) (st : IntF.State) (h : IntF.Accepted st) (t : IntF.IntType) (ht : st.type = some t)
    (hm : ∀ s ∈ st.specials, interp t s.2.value ≠ -2 ^ 63) (he : ∀ s ∈ st.specials, s.2.since ≤ g.version ∧ g.minRemote < s.2.depr) :
    ∃ accs, intAccessors g t (intSpecials t st.specials) = .ok accs ∧ ∀ p ∈ specialsMap (intSpecials t st.specials), p.1 ∈ accs.map Prod.fst := by
  obtain ⟨accs, e, h1, _⟩ := C94_int_partial g st h t ht hm
  refine ⟨accs, e, fun p hp => ?_⟩
  obtain ⟨s, hs, rfl⟩ := List.mem_map.1 hp
  have hs := (sortBy_perm _ _).mem_iff.1 hs
  obtain ⟨txt, hx, _⟩ := h1 s hs (he s hs).1 (he s hs).2
  exact List.mem_map.2 ⟨_, hx, rfl⟩

/-! ## `<float>` -/

namespace GenSpecialProofs
open GenFloatProofs FloatProofs

theorem dvd_large {d : Bool} {x : Int} (a : Nat) (h : IsFlt d x) (hx : 2 ^ (a + if d then 52 else 23) ≤ x.natAbs) : ∃ j : Int, x = j * 2 ^ a := by
  obtain ⟨⟨m, e, rfl, hm, _⟩, _⟩ := h
  rw [Int.natAbs_mul, Int.natAbs_pow] at hx
  have h2 : (2 : Int).natAbs = 2 := rfl
  rw [h2] at hx
  have hp : (if d then 53 else 24) = (if d then 52 else 23) + 1 := by cases d <;> rfl
  rw [hp] at hm
  generalize (if d then 52 else 23) = p at *
  have : a ≤ e := by
    apply Nat.le_of_lt_succ
    apply Nat.lt_of_not_le
    intro hle
    have h1 : 2 ^ (a + p) = 2 ^ (a - e - 1) * 2 ^ (p + 1) * 2 ^ e := by
      rw [← Nat.pow_add, ← Nat.pow_add]
      congr 1
      omega
    have h3 : 1 ≤ 2 ^ (a - e - 1) := Nat.one_le_two_pow
    have h4 : 2 ^ (p + 1) * 2 ^ e ≤ 2 ^ (a - e - 1) * 2 ^ (p + 1) * 2 ^ e := by
      rw [Nat.mul_assoc]
      exact Nat.le_mul_of_pos_left _ h3
    have h5 : m.natAbs * 2 ^ e < 2 ^ (p + 1) * 2 ^ e := Nat.mul_lt_mul_of_pos_right hm (Nat.two_pow_pos e)
    omega
  refine ⟨m * 2 ^ (e - a), ?_⟩
  rw [Int.mul_assoc, ← Int.pow_add]
  congr 2
  omega

theorem eq_of_near {d : Bool} {a n : Int} (ha : IsFlt d a) (hn : IsFlt d n) (hb : 2 ^ 1075 ≤ a.natAbs) (h : (n - a).natAbs < 2 ^ (1074 - if d then 52 else 23)) :
    n = a := by
  have hp : (if d then 52 else 23) ≤ 52 := by cases d <;> decide
  have ex : (1074 - if d then 52 else 23) + (if d then 52 else 23) = 1074 := by omega
  have hle : (2 : Nat) ^ (1074 - if d then 52 else 23) ≤ 2 ^ 1074 := Nat.pow_le_pow_right (by decide) (by omega)
  have e2 : (2 : Nat) ^ 1075 = 2 * 2 ^ 1074 := by decide +kernel
  have hn1 : 2 ^ 1074 ≤ n.natAbs := by
    generalize (2 : Nat) ^ 1075 = A at *
    generalize (2 : Nat) ^ 1074 = B at *
    omega
  have ha1 : 2 ^ 1074 ≤ a.natAbs := by
    generalize (2 : Nat) ^ 1075 = A at *
    generalize (2 : Nat) ^ 1074 = B at *
    omega
  obtain ⟨i, hi⟩ := dvd_large (1074 - if d then 52 else 23) ha (by rw [ex]; exact ha1)
  obtain ⟨j, hj⟩ := dvd_large (1074 - if d then 52 else 23) hn (by rw [ex]; exact hn1)
  rw [hi, hj] at h ⊢
  rw [← Int.sub_mul, Int.natAbs_mul, Int.natAbs_pow] at h
  have h2 : (2 : Int).natAbs = 2 := rfl
  rw [h2] at h
  have : (j - i).natAbs < 1 := by
    apply Nat.lt_of_not_le
    intro hge
    have := Nat.mul_le_mul_right (2 ^ (1074 - if d then 52 else 23)) hge
    omega
  have : j = i := by omega
  rw [this]

theorem lit_any {d : Bool} {b : FloatF.Dbl} (h : WritableValue b) (v : FloatF.Dbl) : LitVal d (floatLit d b) v ↔ RoundsTo d b v := by
  rcases h with h | ⟨x, rfl, hx⟩
  · rcases h with rfl | rfl | rfl
    · exact ⟨fun h => by cases h; exact .nan, fun h => by cases h; exact .nan⟩
    · exact ⟨fun h => by cases h; exact .negInf, fun h => by cases h; exact .negInf⟩
    · exact ⟨fun h => by cases h; exact .posInf, fun h => by cases h; exact .posInf⟩
  · exact lit_kept d hx v

end GenSpecialProofs
open GenFloatProofs

/-- For each special value of the field that some supported version has there is a function `valueX()` that returns it, as number of the type; after
    `setX()`, `isX()` is true; `isX()` is true for no other value if the value is not finite or at least 2 (or at most -2). There are no other such functions.
    Missing for the full claim: values that six decimal places do not determine (`C93_digits_witness`), smaller numbers (`C94_near_witness`), and names that
    differ in the case of the first letter only. -/
theorem C94_float_partial (g : GVer) (d : Bool) (specials : List (Str × FloatF.SpecialInfo)) (hw : ∀ s ∈ specials, WritableValue s.2.value) :
    (∀ s ∈ specials, s.2.since ≤ g.version → g.minRemote < s.2.depr → ∃ lit cmp, (className s.1, lit, cmp) ∈ floatAccessors g d (floatSpecials specials) ∧
      (∀ v, LitVal d lit v ↔ RoundsTo d s.2.value v) ∧ (∀ v, LitVal d lit v → FCmpHolds d v cmp) ∧
      (∀ v, FCmpHolds d v cmp → (s.2.value = .nan ∨ s.2.value = .negInf ∨ s.2.value = .posInf) → v = s.2.value) ∧
      (∀ n a, FCmpHolds d (.fin n) cmp → IsFlt d n → LitVal d lit (.fin a) → 2 ^ 1075 ≤ a.natAbs → n = a)) ∧
    (∀ p ∈ floatAccessors g d (floatSpecials specials), ∃ s ∈ specials, s.2.since ≤ g.version ∧ g.minRemote < s.2.depr ∧ p.1 = className s.1) ∧
    ((specials.map Prod.fst).Nodup → (∀ a ∈ specials, ∀ b ∈ specials, className a.1 = className b.1 → a.1 = b.1) →
      ((floatAccessors g d (floatSpecials specials)).map Prod.fst).Nodup) := by
  have hp : (floatSpecials specials).Perm specials := sortBy_perm _ _
  refine ⟨fun s hs h1 h2 => ?_, fun p hp' => ?_, fun hn hc => ?_⟩
  · refine ⟨_, _, List.mem_map.2 ⟨s, List.mem_filter.2 ⟨hp.mem_iff.2 hs, (exists_iff g _ _).2 ⟨h1, h2⟩⟩, rfl⟩, lit_any (hw s hs), ?_, ?_, ?_⟩
    · intro v hv
      rcases hw s hs with h | ⟨x, h, hx⟩
      · rcases h with h | h | h <;> rw [h] at hv ⊢ <;> cases hv <;> rfl
      · rw [h] at hv ⊢
        obtain ⟨n, rfl⟩ := rounds_not_nan ((lit_kept d hx v).1 hv)
        exact ⟨n, n, hv, rfl, by rw [Int.sub_self]; exact Nat.two_pow_pos _⟩
    · intro v hv h
      rcases h with h | h | h <;> rw [h] at hv ⊢ <;> exact hv
    · intro n a hc hn ha hb
      rcases hw s hs with h | ⟨x, h, hx⟩
      · rcases h with h | h | h <;> rw [h] at ha <;> cases ha
      · rw [h] at hc ha
        obtain ⟨a', n', ha', e, hlt⟩ := hc
        cases e
        have := rounds_unique ((lit_kept d hx _).1 ha) ((lit_kept d hx _).1 ha')
        cases this
        have haf : IsFlt d a := by
          cases (lit_kept d hx _).1 ha with
          | fin h => exact h.1
        exact eq_of_near haf hn hb hlt
  · obtain ⟨s, hs, rfl⟩ := List.mem_map.1 hp'
    obtain ⟨hs, he⟩ := List.mem_filter.1 hs
    have := (exists_iff g _ _).1 he
    exact ⟨s, hp.mem_iff.1 hs, this.1, this.2, rfl⟩
  · have h1 := nodup_classes hp hn hc
    have e : (floatAccessors g d (floatSpecials specials)).map Prod.fst =
        ((floatSpecials specials).filter fun s => doesExist g s.2.since s.2.depr true).map fun s => className s.1 := by
      unfold floatAccessors
      rw [List.map_map]
      rfl
    rw [e]
    exact (List.Sublist.map _ List.filter_sublist).nodup h1

/-! ## Examples and counterexamples -/

namespace GenSpecialSample

def ienv : IntF.Env := { dsl := 7, schemaVersion := 5, schemaEndian := .little, strToNumeric := fun _ => none }

def ispec (name val since depr : String) : Xml :=
  .elem "special".toList [("name".toList, name.toList), ("val".toList, val.toList), ("sinceVersion".toList, since.toList), ("deprecated".toList, depr.toList)] []

def ispec0 (name val : String) : Xml := .elem "special".toList [("name".toList, name.toList), ("val".toList, val.toList)] []

def ictx (type : String) (children : List Xml) : IntF.Ctx :=
  { node := .elem "int".toList [] children, props := [("type".toList, type.toList)], since := 0, depr := Versions.notYet, bitfieldMember := false }

end GenSpecialSample
open GenSpecialSample

/-- A field with two special values, one of which is there up to version 3. -/
example : ∃ st, IntF.Accepted st ∧ st.type = some .uint64 ∧ (∀ s ∈ st.specials, interp .uint64 s.2.value ≠ -2 ^ 63) ∧
    (∀ a ∈ st.specials, ∀ b ∈ st.specials, className a.1 = className b.1 → a.1 = b.1) ∧
    specialsMap (intSpecials .uint64 st.specials) = [("One".toList, "one".toList), ("Top".toList, "Top".toList)] ∧
    intAccessors ⟨5, -1, 2, true⟩ .uint64 (intSpecials .uint64 st.specials) = .ok [("One".toList, "1".toList), ("Top".toList, "0xFFFFFFFFFFFFFFFFULL".toList)] ∧
    intAccessors ⟨5, -1, 4, true⟩ .uint64 (intSpecials .uint64 st.specials) = .ok [("One".toList, "1".toList)] := by
  have h : okWith (IntF.parseImpl ienv (ictx "uint64" [ispec "Top" "0xffffffffffffffff" "1" "4", ispec0 "one" "1"]) (IntF.initState ienv))
      (fun st => decide (st.type = some .uint64 ∧ (∀ s ∈ st.specials, interp .uint64 s.2.value ≠ -2 ^ 63) ∧
    (∀ a ∈ st.specials, ∀ b ∈ st.specials, className a.1 = className b.1 → a.1 = b.1) ∧
    specialsMap (intSpecials .uint64 st.specials) = [("One".toList, "one".toList), ("Top".toList, "Top".toList)] ∧
    intAccessors ⟨5, -1, 2, true⟩ .uint64 (intSpecials .uint64 st.specials) = .ok [("One".toList, "1".toList), ("Top".toList, "0xFFFFFFFFFFFFFFFFULL".toList)] ∧
    intAccessors ⟨5, -1, 4, true⟩ .uint64 (intSpecials .uint64 st.specials) = .ok [("One".toList, "1".toList)])) = true := by decide +kernel
  obtain ⟨st, h1, h2⟩ := okWith_spec h
  exact ⟨st, .fresh h1, of_decide_eq_true h2⟩

/-- Refutation of "the functions have different names": special values `a` and `A` are accepted, and both get the function `valueA()`. -/
theorem C94_clash_witness : ∃ st, IntF.Accepted st ∧ ∀ g : GVer, g.minRemote < Versions.notYet →
    intAccessors g .uint8 (intSpecials .uint8 st.specials) = .ok [("A".toList, "1".toList), ("A".toList, "2".toList)] := by
  have h : okWith (IntF.parseImpl ienv (ictx "uint8" [ispec0 "a" "1", ispec0 "A" "2"]) (IntF.initState ienv))
      (fun st => decide (st.specials = [("a".toList, ⟨1, 0, Versions.notYet, [], []⟩), ("A".toList, ⟨2, 0, Versions.notYet, [], []⟩)])) = true := by decide +kernel
  obtain ⟨st, h1, h2⟩ := okWith_spec h
  have h2 := of_decide_eq_true h2
  refine ⟨st, .fresh h1, fun g hg => ?_⟩
  have e : intSpecials .uint8 st.specials = [("a".toList, ⟨1, 0, Versions.notYet, [], []⟩), ("A".toList, ⟨2, 0, Versions.notYet, [], []⟩)] := by
    rw [h2]; decide +kernel
  rw [e]
  have ha : doesExist g 0 Versions.notYet true = true := (exists_iff g _ _).2 ⟨Nat.zero_le _, hg⟩
  unfold intAccessors intAccessors intAccessors
  dsimp only
  rw [ha]
  decide +kernel

/-- Refutation of "`specialNamesMap()` calls functions that exist": a special value that was removed before the oldest supported version is left out, and its
    name is in the table all the same. -/
theorem C94_removed_witness : ∃ st, IntF.Accepted st ∧ ∃ g : GVer, g.prepareOk = true ∧ g.minRemote ≤ g.version ∧
    intAccessors g .uint8 (intSpecials .uint8 st.specials) = .ok [("B".toList, "2".toList)] ∧
    specialsMap (intSpecials .uint8 st.specials) = [("A".toList, "A".toList), ("B".toList, "B".toList)] := by
  have h : okWith (IntF.parseImpl ienv (ictx "uint8" [ispec "A" "1" "1" "3", ispec0 "B" "2"]) (IntF.initState ienv))
      (fun st => decide (intAccessors ⟨5, -1, 4, false⟩ .uint8 (intSpecials .uint8 st.specials) = .ok [("B".toList, "2".toList)] ∧
    specialsMap (intSpecials .uint8 st.specials) = [("A".toList, "A".toList), ("B".toList, "B".toList)])) = true := by decide +kernel
  obtain ⟨st, h1, h2⟩ := okWith_spec h
  exact ⟨st, .fresh h1, ⟨5, -1, 4, false⟩, by decide, by decide, of_decide_eq_true h2⟩

namespace GenSpecialSample
open FloatSample

/-- A `std::stod` that also knows 0.5. -/
def stod3 (s : Str) : Option FloatF.Dbl := if s = "0.5".toList then some (.fin (2 ^ 1073)) else stod s

def fp3 : FloatF.Fp := { stod := stod3 }

end GenSpecialSample

/-- Refutation of "`isX()` is true for the special value only": numbers are compared up to `epsilon()`. The field has the special value `Half = 0.5`; its
    `isHalf()` is also true for the next number. -/
theorem C94_near_witness : ∃ st, FloatF.Accepted st ∧ st.double = some true ∧ st.specials.map (fun s => (s.1, s.2.value)) = [("Half".toList, .fin (2 ^ 1073))] ∧
    ∀ g : GVer, g.minRemote < Versions.notYet → ∃ lit cmp, floatAccessors g true (floatSpecials st.specials) = [("Half".toList, lit, cmp)] ∧
      IsFlt true (2 ^ 1073 + 2 ^ 1021) ∧ ¬ LitVal true lit (.fin (2 ^ 1073 + 2 ^ 1021)) ∧ FCmpHolds true (.fin (2 ^ 1073 + 2 ^ 1021)) cmp := by
  have h : FloatSample.okWith (FloatF.parseImpl FloatSample.env fp3 (FloatSample.ctx [("type".toList, "double".toList)] [FloatSample.spec "Half" "0.5"]) (FloatF.initState FloatSample.env))
      (fun st => decide (st.double = some true ∧ st.specials = [("Half".toList, ⟨.fin (2 ^ 1073), 0, Versions.notYet, [], []⟩)])) = true := by decide +kernel
  obtain ⟨st, h1, h2⟩ := FloatSample.okWith_spec h
  obtain ⟨h2, h3⟩ := of_decide_eq_true h2
  have hk : Kept (2 ^ 1073) := by
    refine C93_kept_decimal _ 500000 ⟨⟨1, 1073, (Int.one_mul _).symm, by decide, Nat.zero_le _⟩, by decide +kernel⟩ (by decide) fun y _ hne => ?_
    have e : (500000 : Int) * 2 ^ 1074 = 2 ^ 1073 * 1000000 := by decide +kernel
    rw [e]
    generalize (2 : Int) ^ 1073 = x at *
    omega
  have hlit := lit_kept true hk
  refine ⟨st, .fresh h1, h2, by rw [h3]; rfl, fun g hg => ?_⟩
  have ha : doesExist g 0 Versions.notYet true = true := (exists_iff g _ _).2 ⟨Nat.zero_le _, hg⟩
  refine ⟨floatLit true (.fin (2 ^ 1073)), cmpOf true (.fin (2 ^ 1073)), ?_, ⟨⟨2 ^ 52 + 1, 1021, ?_, by decide, Nat.zero_le _⟩, by decide +kernel⟩, ?_, ?_⟩
  · rw [h3]
    unfold floatSpecials floatAccessors sortBy sortBy insertBy
    rw [List.filter_cons_of_pos (p := fun s : Str × FloatF.SpecialInfo => doesExist g s.2.since s.2.depr true) ha]
    rfl
  · decide +kernel
  · rw [hlit, rounds_self hk.1]
    intro e
    have : (2 : Int) ^ 1073 + 2 ^ 1021 ≠ 2 ^ 1073 := by decide +kernel
    exact this (FloatF.Dbl.fin.inj e)
  · refine ⟨2 ^ 1073, 2 ^ 1073 + 2 ^ 1021, (hlit _).2 ((rounds_self hk.1 _).2 rfl), rfl, ?_⟩
    decide +kernel

end Commsdsl.Props
