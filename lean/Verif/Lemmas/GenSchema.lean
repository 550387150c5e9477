import Verif.Model.GenSchema
import Verif.Lemmas.Protocol
import Verif.Props.Protocol
/-!
# Lemmas about the generator's tree of namespaces
-/
namespace Commsdsl.Gen
open Commsdsl Text Fld Msg Frm Proto Spec Props.ProtoProofs

/-! ## Binary search -/

theorem lowerBound_spec {α : Type} (less : α → Bool) (l : List α)
    (hmono : ∀ (i j : Nat) (x y : α), i < j → l[i]? = some x → l[j]? = some y → less y = true → less x = true) :
    ∀ (fuel first len : Nat), len ≤ fuel → first + len ≤ l.length →
      (∀ (i : Nat) (x : α), i < first → l[i]? = some x → less x = true) →
      (∀ (i : Nat) (x : α), first + len ≤ i → l[i]? = some x → less x = false) →
      (∀ (i : Nat) (x : α), i < lowerBound less l fuel first len → l[i]? = some x → less x = true) ∧
      (∀ (i : Nat) (x : α), lowerBound less l fuel first len ≤ i → l[i]? = some x → less x = false) := by
  intro fuel
  induction fuel with
  | zero =>
    intro first len h1 h2 h3 h4
    have : len = 0 := by omega
    subst this
    exact ⟨h3, h4⟩
  | succ fuel ih =>
    intro first len h1 h2 h3 h4
    rw [lowerBound]
    split
    · rename_i h; subst h; exact ⟨h3, h4⟩
    · rename_i hne
      have hlt : first + len / 2 < l.length := by omega
      rw [List.getElem?_eq_getElem hlt]
      simp only
      have hmid : l[first + len / 2]? = some l[first + len / 2] := List.getElem?_eq_getElem hlt
      split
      · rename_i hx
        refine ih _ _ (by omega) (by omega) ?_ ?_
        · intro i x hi hix
          rcases Nat.lt_or_ge i (first + len / 2) with h | h
          · exact hmono _ _ _ _ h hix hmid hx
          · have : i = first + len / 2 := by omega
            subst this; rw [hmid] at hix; cases hix; exact hx
        · intro i x hi hix
          exact h4 i x (by omega) hix
      · rename_i hx
        refine ih _ _ (by omega) (by omega) h3 ?_
        intro i x hi hix
        cases hl : less x with
        | false => rfl
        | true =>
          exfalso
          rcases Nat.lt_or_ge (first + len / 2) i with h | h
          · exact hx (hmono _ _ _ _ h hmid hix hl)
          · have : i = first + len / 2 := by omega
            subst this; rw [hmid] at hix; cases hix; exact hx hl

/-- The search by name in a list that is strictly sorted by name. -/
theorem findByName_iff {α : Type} (nameOf : α → Str) (l : List α) (hs : l.Pairwise fun a b => nameOf a < nameOf b) (n : Str) (x : α) :
    findByName nameOf l n = some x ↔ x ∈ l ∧ nameOf x = n := by
  have hlt : ∀ (i j : Nat) (x y : α), i < j → l[i]? = some x → l[j]? = some y → nameOf x < nameOf y := by
    intro i j x y hij hx hy
    obtain ⟨hi, rfl⟩ := List.getElem?_eq_some_iff.1 hx
    obtain ⟨hj, rfl⟩ := List.getElem?_eq_some_iff.1 hy
    exact List.pairwise_iff_getElem.1 hs i j hi hj hij
  obtain ⟨hb, ha⟩ := lowerBound_spec (fun x => strLt (nameOf x) n) l (by
      intro i j x y hij hx hy hl
      rw [strLt_iff] at hl ⊢
      exact str_trans (hlt i j x y hij hx hy) hl) l.length 0 l.length (Nat.le_refl _) (by omega)
    (by intro i x hi; omega) (by
      intro i x hi hx
      obtain ⟨h, _⟩ := List.getElem?_eq_some_iff.1 hx
      omega)
  unfold findByName
  constructor
  · intro h
    split at h
    · cases h
    · rename_i y hy
      split at h
      · rename_i he
        cases h
        exact ⟨List.mem_of_getElem? hy, by simpa using he⟩
      · cases h
  · rintro ⟨hm, rfl⟩
    obtain ⟨k, hk⟩ := List.mem_iff_getElem?.1 hm
    have hkge : ¬ k < lowerBound (fun y => strLt (nameOf y) (nameOf x)) l l.length 0 l.length := by
      intro hc
      have := hb k x hc hk
      rw [strLt_iff] at this
      exact str_irrefl _ this
    have hle : ∀ (y : α), l[lowerBound (fun y => strLt (nameOf y) (nameOf x)) l l.length 0 l.length]? = some y → y = x := by
      intro y hy
      rcases Nat.lt_or_ge (lowerBound (fun y => strLt (nameOf y) (nameOf x)) l l.length 0 l.length) k with h | h
      · have h1 := hlt _ _ _ _ h hy hk
        have h2 := ha _ _ (Nat.le_refl _) hy
        rw [strLt_false] at h2
        exact absurd h1 h2
      · have : k = lowerBound (fun y => strLt (nameOf y) (nameOf x)) l l.length 0 l.length := by omega
        rw [← this, hk] at hy
        exact (Option.some.inj hy).symm
    have hbound : lowerBound (fun y => strLt (nameOf y) (nameOf x)) l l.length 0 l.length < l.length := by
      obtain ⟨h, _⟩ := List.getElem?_eq_some_iff.1 hk
      omega
    rw [List.getElem?_eq_getElem hbound]
    have := hle _ (List.getElem?_eq_getElem hbound)
    simp [this]

/-! ## The tree -/

theorem subNs_sorted (nss : List Path) (path : Path) : (subNs nss path).Pairwise (· < ·) := uniqueAdj_sorted _ (sorted_strs _)

theorem subNs_mem (nss : List Path) (path : Path) (x : Str) : x ∈ subNs nss path ↔ path ++ [x] ∈ nss := by
  unfold subNs
  rw [uniqueAdj_mem, mem_sortBy, List.mem_map]
  constructor
  · rintro ⟨q, hq, rfl⟩
    rw [List.mem_filter] at hq
    obtain ⟨hq, hc⟩ := hq
    simp only [Bool.and_eq_true, decide_eq_true_eq, beq_iff_eq] at hc
    obtain ⟨hne, rfl⟩ := hc
    rw [List.getLast?_eq_some_getLast hne, Option.getD_some, List.dropLast_concat_getLast hne]
    exact hq
  · intro h
    refine ⟨_, List.mem_filter.2 ⟨h, ?_⟩, ?_⟩
    · simp
    · simp

theorem elemsAt_mem {α : Type} (nameOf : α → Str) (l : List (Path × α)) (path : Path) (a : α) :
    a ∈ elemsAt nameOf l path ↔ (path, a) ∈ l := by
  unfold elemsAt
  rw [mem_sortBy, List.mem_map]
  constructor
  · rintro ⟨e, he, rfl⟩
    rw [List.mem_filter] at he
    obtain ⟨he, hp⟩ := he
    simp only [beq_iff_eq] at hp
    rw [← hp]; exact he
  · intro h
    exact ⟨(path, a), List.mem_filter.2 ⟨h, by simp⟩, rfl⟩

/-- Sorting by name where names are unique. -/
theorem sortBy_name_strict {α : Type} (nameOf : α → Str) (l : List α) (hn : (l.map nameOf).Nodup) :
    (sortBy (fun a b => strLt (nameOf a) (nameOf b)) l).Pairwise fun a b => nameOf a < nameOf b := by
  have h1 : (sortBy (fun a b => strLt (nameOf a) (nameOf b)) l).Pairwise (fun a b => ¬ nameOf b < nameOf a) := by
    apply sortBy_pairwise _ (fun _ => True)
    · intro a b c _ _ _ h1 h2 h3
      by_cases h : nameOf a < nameOf b
      · exact h2 (str_trans h3 h)
      · have := str_total h h1
        rw [this] at h3
        exact h2 h3
    · intro a b _ _ h
      rw [strLt_iff] at h
      exact fun h' => str_irrefl _ (str_trans h h')
    · intro a b _ _ h
      rwa [strLt_false] at h
    · simp
  have h2 : ((sortBy (fun a b => strLt (nameOf a) (nameOf b)) l).map nameOf).Nodup :=
    ((sortBy_perm _ l).map nameOf).nodup_iff.2 hn
  unfold List.Nodup at h2
  rw [List.pairwise_map] at h2
  refine (List.Pairwise.and h1 h2).imp ?_
  rintro a b ⟨h, hne⟩
  by_cases hab : nameOf a < nameOf b
  · exact hab
  · exact absurd (str_total hab h) hne

theorem elemsAt_sorted {α : Type} (nameOf : α → Str) (l : List (Path × α)) (hn : (l.map fun e => (e.1, nameOf e.2)).Nodup) (path : Path) :
    (elemsAt nameOf l path).Pairwise fun a b => nameOf a < nameOf b := by
  apply sortBy_name_strict
  rw [List.map_map]
  unfold List.Nodup at hn ⊢
  rw [List.pairwise_map] at hn ⊢
  refine List.Pairwise.imp_of_mem ?_ (hn.filter _)
  intro a b ha hb hne heq
  rw [List.mem_filter] at ha hb
  have h1 := ha.2; have h2 := hb.2
  simp only [beq_iff_eq] at h1 h2
  exact hne (by rw [h1, h2]; exact congrArg _ heq)

theorem buildNs_path (s : Schema) (d : Nat) (path : Path) : (buildNs s d path).path = path := by cases d <;> rfl
theorem buildNs_name (s : Schema) (d : Nat) (path : Path) : (buildNs s d path).name = path.getLast?.getD [] := by cases d <;> rfl
theorem buildNs_fields (s : Schema) (d : Nat) (path : Path) : (buildNs s d path).fields = elemsAt Field.name s.fields path := by cases d <;> rfl
theorem buildNs_msgs (s : Schema) (d : Nat) (path : Path) : (buildNs s d path).msgs = elemsAt Message.name s.messages path := by cases d <;> rfl
theorem buildNs_ifaces (s : Schema) (d : Nat) (path : Path) : (buildNs s d path).ifaces = elemsAt Interface.name s.ifaces path := by cases d <;> rfl
theorem buildNs_frames (s : Schema) (d : Nat) (path : Path) : (buildNs s d path).frames = elemsAt Frame.name s.frames path := by cases d <;> rfl

theorem buildNs_subs (s : Schema) (d : Nat) (path : Path) :
    (buildNs s d path).subs = if d = 0 then [] else (subNs s.nss path).map fun x => buildNs s (d - 1) (path ++ [x]) := by
  cases d <;> rfl

theorem children_sorted (s : Schema) (d : Nat) (path : Path) (l : List Str) (h : l.Pairwise (· < ·)) :
    (l.map fun x => buildNs s d (path ++ [x])).Pairwise fun a b => a.name < b.name := by
  rw [List.pairwise_map]
  refine h.imp ?_
  intro a b hab
  simpa [buildNs_name] using hab

theorem subs_find (s : Schema) (d : Nat) (path : Path) (n : Str) (x : GNs) :
    findByName GNs.name (buildNs s d path).subs n = some x ↔ ∃ d', d = d' + 1 ∧ path ++ [n] ∈ s.nss ∧ x = buildNs s d' (path ++ [n]) := by
  rw [findByName_iff _ _ (by
    rw [buildNs_subs]; split
    · exact List.Pairwise.nil
    · exact children_sorted _ _ _ _ (subNs_sorted _ _))]
  rw [buildNs_subs]
  cases d with
  | zero => simp
  | succ d =>
    simp only [Nat.succ_ne_zero, if_false, Nat.add_sub_cancel]
    rw [List.mem_map]
    constructor
    · rintro ⟨⟨y, hy, rfl⟩, hn⟩
      have : y = n := by simpa [buildNs_name] using hn
      subst this
      exact ⟨d, rfl, (subNs_mem _ _ _).1 hy, rfl⟩
    · rintro ⟨d', hd, hm, rfl⟩
      have : d' = d := by omega
      subst this
      exact ⟨⟨n, (subNs_mem _ _ _).2 hm, rfl⟩, by simp [buildNs_name]⟩

theorem top_find (s : Schema) (n : Str) (hv : ∀ q ∈ s.nss, ∀ x ∈ q, isValidName x = true) (x : GNs) :
    findByName GNs.name (buildSchema s) n = some x ↔
      (n = [] ∧ [] ∈ s.nss ∧ x = buildNs s 0 []) ∨ ([n] ∈ s.nss ∧ n ≠ [] ∧ x = buildNs s (nsDepth s.nss) [n]) := by
  have hne : ∀ y, y ∈ subNs s.nss [] → y ≠ [] := by
    intro y hy
    have := hv _ ((subNs_mem _ _ _).1 hy) y (by simp)
    exact (name_facts this).2.1
  have hsort : (buildSchema s).Pairwise fun a b => a.name < b.name := by
    unfold buildSchema
    have h2 := children_sorted s (nsDepth s.nss) [] _ (subNs_sorted s.nss [])
    split
    · simp only [List.singleton_append]
      rw [List.pairwise_cons]
      refine ⟨?_, h2⟩
      intro b hb
      obtain ⟨y, hy, rfl⟩ := List.mem_map.1 hb
      rw [buildNs_name, buildNs_name]
      simp only [List.getLast?_nil, Option.getD_none, List.getLast?_singleton, Option.getD_some]
      have := hne y hy
      cases y with
      | nil => exact absurd rfl this
      | cons c cs => exact List.nil_lt_cons c cs
    · simpa using h2
  rw [findByName_iff _ _ hsort]
  unfold buildSchema
  rw [List.mem_append]
  constructor
  · rintro ⟨h | h, hn⟩
    · split at h
      · rename_i hc
        simp only [List.mem_singleton] at h
        subst h
        left
        refine ⟨?_, by simpa using hc, rfl⟩
        rw [buildNs_name] at hn
        simpa using hn.symm
      · cases h
    · obtain ⟨y, hy, rfl⟩ := List.mem_map.1 h
      right
      have : y = n := by simpa [buildNs_name] using hn
      subst this
      exact ⟨(subNs_mem _ _ _).1 hy, hne y hy, rfl⟩
  · rintro (⟨rfl, hm, rfl⟩ | ⟨hm, hnn, rfl⟩)
    · refine ⟨.inl ?_, by simp [buildNs_name]⟩
      rw [if_pos (by simpa using hm)]; simp
    · exact ⟨.inr (List.mem_map.2 ⟨n, (subNs_mem _ _ _).2 hm, rfl⟩), by simp [buildNs_name]⟩

theorem le_foldl_max (l : List Nat) (a x : Nat) (h : x ≤ a ∨ x ∈ l) : x ≤ l.foldl max a := by
  induction l generalizing a with
  | nil => simpa using h
  | cons b l ih =>
    rw [List.foldl_cons]
    apply ih
    rcases h with h | h
    · left; omega
    · rcases List.mem_cons.1 h with rfl | h
      · left; omega
      · right; exact h

theorem le_nsDepth {nss : List Path} {q : Path} (h : q ∈ nss) : q.length ≤ nsDepth nss :=
  le_foldl_max _ _ _ (.inr (List.mem_map.2 ⟨q, h, rfl⟩))

/-- Every prefix of the path of a namespace, but the empty one, is a namespace. -/
theorem nsUp_prefix {s : Schema} (hu : ∀ q x, q ++ [x] ∈ s.nss → q ≠ [] → q ∈ s.nss) (q r : Path) (hq : q ≠ []) (h : q ++ r ∈ s.nss) :
    q ∈ s.nss := by
  induction r generalizing q with
  | nil => simpa using h
  | cons x r ih =>
    have := ih (q ++ [x]) (by simp) (by simpa using h)
    exact hu q x this hq

/-! ## References -/

theorem splitRef_nodot {w : Str} (h : '.' ∉ w) : splitRef w = ([], w) := by
  unfold splitRef
  rw [if_neg (by simpa using h)]

theorem splitRef_dot {w : Str} (h : '.' ∉ w) (r : Str) : splitRef (w ++ '.' :: r) = (w, r) := by
  unfold splitRef
  rw [if_pos (by simp), (takeWhile_nodot h r).1, (takeWhile_nodot h r).2]; rfl

theorem first_dot {ref : Str} (h : '.' ∈ ref) : ∃ w r, ref = w ++ '.' :: r ∧ '.' ∉ w := by
  induction ref with
  | nil => cases h
  | cons c cs ih =>
    by_cases hc : c = '.'
    · exact ⟨[], cs, by simp [hc], by simp⟩
    · obtain ⟨w, r, e, hw⟩ := ih (by simpa [Ne.symm hc] using h)
      exact ⟨c :: w, r, by simp [e], by simp [hw, Ne.symm hc]⟩

theorem splitRef_cases (ref : Str) : ('.' ∉ ref ∧ splitRef ref = ([], ref)) ∨ ∃ w r, '.' ∉ w ∧ ref = w ++ '.' :: r ∧ splitRef ref = (w, r) := by
  by_cases h : '.' ∈ ref
  · right
    obtain ⟨w, r, rfl, hw⟩ := first_dot h
    exact ⟨w, r, hw, rfl, splitRef_dot hw r⟩
  · left; exact ⟨h, splitRef_nodot h⟩

theorem dot_inj {w w' r r' : Str} (h : '.' ∉ w) (h' : '.' ∉ w') (e : w ++ '.' :: r = w' ++ '.' :: r') : w = w' ∧ r = r' := by
  have := congrArg splitRef e
  rw [splitRef_dot h, splitRef_dot h'] at this
  exact ⟨congrArg Prod.fst this, congrArg Prod.snd this⟩

theorem join_cons {x : Str} {l : List Str} (h : l ≠ []) : joinDots (x :: l) = x ++ '.' :: joinDots l := by
  cases l with
  | nil => exact absurd rfl h
  | cons y l => rfl

theorem length_le_join (q : Path) (n : Str) : q.length ≤ (joinDots (q ++ [n])).length := by
  induction q with
  | nil => simp
  | cons x q ih =>
    rw [List.cons_append, join_cons (by simp)]
    simp only [List.length_cons, List.length_append]
    omega

/-- What is needed of the elements of one kind in a schema. -/
structure Kind {α : Type} (s : Schema) (nameOf : α → Str) (collG : GNs → List α) (coll : List (Path × α)) : Prop where
  build : ∀ d path, collG (buildNs s d path) = elemsAt nameOf coll path
  inNs : ∀ e ∈ coll, e.1 ∈ s.nss
  valid : ∀ e ∈ coll, isValidName (nameOf e.2) = true
  nodup : (coll.map fun e => (e.1, nameOf e.2)).Nodup
  nsNames : ∀ q ∈ s.nss, ∀ x ∈ q, isValidName x = true
  nsUp : ∀ q x, q ++ [x] ∈ s.nss → q ≠ [] → q ∈ s.nss

theorem ns_find {α : Type} {s : Schema} {nameOf : α → Str} {collG : GNs → List α} {coll : List (Path × α)} (K : Kind s nameOf collG coll)
    {adj : Str → Str} (hadj : ∀ n, n ≠ [] → adj n = n) (fuel : Nat) : ∀ (d : Nat) (path : Path) (ref : Str) (a : α),
    (buildNs s d path).find nameOf collG adj fuel ref = some a ↔
      ∃ q n, (path ++ q, a) ∈ coll ∧ ref = joinDots (q ++ [n]) ∧ '.' ∉ n ∧ adj n = nameOf a ∧ q.length ≤ d ∧ q.length < fuel := by
  induction fuel with
  | zero => intro d path ref a; simp [GNs.find]
  | succ fuel ih =>
    intro d path ref a
    have hfacts : ∀ q, (path ++ q, a) ∈ coll → ∀ x ∈ q, '.' ∉ x ∧ x ≠ [] := by
      intro q hq x hx
      have := name_facts (K.nsNames _ (K.inNs _ hq) x (List.mem_append.2 (.inr hx)))
      exact ⟨this.1, this.2.1⟩
    have hfind : ∀ n, findByName nameOf (collG (buildNs s d path)) n = some a ↔ (path, a) ∈ coll ∧ nameOf a = n := by
      intro n
      rw [K.build, findByName_iff _ _ (elemsAt_sorted _ _ K.nodup _), elemsAt_mem]
    rw [GNs.find]
    rcases splitRef_cases ref with ⟨hd, he⟩ | ⟨w, r, hw, rfl, he⟩
    · rw [he]
      simp only [List.isEmpty_nil, if_true, hfind]
      constructor
      · rintro ⟨hm, hn⟩
        exact ⟨[], ref, by simpa using hm, by simp [joinDots], hd, hn.symm, by simp, by simp⟩
      · rintro ⟨q, n, hm, hr, hnd, hn, _, _⟩
        cases q with
        | nil =>
          simp only [List.nil_append, joinDots] at hr
          subst hr
          exact ⟨by simpa using hm, hn.symm⟩
        | cons x q =>
          exfalso
          rw [List.cons_append, join_cons (by simp)] at hr
          exact hd (by rw [hr]; simp)
    · rw [he]
      simp only
      cases hwe : w.isEmpty with
      | true =>
        have hw0 : w = [] := by simpa using hwe
        subst hw0
        simp only [if_true, hfind]
        rw [List.nil_append, hadj _ (by simp)]
        constructor
        · rintro ⟨hm, hn⟩
          exfalso
          have := (name_facts (K.valid _ hm)).1
          rw [hn] at this
          exact this (by simp)
        · rintro ⟨q, n, hm, hr, hnd, hn, _, _⟩
          exfalso
          cases q with
          | nil =>
            simp only [List.nil_append, joinDots] at hr
            exact hnd (by rw [← hr]; simp)
          | cons x q =>
            rw [List.cons_append, join_cons (by simp)] at hr
            have hx := hfacts _ hm x (by simp)
            exact hx.2 (dot_inj (w := []) (by simp) hx.1 hr).1.symm
      | false =>
        simp only [Bool.false_eq_true, if_false]
        rw [Option.bind_eq_some_iff]
        constructor
        · rintro ⟨sub, hsub, hf⟩
          obtain ⟨d', rfl, hns, rfl⟩ := (subs_find s d path w sub).1 hsub
          obtain ⟨q, n, hm, hr, hnd, hn, h1, h2⟩ := (ih _ _ _ _).1 hf
          refine ⟨w :: q, n, by simpa using hm, ?_, hnd, hn, by simp; omega, by simp; omega⟩
          rw [List.cons_append, join_cons (by simp), hr]
        · rintro ⟨q, n, hm, hr, hnd, hn, h1, h2⟩
          cases q with
          | nil =>
            exfalso
            simp only [List.nil_append, joinDots] at hr
            exact hnd (by rw [← hr]; simp)
          | cons x q =>
            rw [List.cons_append, join_cons (by simp)] at hr
            have hx := hfacts _ hm x (by simp)
            obtain ⟨rfl, rfl⟩ := dot_inj hw hx.1 hr
            have hns : path ++ [w] ∈ s.nss := by
              refine nsUp_prefix K.nsUp (path ++ [w]) q (by simp) ?_
              simpa using K.inNs _ hm
            simp only [List.length_cons] at h1 h2
            refine ⟨buildNs s (d - 1) (path ++ [w]), (subs_find s d path w _).2 ⟨d - 1, by omega, hns, rfl⟩, ?_⟩
            exact (ih _ _ _ _).2 ⟨q, n, by simpa using hm, rfl, hnd, hn, by omega, by omega⟩

/-- How a reference is resolved in a schema. -/
theorem findIn_iff {α : Type} {s : Schema} {nameOf : α → Str} {collG : GNs → List α} {coll : List (Path × α)} (K : Kind s nameOf collG coll)
    {adj : Str → Str} (hadj : ∀ n, n ≠ [] → adj n = n) (ref : Str) (a : α) :
    findIn nameOf collG adj (buildSchema s) ref = some a ↔
      ∃ path n, (path, a) ∈ coll ∧ '.' ∉ n ∧ adj n = nameOf a ∧ (ref = joinDots (path ++ [n]) ∨ (path = [] ∧ ref = '.' :: n)) := by
  unfold findIn
  rw [Option.bind_eq_some_iff]
  simp only [top_find s _ K.nsNames]
  have hfacts : ∀ q, (q, a) ∈ coll → ∀ x ∈ q, '.' ∉ x ∧ x ≠ [] := by
    intro q hq x hx
    have := name_facts (K.nsNames _ (K.inNs _ hq) x hx)
    exact ⟨this.1, this.2.1⟩
  rcases splitRef_cases ref with ⟨hd, he⟩ | ⟨w, r, hw, rfl, he⟩
  · rw [he]
    constructor
    · rintro ⟨ns, ⟨_, h0, rfl⟩ | ⟨_, h0, _⟩, hf⟩
      · obtain ⟨q, n, hm, hr, hnd, hn, h1, h2⟩ := (ns_find K hadj _ _ _ _ _).1 hf
        have : q = [] := List.length_eq_zero_iff.1 (by omega)
        subst this
        exact ⟨[], n, hm, hnd, hn, .inl hr⟩
      · exact absurd rfl h0
    · rintro ⟨path, n, hm, hnd, hn, hr | ⟨rfl, hr⟩⟩
      · cases path with
        | cons x q => exfalso; rw [List.cons_append, join_cons (by simp)] at hr; exact hd (by rw [hr]; simp)
        | nil =>
          refine ⟨_, .inl ⟨rfl, K.inNs _ hm, rfl⟩, ?_⟩
          exact (ns_find K hadj _ _ _ _ _).2 ⟨[], n, by simpa using hm, hr, hnd, hn, by simp, by simp⟩
      · exfalso; exact hd (by rw [hr]; simp)
  · rw [he]
    constructor
    · rintro ⟨ns, ⟨h0, h1, rfl⟩ | ⟨h0, h1, rfl⟩, hf⟩
      · simp only at h0
        subst h0
        obtain ⟨q, n, hm, hr, hnd, hn, h1, h2⟩ := (ns_find K hadj _ _ _ _ _).1 hf
        have : q = [] := List.length_eq_zero_iff.1 (by omega)
        subst this
        refine ⟨[], n, hm, hnd, hn, .inr ⟨rfl, ?_⟩⟩
        simp only [List.nil_append, joinDots] at hr
        simp [hr]
      · obtain ⟨q, n, hm, hr, hnd, hn, h1, h2⟩ := (ns_find K hadj _ _ _ _ _).1 hf
        refine ⟨w :: q, n, by simpa using hm, hnd, hn, .inl ?_⟩
        simp only at hr
        rw [List.cons_append, join_cons (by simp), hr]
    · rintro ⟨path, n, hm, hnd, hn, hr | ⟨rfl, hr⟩⟩
      · cases path with
        | nil => exfalso; simp only [List.nil_append, joinDots] at hr; exact hnd (by rw [← hr]; simp)
        | cons x q =>
          rw [List.cons_append, join_cons (by simp)] at hr
          have hx := hfacts _ hm x (by simp)
          obtain ⟨rfl, rfl⟩ := dot_inj hw hx.1 hr
          have hns : [w] ∈ s.nss := nsUp_prefix K.nsUp [w] q (by simp) (by simpa using K.inNs _ hm)
          have hlen : q.length + 1 ≤ nsDepth s.nss := by simpa using le_nsDepth (K.inNs _ hm)
          have := length_le_join q n
          refine ⟨_, .inr ⟨hns, hx.2, rfl⟩, ?_⟩
          exact (ns_find K hadj _ _ _ _ _).2 ⟨q, n, by simpa using hm, rfl, hnd, hn, by omega, by simp only [List.length_append, List.length_cons]; omega⟩
      · obtain ⟨rfl, rfl⟩ := dot_inj (w' := []) hw (by simp) hr
        refine ⟨_, .inl ⟨rfl, K.inNs _ hm, rfl⟩, ?_⟩
        exact (ns_find K hadj _ _ _ _ _).2 ⟨[], r, by simpa using hm, by simp [joinDots], hnd, hn, by simp, by simp⟩

theorem kind_of {α : Type} {s : Schema} {nameOf : α → Str} {acc : α → Prop} {collG : GNs → List α} {coll : List (Path × α)} (hs : SchemaInv s)
    (hc : CollInv s.nss nameOf acc coll) (hb : ∀ d path, collG (buildNs s d path) = elemsAt nameOf coll path) : Kind s nameOf collG coll :=
  ⟨hb, fun e he => (hc.1 e he).1, fun e he => (hc.1 e he).2.1, hc.2, hs.nsNames, hs.nsUp⟩

/-! ## All messages -/

theorem allMessagesOf_mem (l : List GNs) (e : Path × Message) : e ∈ allMessagesOf l ↔ ∃ n ∈ l, e ∈ n.allMessages := by
  induction l with
  | nil => simp [allMessagesOf]
  | cons n l ih => rw [allMessagesOf, List.mem_append, ih]; simp

theorem ns_messages {s : Schema} (hs : SchemaInv s) (d : Nat) : ∀ (path : Path) (q : Path) (m : Message),
    (q, m) ∈ (buildNs s d path).allMessages ↔ (q, m) ∈ s.messages ∧ ∃ r, q = path ++ r ∧ r.length ≤ d := by
  induction d with
  | zero =>
    intro path q m
    rw [buildNs, GNs.allMessages, allMessagesOf, List.nil_append, List.mem_map]
    constructor
    · rintro ⟨m', hm, he⟩
      simp only [Prod.mk.injEq] at he
      obtain ⟨rfl, rfl⟩ := he
      exact ⟨(elemsAt_mem _ _ _ _).1 hm, [], by simp, by simp⟩
    · rintro ⟨hm, r, rfl, hr⟩
      have : r = [] := List.length_eq_zero_iff.1 (by omega)
      subst this
      exact ⟨m, (elemsAt_mem _ _ _ _).2 (by simpa using hm), by simp⟩
  | succ d ih =>
    intro path q m
    rw [buildNs, GNs.allMessages, List.mem_append, allMessagesOf_mem, List.mem_map]
    constructor
    · rintro (⟨n, hn, he⟩ | ⟨m', hm, he⟩)
      · obtain ⟨x, hx, rfl⟩ := List.mem_map.1 hn
        obtain ⟨hm, r, rfl, hr⟩ := (ih _ _ _).1 he
        exact ⟨hm, x :: r, by simp, by simp; omega⟩
      · simp only [Prod.mk.injEq] at he
        obtain ⟨rfl, rfl⟩ := he
        exact ⟨(elemsAt_mem _ _ _ _).1 hm, [], by simp, by simp⟩
    · rintro ⟨hm, r, rfl, hr⟩
      cases r with
      | nil => right; exact ⟨m, (elemsAt_mem _ _ _ _).2 (by simpa using hm), by simp⟩
      | cons x r =>
        left
        refine ⟨buildNs s d (path ++ [x]), List.mem_map.2 ⟨x, (subNs_mem _ _ _).2 ?_, rfl⟩, ?_⟩
        · refine nsUp_prefix hs.nsUp (path ++ [x]) r (by simp) ?_
          simpa using (hs.messages.1 _ hm).1
        · exact (ih _ _ _).2 ⟨hm, r, by simp, by simp at hr; omega⟩

/-- `genGetAllMessages` lists the messages of all namespaces. -/
theorem schema_messages {s : Schema} (hs : SchemaInv s) (q : Path) (m : Message) :
    (q, m) ∈ allMessagesOf (buildSchema s) ↔ (q, m) ∈ s.messages := by
  rw [allMessagesOf_mem]
  constructor
  · rintro ⟨n, hn, he⟩
    unfold buildSchema at hn
    rcases List.mem_append.1 hn with hn | hn
    · split at hn
      · simp only [List.mem_singleton] at hn
        subst hn
        exact ((ns_messages hs _ _ _ _).1 he).1
      · cases hn
    · obtain ⟨x, hx, rfl⟩ := List.mem_map.1 hn
      exact ((ns_messages hs _ _ _ _).1 he).1
  · intro hm
    have hns := (hs.messages.1 _ hm).1
    cases q with
    | nil =>
      refine ⟨buildNs s 0 [], ?_, (ns_messages hs _ _ _ _).2 ⟨hm, [], by simp, by simp⟩⟩
      unfold buildSchema
      rw [if_pos (by simpa using hns)]
      simp
    | cons x r =>
      refine ⟨buildNs s (nsDepth s.nss) [x], ?_, (ns_messages hs _ _ _ _).2 ⟨hm, r, by simp, ?_⟩⟩
      · unfold buildSchema
        refine List.mem_append.2 (.inr (List.mem_map.2 ⟨x, (subNs_mem _ _ _).2 ?_, rfl⟩))
        exact nsUp_prefix hs.nsUp [x] r (by simp) (by simpa using hns)
      · have := le_nsDepth hns
        simp at this
        omega

/-- The messages directly in the global namespace or in a namespace at the top. -/
theorem top_messages {s : Schema} (hs : SchemaInv s) (q : Path) (n : Str) :
    (∃ b ∈ buildSchema s, ∃ m ∈ b.msgs, b.path = q ∧ m.name = n) ↔ ∃ m, (q, m) ∈ s.messages ∧ m.name = n ∧ q.length ≤ 1 := by
  constructor
  · rintro ⟨b, hb, m, hm, rfl, rfl⟩
    unfold buildSchema at hb
    rcases List.mem_append.1 hb with hb | hb
    · split at hb
      · simp only [List.mem_singleton] at hb
        subst hb
        rw [buildNs_msgs, elemsAt_mem] at hm
        exact ⟨m, by simpa [buildNs_path] using hm, rfl, by simp [buildNs_path]⟩
      · cases hb
    · obtain ⟨x, hx, rfl⟩ := List.mem_map.1 hb
      rw [buildNs_msgs, elemsAt_mem] at hm
      exact ⟨m, by simpa [buildNs_path] using hm, rfl, by simp [buildNs_path]⟩
  · rintro ⟨m, hm, rfl, hl⟩
    have hns := (hs.messages.1 _ hm).1
    cases q with
    | nil =>
      refine ⟨buildNs s 0 [], ?_, m, ?_, buildNs_path _ _ _, rfl⟩
      · unfold buildSchema
        rw [if_pos (by simpa using hns)]
        simp
      · rw [buildNs_msgs, elemsAt_mem]; exact hm
    | cons x r =>
      have : r = [] := by simpa using hl
      subst this
      refine ⟨buildNs s (nsDepth s.nss) [x], ?_, m, ?_, buildNs_path _ _ _, rfl⟩
      · unfold buildSchema
        exact List.mem_append.2 (.inr (List.mem_map.2 ⟨x, (subNs_mem _ _ _).2 (by simpa using hns), rfl⟩))
      · rw [buildNs_msgs, elemsAt_mem]; exact hm

end Commsdsl.Gen
