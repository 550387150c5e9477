import Verif.Lemmas.PropsCongr
import Verif.Lemmas.FieldParse
import Verif.Spec.Xml
/-!
# What is collected from attributes and children
-/
namespace Commsdsl.Same
open Commsdsl Text Fld Spec

/-- The properties found in children. -/
def fromKids (names : List Str) (mh : Bool) (cs : List Xml) : Option Props := childrenAsPropsLoop names mh cs []

theorem loop_acc (names : List Str) (mh : Bool) (cs : List Xml) (acc : Props) :
    childrenAsPropsLoop names mh cs acc = (fromKids names mh cs).map (acc ++ ·) := by
  unfold fromKids
  induction cs generalizing acc with
  | nil => simp [childrenAsPropsLoop]
  | cons c cs ih =>
    unfold childrenAsPropsLoop
    split
    · exact ih acc
    · split
      · split
        · rfl
        · exact ih acc
      · rename_i v _
        rw [ih, ih (if v.isEmpty = true then [] else [] ++ [(c.name, v)])]
        split
        · cases childrenAsPropsLoop names mh cs [] <;> simp
        · cases childrenAsPropsLoop names mh cs [] <;> simp [List.append_assoc]

theorem fromKids_nil (names : List Str) (mh : Bool) : fromKids names mh [] = some [] := rfl

theorem fromKids_append (names : List Str) (mh : Bool) (a b : List Xml) :
    fromKids names mh (a ++ b) = (fromKids names mh a).bind fun x => (fromKids names mh b).map (x ++ ·) := by
  unfold fromKids
  induction a with
  | nil => simp only [List.nil_append, childrenAsPropsLoop, Option.bind_some]; cases childrenAsPropsLoop names mh b [] <;> rfl
  | cons c cs ih =>
    simp only [List.cons_append, childrenAsPropsLoop]
    split
    · exact ih
    · split
      · split
        · rfl
        · exact ih
      · rename_i v _
        rw [loop_acc, loop_acc]
        unfold fromKids
        rw [ih]
        cases childrenAsPropsLoop names mh cs [] with
        | none => rfl
        | some x =>
          cases childrenAsPropsLoop names mh b [] with
          | none => rfl
          | some y => simp [List.append_assoc]

theorem fromKids_single_other {names : List Str} {mh : Bool} {c : Xml} (h : c.name ∉ names) : fromKids names mh [c] = some [] := by
  unfold fromKids childrenAsPropsLoop
  have : names.contains c.name = false := by simpa using h
  rw [this]
  rfl

theorem fromKids_single {names : List Str} {c : Xml} {v : Str} (h : c.name ∈ names) (hv : nodeValue c true = some v) (hne : v ≠ []) :
    fromKids names true [c] = some [(c.name, v)] := by
  unfold fromKids childrenAsPropsLoop
  have h1 : names.contains c.name = true := by simpa using h
  have h2 : v.isEmpty = false := by cases v with | nil => exact absurd rfl hne | cons _ _ => rfl
  rw [h1, hv]
  simp [h2, childrenAsPropsLoop]

theorem fromKids_keys {names : List Str} {mh : Bool} {cs : List Xml} {p : Props} (h : fromKids names mh cs = some p) :
    ∀ e ∈ p, e.1 ∈ names ∧ ∃ c ∈ cs, c.name = e.1 := by
  induction cs generalizing p with
  | nil => simp only [fromKids, childrenAsPropsLoop, Option.some.injEq] at h; subst h; intro e he; cases he
  | cons c cs ih =>
    unfold fromKids childrenAsPropsLoop at h
    split at h
    · intro e he
      obtain ⟨h1, c', hc, h2⟩ := ih h e he
      exact ⟨h1, c', List.mem_cons_of_mem _ hc, h2⟩
    · rename_i hn
      split at h
      · split at h
        · cases h
        · intro e he
          obtain ⟨h1, c', hc, h2⟩ := ih h e he
          exact ⟨h1, c', List.mem_cons_of_mem _ hc, h2⟩
      · rw [loop_acc] at h
        obtain ⟨q, hq, hp⟩ := Option.map_eq_some_iff.1 h
        subst hp
        intro e he
        rcases List.mem_append.1 he with he | he
        · split at he
          · cases he
          · simp only [List.nil_append, List.mem_singleton] at he
            subst he
            refine ⟨?_, c, List.mem_cons_self, rfl⟩
            simpa using hn
        · obtain ⟨h1, c', hc, h2⟩ := ih hq e he
          exact ⟨h1, c', List.mem_cons_of_mem _ hc, h2⟩

/-- The elements among the children. -/
theorem getChildren_eq (n : Xml) : getChildren n = n.children.filter Xml.isElem := by
  unfold getChildren
  congr 1
  funext c
  simp

theorem childrenAsProps_eq (n : Xml) (names : List Str) (acc : Props) (mh : Bool) :
    childrenAsProps n names acc mh = (fromKids names mh (getChildren n)).map (acc ++ ·) := by
  unfold childrenAsProps
  split
  · rename_i h
    have : ∀ cs, fromKids names mh cs = some [] := by
      intro cs
      rw [List.isEmpty_iff.1 h]
      induction cs with
      | nil => rfl
      | cons c cs ih =>
        have := fromKids_append [] mh [c] cs
        rw [List.singleton_append] at this
        rw [this, fromKids_single_other (by simp), ih]
        rfl
    rw [this]
    simp
  · exact loop_acc names mh (getChildren n) acc

theorem collect_eq (k : Kind) (n : Xml) :
    collectProps k n = (fromKids commonProps true (getChildren n)).bind fun a =>
      (fromKids (extraProps k) true (getChildren n)).bind fun b =>
        (fromKids (possibleProps k) false (getChildren n)).map fun c => nodeProps n ++ a ++ b ++ c := by
  unfold collectProps
  simp only [childrenAsProps_eq]
  cases fromKids commonProps true (getChildren n) with
  | none => rfl
  | some a =>
    simp only [Option.map_some, Option.bind_some, Option.bind_eq_bind]
    cases fromKids (extraProps k) true (getChildren n) with
    | none => rfl
    | some b =>
      simp only [Option.map_some, Option.bind_some]

/-! ## The same entries in another place -/

theorem find_insert {a b : Props} {k v : Str} (h : ∀ e ∈ a, e.1 ≠ k) (key : Str) :
    Props.find (a ++ (k, v) :: b) key = if key = k then some v else Props.find (a ++ b) key := by
  unfold Props.find
  rw [List.find?_append, List.find?_append, List.find?_cons]
  by_cases hk : key = k
  · subst hk
    have : List.find? (fun e => e.1 == key) a = none := by
      rw [List.find?_eq_none]
      intro e he
      simpa using h e he
    rw [this]
    simp
  · have h1 : (k == key) = false := beq_eq_false_iff_ne.2 fun h => hk h.symm
    rw [if_neg hk]
    simp only [h1]

theorem count_insert (a b : Props) (k v key : Str) :
    Props.count (a ++ (k, v) :: b) key = (if k = key then 1 else 0) + Props.count (a ++ b) key := by
  unfold Props.count
  rw [List.countP_append, List.countP_append, List.countP_cons]
  simp only [beq_iff_eq]
  omega

/-- One entry at another place, where no other one has its key. -/
theorem sameP_moved {a b a' b' : Props} {k v : Str} (hab : a ++ b = a' ++ b') (h : ∀ e ∈ a, e.1 ≠ k) (h' : ∀ e ∈ a', e.1 ≠ k) :
    SameP (a ++ (k, v) :: b) (a' ++ (k, v) :: b') := by
  constructor
  · intro key
    rw [find_insert h, find_insert h', hab]
  · intro key
    rw [count_insert, count_insert, hab]

theorem sameP_append {p p' x : Props} (h : SameP p p') : SameP (p ++ x) (p' ++ x) := by
  constructor
  · intro key
    have := h.find key
    unfold Props.find at this ⊢
    rw [List.find?_append, List.find?_append]
    have e : ∀ (o o' : Option (Str × Str)) , o'.map Prod.snd = o.map Prod.snd → ∀ y : Option (Str × Str),
        (o'.or y).map Prod.snd = (o.or y).map Prod.snd := by
      intro o o' ho y
      cases o <;> cases o' <;> simp_all
    exact e _ _ this _
  · intro key
    have := h.count key
    unfold Props.count at this ⊢
    rw [List.countP_append, List.countP_append, this]

theorem find_perm {p p' : Props} (hp : p'.Perm p) (hn : (p.map Prod.fst).Nodup) (key : Str) :
    List.find? (fun e => e.1 == key) p' = List.find? (fun e => e.1 == key) p := by
  induction hp with
  | nil => rfl
  | cons x _ ih =>
    rw [List.map_cons, List.nodup_cons] at hn
    rw [List.find?_cons, List.find?_cons, ih hn.2]
  | swap x y l =>
    simp only [List.map_cons, List.nodup_cons, List.mem_cons, not_or] at hn
    simp only [List.find?_cons]
    split
    · rename_i h1
      split
      · rename_i h2
        exact absurd ((beq_iff_eq.1 h2).trans (beq_iff_eq.1 h1).symm) hn.1.1
      · rfl
    · rfl
  | trans h1 h2 ih1 ih2 =>
    rw [ih1 ((h2.map Prod.fst).nodup_iff.2 hn), ih2 hn]

theorem sameP_perm {p p' : Props} (hp : p'.Perm p) (hn : (p.map Prod.fst).Nodup) : SameP p p' := by
  constructor
  · intro key
    unfold Props.find
    rw [find_perm hp hn]
  · intro key
    exact hp.countP_eq _

end Commsdsl.Same
