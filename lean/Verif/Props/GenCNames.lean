import Verif.Model.GenCNames
import Verif.Props.GenNames
/-!
# C132: names of namespaces in the C interface
-/
namespace Commsdsl.Props
open Commsdsl Text Proto Spec Gen

namespace CNameProofs
open NameProofs

theorem addSub_eq (ty : EType) (p : Option EType) (sep s : Str) : addSubNames ty p sep s = s ++ addSubNames ty p sep [] := by
  unfold addSubNames
  generalize subNames ty p = l
  have : ∀ (l : List Str) (s : Str), l.foldl (fun s n => s ++ (n ++ sep)) s = s ++ l.foldl (fun s n => s ++ (n ++ sep)) [] := by
    intro l
    induction l with
    | nil => simp
    | cons a l ih =>
      intro s
      rw [List.foldl_cons, List.foldl_cons, ih, ih ([] ++ _)]
      simp
  exact this l s

/-- The prefix in front of the scope is where the main namespace would be. -/
theorem scope_base {pfx sep : Str} (hp : pfx ≠ []) (leaf : EType) : ∀ (c : Chain) (a : Bool), (∀ e ∈ c, e.ty ≠ .ns → e.name ≠ []) →
    scopeInternal pfx sep leaf a true c = if scopeInternal [] sep leaf a true c = [] then pfx else pfx ++ sep ++ scopeInternal [] sep leaf a true c := by
  intro c
  induction c with
  | nil => intro a _; simp [scopeInternal]
  | cons e up ih =>
    intro a hn
    have ih := ih false (fun x hx => hn x (by simp [hx]))
    have E : ∀ b, scopeInternal b sep leaf a true (e :: up) = if e.ty = .ns then addNsScope e.name sep (scopeInternal b sep leaf false true up)
        else addSubNames e.ty (parentTy up) sep (addSep sep (scopeInternal b sep leaf false true up)) ++ elemClass e ++
          (if leaf = .field ∧ sep = scopeSep then fieldScopeSuffix e.ty a else nonFieldScopeSuffix e.ty leaf) := fun b => by
      rw [scopeInternal]; simp only [Bool.not_true, Bool.false_eq_true, if_false]
    rw [E, E]
    by_cases he : e.ty = .ns
    · rw [if_pos he, if_pos he]
      unfold addNsScope
      by_cases hne : e.name.isEmpty
      · rw [if_pos hne, if_pos hne]; exact ih
      · rw [if_neg hne, if_neg hne, ih]
        have hne2 : e.name ≠ [] := by simpa using hne
        by_cases hr : scopeInternal [] sep leaf false true up = []
        · rw [if_pos hr, hr, if_neg (by simp [hne2]), addSep_ne hp]
          simp [addSep]
        · rw [if_neg hr, addSep_ne (by simp [hp]), addSep_ne hr, if_neg (by simp [hr])]
          simp
    · rw [if_neg he, if_neg he, ih]
      generalize (if leaf = .field ∧ sep = scopeSep then fieldScopeSuffix e.ty a else nonFieldScopeSuffix e.ty leaf) = suf
      have hc : elemClass e ≠ [] := by
        unfold elemClass
        split
        · decide
        · exact class_ne (hn e (by simp) he)
      by_cases hr : scopeInternal [] sep leaf false true up = []
      · rw [if_pos hr, hr, if_neg (by simp [hc]), addSep_ne hp, addSub_eq _ _ _ (pfx ++ sep)]
        simp [addSep]
      · rw [if_neg hr, if_neg (by simp [hc]), addSep_ne (by simp [hp]), addSep_ne hr, addSub_eq _ _ _ (pfx ++ sep ++ _ ++ sep), addSub_eq _ _ _ (_ ++ sep)]
        simp

theorem last_join : ∀ (l : List Str), l ≠ [] → (∀ x ∈ l, x ≠ []) → (∀ x ∈ l, x.getLast? ≠ some '_') → (joinWith "_".toList l).getLast? ≠ some '_' := by
  intro l
  induction l using snoc_ind with
  | h0 => intro h; exact absurd rfl h
  | hs q x _ =>
    intro _ hne hl
    have hx := hl x (by simp)
    by_cases h0 : q = []
    · subst h0; simpa [joinWith] using hx
    · rw [joinWith_append _ _ _ h0, List.getLast?_append]
      cases hgl : x.getLast? with
      | none => exact absurd (List.getLast?_eq_none_iff.1 hgl) (hne x (by simp))
      | some c => simpa [hgl] using hx

end CNameProofs
open CNameProofs NameProofs

/-- C132: what the names of message ids start with is the prefix for names (for other schemas than that of the protocol: their namespace) and the path of the
    namespace, joined by underscores; for the global namespace nothing is left of its empty name. Missing: names that end with an underscore, see the witness. -/
theorem C132_prefix_partial (namesPrefix main : Str) (own : Bool) (hp : isValidName namesPrefix = true) (hm : isValidName main = true) (path : Path)
    (hpath : ∀ x ∈ path, isValidName x = true) (hu : ∀ x ∈ (if own then namesPrefix else main) :: path, x.getLast? ≠ some '_') :
    cPrefixName namesPrefix main own (nsChain path) = joinWith "_".toList ((if own then namesPrefix else main) :: path) := by
  have hne : ∀ x ∈ path, x ≠ [] := fun x hx => valid_ne (hpath x hx)
  have hup : ∀ base, base ≠ [] → scopeInternal base scopeSep (leafTy (nsChain path)) true true (nsChain path) = joinWith scopeSep (base :: path) :=
    fun base hb => scope_up base scopeSep _ path hb hne true
  have hcol : ∀ base, isValidName base = true → ∀ x ∈ base :: path, ':' ∉ x := by
    intro base hb x hx
    rcases List.mem_cons.1 hx with rfl | hx
    · exact valid_colon hb
    · exact valid_colon (hpath x hx)
  cases own
  · simp only [Bool.false_eq_true, if_false] at hu ⊢
    have h1 : cNameFor namesPrefix main false (nsChain path) = joinWith "_".toList (main :: path) := by
      unfold cNameFor scopeFor
      rw [if_neg (by simp), if_pos rfl, hup main (valid_ne hm)]
      exact scope_flat _ (hcol main hm)
    unfold cPrefixName
    rw [h1, if_neg (last_join _ (by simp) (fun x hx => by
      rcases List.mem_cons.1 hx with rfl | hx
      · exact valid_ne hm
      · exact hne x hx) hu)]
  · simp only [if_true] at hu ⊢
    by_cases h0 : path = []
    · subst h0
      have h1 : cNameFor namesPrefix main true (nsChain []) = namesPrefix ++ ['_'] := by
        have := scope_flat [namesPrefix, []] (by
          intro x hx
          rcases List.mem_cons.1 hx with rfl | hx
          · exact valid_colon hp
          · rw [List.mem_singleton.1 hx]; simp)
        unfold cNameFor
        rw [if_pos rfl, name_id hp]
        simpa [scopeFor, nsChain, scopeInternal, addNsScope, joinWith] using this
      unfold cPrefixName
      rw [h1, if_pos (by simp)]
      simp [joinWith]
    · have h2 := scope_base (sep := scopeSep) (pfx := namesPrefix) (valid_ne hp) (leafTy (nsChain path)) (nsChain path) true (by
        intro e he hne
        unfold nsChain at he
        exfalso
        split at he
        · rw [List.mem_singleton] at he; rw [he] at hne; exact hne rfl
        · rw [List.mem_reverse] at he
          obtain ⟨x, _, rfl⟩ := List.mem_map.1 he
          exact hne rfl)
      rw [hup namesPrefix (valid_ne hp)] at h2
      have hr : scopeInternal [] scopeSep (leafTy (nsChain path)) true true (nsChain path) ≠ [] := by
        intro hr
        rw [if_pos hr] at h2
        cases path with
        | nil => exact h0 rfl
        | cons x l =>
          have := congrArg List.length h2
          simp [joinWith, scopeSep] at this
      rw [if_neg hr] at h2
      have h1 : cNameFor namesPrefix main true (nsChain path) = joinWith "_".toList (namesPrefix :: path) := by
        have h3 := scope_flat _ (hcol namesPrefix hp)
        unfold cNameFor scopeFor
        rw [if_pos rfl, name_id hp]
        simp only [Bool.false_eq_true, if_false]
        rw [← h3]
        exact congrArg scopeToName h2.symm
      unfold cPrefixName
      rw [h1, if_neg (last_join _ (by simp) (fun x hx => by
        rcases List.mem_cons.1 hx with rfl | hx
        · exact valid_ne hp
        · exact hne x hx) hu)]

open Sample in
/-- C132: an underscore at the end of the name of a namespace is lost: the ids of the messages in `A` and in `A_` belong to enumerations of the same name. -/
theorem C132_prefix_witness : (∃ p s, Reachable fo0 p ∧ p.validated = true ∧ s ∈ p.schemas ∧ Declared s .message ["A".toList] "M".toList ∧
    Declared s .message ["A_".toList] "M".toList) ∧
    cPrefixName "P".toList "S".toList true (nsChain ["A".toList]) = "P_A".toList ∧ cPrefixName "P".toList "S".toList true (nsChain ["A_".toList]) = "P_A".toList :=
  ⟨declares_two (docs := [schemaEl "S" [nsEl "A" [msgEl "M" "1"], nsEl "A_" [msgEl "M" "2"]]]) (by decide +kernel), by decide +kernel, by decide +kernel⟩

/-- Concrete cases of the hypotheses. -/
example : isValidName "P_x".toList = true ∧ isValidName "S".toList = true ∧ (∀ x ∈ ["A".toList, "B_c".toList], isValidName x = true) ∧
    (∀ x ∈ "P_x".toList :: ["A".toList, "B_c".toList], x.getLast? ≠ some '_') ∧
    cPrefixName "P_x".toList "S".toList true (nsChain ["A".toList, "B_c".toList]) = "P_x_A_B_c".toList ∧
    cPrefixName "P_x".toList "S".toList true (nsChain []) = "P_x".toList ∧ cPrefixName "P_x".toList "S".toList false (nsChain []) = "S".toList := by
  refine ⟨by decide +kernel, by decide +kernel, by decide +kernel, by decide +kernel, by decide +kernel, by decide +kernel, by decide +kernel⟩

end Commsdsl.Props
