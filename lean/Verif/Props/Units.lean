import Verif.Spec.Units
import Verif.Lemmas.Find
/-!
# Properties C07 (units) and C08 (string values)
-/
namespace Commsdsl.Props
open Commsdsl Commsdsl.Text Commsdsl.Spec

/-! ## C07 -/

private theorem table_sound : ∀ p ∈ unitsTable, p.1.toList ∈ (spellings p.2).map String.toList := by decide +kernel
private theorem table_complete : ∀ u ∈ allUnits, ∀ k ∈ (spellings u).map String.toList,
    k ∈ (unitsTable.filter (fun p => p.2 == u)).map (fun p => p.1.toList) := by decide +kernel
private theorem table_nodup : (unitsTable.map (fun p => p.1.toList)).Nodup := by decide +kernel

theorem mem_allUnits (u : Units) : u ∈ allUnits := by cases u <;> decide

private theorem find_nodup {l : List (String × Units)} (hn : (l.map (fun p => p.1.toList)).Nodup) (k : Str) (u : Units) :
    (l.find? fun p => p.1.toList == k).map Prod.snd = some u ↔ ∃ p ∈ l, p.1.toList = k ∧ p.2 = u := by
  induction l with
  | nil => simp
  | cons a l ih =>
    simp only [List.map_cons, List.nodup_cons] at hn
    by_cases h : a.1.toList = k
    · simp only [List.find?_cons, h, beq_self_eq_true, Option.map_some, Option.some.injEq, List.mem_cons]
      constructor
      · rintro rfl; exact ⟨a, Or.inl rfl, h, rfl⟩
      · rintro ⟨p, rfl | hp, h1, h2⟩
        · exact h2
        · exact absurd (List.mem_map.2 ⟨p, hp, by rw [h1, h]⟩) hn.1
    · have : (a.1.toList == k) = false := by simpa using h
      simp only [List.find?_cons, this, ih hn.2, List.mem_cons]
      constructor
      · rintro ⟨p, hp, h1⟩; exact ⟨p, Or.inr hp, h1⟩
      · rintro ⟨p, rfl | hp, h1⟩
        · exact absurd h1.1 h
        · exact ⟨p, hp, h1⟩

/-- The text stands for unit `u` exactly when, lower-cased and without blanks and tabs, it is one of the spellings of `u`. -/
theorem C07_units_iff (s : Str) (u : Units) : strToUnits s = some u ↔
    ∃ k ∈ spellings u, (s.map toLowerC).filter (fun c => !(c == ' ' || c == '\t')) = k.toList := by
  unfold strToUnits
  rw [find_nodup table_nodup]
  constructor
  · rintro ⟨p, hp, h1, rfl⟩
    obtain ⟨k, hk, e⟩ := List.mem_map.1 (table_sound p hp)
    exact ⟨k, hk, by rw [e, h1]; rfl⟩
  · rintro ⟨k, hk, e⟩
    have := table_complete u (mem_allUnits u) k.toList (List.mem_map.2 ⟨k, hk, rfl⟩)
    obtain ⟨p, hp, hpe⟩ := List.mem_map.1 this
    rw [List.mem_filter] at hp
    exact ⟨p, hp.1, by rw [hpe, ← e]; rfl, by simpa using hp.2⟩

/-- No spelling stands for two units. -/
theorem C07_unambiguous (u v : Units) (k : String) (h1 : k ∈ spellings u) (h2 : k ∈ spellings v) : u = v := by
  have look : ∀ w, k ∈ spellings w → (unitsTable.find? fun p => p.1.toList == k.toList).map Prod.snd = some w := by
    intro w hw
    have := table_complete w (mem_allUnits w) k.toList (List.mem_map.2 ⟨k, hw, rfl⟩)
    obtain ⟨p, hp, hpe⟩ := List.mem_map.1 this
    rw [List.mem_filter] at hp
    exact (find_nodup table_nodup _ _).2 ⟨p, hp.1, hpe, by simpa using hp.2⟩
  have := (look u h1).symm.trans (look v h2)
  simpa using this

/-- Every unit can be written. -/
theorem C07_reachable (u : Units) : ∃ s, strToUnits s = some u := by
  have : ∀ w ∈ allUnits, ((spellings w).head?.bind fun k => strToUnits k.toList) = some w := by decide +kernel
  have h := this u (mem_allUnits u)
  cases hk : (spellings u).head? with
  | none => rw [hk] at h; simp at h
  | some k => rw [hk] at h; exact ⟨_, h⟩

example : strToUnits "Kilo Metres / Hour".toList = some .kilometersPerHour ∧ strToUnits "furlong".toList = none := by
  decide +kernel

/-! ## C08 -/

/-- Texts that would be taken for an escape or a reference: any number of backslashes directly followed by '^'. -/
def LooksLikeRef (s : Str) : Prop := ∃ n t, s = List.replicate n '\\' ++ '^' :: t

private theorem all_backslash {l : Str} (h : l.all (fun c => c == '\\') = true) : l = List.replicate l.length '\\' := by
  rw [List.eq_replicate_iff]
  exact ⟨rfl, fun b hb => by simpa using List.all_eq_true.1 h b hb⟩

/-- Reading a string property: '^' at the front makes a reference; one backslash is dropped from a run of backslashes that is followed
    by '^'; everything else is taken literally. -/
theorem C08_string_value (resolve : Str → Option Str) (s : Str) :
    (∀ t, s = '^' :: t → strToStringValue true resolve s = resolve t) ∧
    (∀ n t, s = '\\' :: (List.replicate n '\\' ++ '^' :: t) →
        strToStringValue true resolve s = some (List.replicate n '\\' ++ '^' :: t)) ∧
    (¬ LooksLikeRef s → strToStringValue true resolve s = some s) := by
  refine ⟨?_, ?_, ?_⟩
  · rintro t rfl; simp [strToStringValue]
  · rintro n t rfl
    have hf : findFirstOf '^' ('\\' :: (List.replicate n '\\' ++ '^' :: t)) = some (n + 1) := by
      refine findIdx?_split.2 ⟨List.replicate (n + 1) '\\', '^', t, by simp [List.replicate_succ], by simp, ?_, by simp⟩
      intro x hx
      rw [List.eq_of_mem_replicate hx]; decide
    have ht : ('\\' :: (List.replicate n '\\' ++ '^' :: t)).take (n + 1) = List.replicate (n + 1) '\\' := by
      have : '\\' :: (List.replicate n '\\' ++ '^' :: t) = List.replicate (n + 1) '\\' ++ '^' :: t := by
        simp [List.replicate_succ]
      rw [this, List.take_left' (by simp)]
    simp only [strToStringValue, hf, ht]
    have : (List.replicate (n + 1) '\\').all (fun c => c == '\\') = true :=
      List.all_eq_true.2 fun x hx => by rw [List.eq_of_mem_replicate hx]; decide
    simp [this]
  · intro hn
    unfold strToStringValue
    split
    · rfl
    · split
      · rename_i h
        cases s with
        | nil => simp at h
        | cons c cs =>
          have : c = '^' := by simpa using h
          subst this
          exact absurd ⟨0, cs, rfl⟩ hn
      · split
        · rfl
        · rename_i i hi
          obtain ⟨pre, c, post, h1, h2, h3, h4⟩ := findIdx?_split.1 hi
          have hc : c = '^' := by simpa using h4
          subst hc
          split
          · rfl
          · rename_i hall
            exfalso
            apply hn
            have hall' : (s.take i).all (fun c => c == '\\') = true := by
              simpa only [Bool.not_eq_true', Bool.not_eq_false] using hall
            rw [h1, List.take_left' h2] at hall'
            exact ⟨pre.length, post, by rw [h1]; congr 1; exact all_backslash hall'⟩

/-- Every literal can be written so that it is read back unchanged, whatever references mean: prefix a backslash if it looks like a
    reference. -/
theorem C08_every_literal_expressible (resolve : Str → Option Str) (lit : Str) :
    (LooksLikeRef lit → strToStringValue true resolve ('\\' :: lit) = some lit) ∧
    (¬ LooksLikeRef lit → strToStringValue true resolve lit = some lit) := by
  constructor
  · rintro ⟨n, t, rfl⟩
    exact (C08_string_value resolve _).2.1 n t rfl
  · exact (C08_string_value resolve lit).2.2

/-- Before DSL version 2 (references unsupported) every text is literal. -/
theorem C08_unsupported_literal (resolve : Str → Option Str) (s : Str) :
    strToStringValue false resolve s = some s := by
  simp [strToStringValue]

example : LooksLikeRef "\\\\^a".toList ∧ ¬ LooksLikeRef "a^b".toList :=
  ⟨⟨2, ['a'], rfl⟩, by
    rintro ⟨n, t, h⟩
    cases n with
    | zero => simp at h
    | succ n => simp [List.replicate_succ] at h⟩

end Commsdsl.Props
