import Verif.Model.GenNames
import Verif.Props.GenText
import Verif.Props.Text
import Verif.Props.GenScopeFields
import Verif.Props.ProtocolCalls
/-!
# C97 (names of namespaces and macros), C98 (flat names), C99 (copied source files)
-/
namespace Commsdsl.Props
open Commsdsl Text Gen Spec Proto

/-! ## C97: specification -/

/-- An item of the option `--namespace` gives the namespace `ns` to the schema `n`: it is `n:ns`, with the first colon of the item and something after it. Any other item
    is a namespace for the schema of the protocol (`n` is empty). -/
def ItemSays (item n ns : Str) : Prop :=
  (':' ∉ n ∧ ns ≠ [] ∧ item = n ++ ':' :: ns) ∨ (n = [] ∧ ns = item ∧ ∀ a b, item = a ++ ':' :: b → ':' ∉ a → b = [])

/-- The last item about `n`. -/
def LastSays (items : List Str) (n ns : Str) : Prop :=
  ∃ l r item, items = l ++ item :: r ∧ ItemSays item n ns ∧ ∀ x ∈ r, ∀ ns', ¬ ItemSays x n ns'

/-- No item about `n`. -/
def NoneSays (items : List Str) (n : Str) : Prop := ∀ x ∈ items, ∀ ns, ¬ ItemSays x n ns

/-- The namespace of the schema named `n`; `last`: it is the schema of the protocol. -/
inductive NamespaceOf (items : List Str) (n : Str) (last : Prop) : Str → Prop where
  | protocol {ns : Str} : last → LastSays items [] ns → NamespaceOf items n last ns
  | named {ns : Str} : (last → NoneSays items []) → LastSays items n ns → NamespaceOf items n last ns
  | own : (last → NoneSays items []) → NoneSays items n → NamespaceOf items n last n

namespace NameProofs

theorem replace_none {s w n : Str} (hw : w ≠ []) (h : ∀ a b, s ≠ a ++ (w ++ b)) : strReplace s w n = s :=
  ((C49_strReplace s w n hw).2 s (.none h)).symm

theorem replace_char {s n : Str} {c : Char} (h : c ∉ s) : strReplace s [c] n = s :=
  replace_none (by simp) fun a b e => h (by rw [e]; simp)

theorem name_chars {n : Str} (h : isValidName n = true) : ∀ c ∈ n, c ≠ '.' ∧ c ≠ '-' ∧ c ≠ ' ' ∧ c ≠ ':' ∧ c ≠ ',' := by
  obtain ⟨c, cs, rfl, hc, hcs⟩ := (C02_name_iff n).1 h
  have key : ∀ d, NameRest d → d ≠ '.' ∧ d ≠ '-' ∧ d ≠ ' ' ∧ d ≠ ':' ∧ d ≠ ',' := by
    intro d hd
    refine ⟨?_, ?_, ?_, ?_, ?_⟩ <;> (rintro rfl; revert hd; unfold NameRest; decide)
  have key' : ∀ d, NameStart d → d ≠ '.' ∧ d ≠ '-' ∧ d ≠ ' ' ∧ d ≠ ':' ∧ d ≠ ',' := by
    intro d hd
    refine ⟨?_, ?_, ?_, ?_, ?_⟩ <;> (rintro rfl; revert hd; unfold NameStart; decide)
  intro d hd
  rcases List.mem_cons.1 hd with rfl | hd
  · exact key' _ hc
  · exact key _ (hcs d hd)

theorem name_id {n : Str} (h : isValidName n = true) : strToName n = n := by
  have hc := name_chars h
  unfold strToName
  rw [replace_char (fun hm => (hc _ hm).1 rfl), replace_char (fun hm => (hc _ hm).2.1 rfl), replace_char (fun hm => (hc _ hm).2.2.1 rfl)]

theorem findAny_none {cs s : Str} (h : findAny cs s = none) : ∀ c ∈ s, c ∉ cs := by
  induction s with
  | nil => simp
  | cons x xs ih =>
    unfold findAny at h
    split at h
    · cases h
    · rename_i hx
      intro c hc
      rcases List.mem_cons.1 hc with rfl | hc
      · simpa using hx
      · exact ih (by simpa using h) c hc

theorem item_spec (e : Str) (n ns : Str) : overrideItem e = (n, ns) ↔ ItemSays e n ns := by
  unfold overrideItem
  split
  · rename_i h
    have hn := findAny_none h
    constructor
    · rintro h; cases h
      refine Or.inr ⟨rfl, rfl, fun a b hab _ => ?_⟩
      exact absurd (List.mem_singleton.2 rfl) (hn ':' (by rw [hab]; simp))
    · rintro (⟨_, _, rfl⟩ | ⟨rfl, rfl, _⟩)
      · exact absurd (List.mem_singleton.2 rfl) (hn ':' (by simp))
      · rfl
  · rename_i a b h
    obtain ⟨c, b', rfl, rfl, hc, ha⟩ := GenTextProofs.findAny_some h
    obtain rfl := List.mem_singleton.1 hc
    have ha' : ':' ∉ a := fun hm => ha _ hm (by simp)
    split
    · rename_i hl
      have hb : b' = [] := by
        cases b' with
        | nil => rfl
        | cons => simp at hl; omega
      subst hb
      constructor
      · rintro h; cases h
        refine Or.inr ⟨rfl, rfl, fun x y hxy hx => ?_⟩
        exact (sep_inj ha' hx hxy).2.symm
      · rintro (⟨h1, h2, h3⟩ | ⟨rfl, rfl, _⟩)
        · exact absurd (sep_inj ha' h1 h3).2.symm h2
        · rfl
    · rename_i hl
      have hb : b' ≠ [] := by
        rintro rfl
        exact hl (by simp)
      constructor
      · rintro h; cases h
        exact Or.inl ⟨ha', hb, rfl⟩
      · rintro (⟨h1, h2, h3⟩ | ⟨rfl, rfl, h⟩)
        · obtain ⟨rfl, rfl⟩ := sep_inj ha' h1 h3
          rfl
        · exact absurd (h a b' rfl ha') hb

theorem find_set (m : List (Str × Str)) (kv : Str × Str) (k : Str) :
    overrideFind (overrideSet m kv) k = if kv.1 = k then some kv.2 else overrideFind m k := by
  unfold overrideFind overrideSet
  rw [List.find?_append]
  by_cases h : kv.1 = k
  · rw [if_pos h]
    have : (m.filter fun e => e.1 != kv.1).find? (fun e => e.1 == k) = none := by
      rw [List.find?_eq_none]
      intro x hx hk
      have := (List.mem_filter.1 hx).2
      rw [h] at this
      simp only [beq_iff_eq] at hk
      simp [hk] at this
    rw [this]
    simp [h]
  · rw [if_neg h]
    have : (m.filter fun e => e.1 != kv.1).find? (fun e => e.1 == k) = m.find? fun e => e.1 == k := by
      rw [List.find?_filter]
      congr 1
      funext e
      by_cases he : e.1 = k
      · have : e.1 ≠ kv.1 := fun h' => h (h'.symm.trans he)
        simp [he]
        rw [← he]; exact this
      · simp [he]
    rw [this]
    cases m.find? fun e => e.1 == k with
    | some => rfl
    | none => simp [h]

theorem find_spec (items : List Str) (k : Str) :
    (∀ ns, overrideFind ((items.map overrideItem).foldl overrideSet []) k = some ns → LastSays items k ns) ∧
    (overrideFind ((items.map overrideItem).foldl overrideSet []) k = none → NoneSays items k) := by
  induction items using snoc_ind with
  | h0 => exact ⟨fun ns h => (by cases h), fun _ x hx => (by cases hx)⟩
  | hs l x ih =>
    rw [List.map_append, List.foldl_append, List.map_cons, List.map_nil, List.foldl_cons, List.foldl_nil, find_set]
    by_cases hk : (overrideItem x).1 = k
    · rw [if_pos hk]
      refine ⟨fun ns h => ⟨l, [], x, rfl, (item_spec x k ns).1 ?_, by simp⟩, fun h => by cases h⟩
      rw [← hk, ← Option.some.inj h]
    · rw [if_neg hk]
      have hx : ∀ ns', ¬ ItemSays x k ns' := fun ns' h => hk (by rw [(item_spec x k ns').2 h])
      constructor
      · intro ns h
        obtain ⟨a, b, i, rfl, h1, h2⟩ := ih.1 ns h
        refine ⟨a, b ++ [x], i, by simp, h1, fun y hy => ?_⟩
        rcases List.mem_append.1 hy with hy | hy
        · exact h2 y hy
        · rw [List.mem_singleton.1 hy]; exact hx
      · intro h y hy
        rcases List.mem_append.1 hy with hy | hy
        · exact ih.2 h y hy
        · rw [List.mem_singleton.1 hy]; exact hx

theorem says_ne {items : List Str} (hi : ∀ x ∈ items, x ≠ []) {n ns : Str} (h : LastSays items n ns) : ns ≠ [] := by
  obtain ⟨l, r, x, rfl, h, -⟩ := h
  rcases h with ⟨_, h, _⟩ | ⟨_, rfl, _⟩
  · exact h
  · exact hi _ (by simp)

end NameProofs
open NameProofs

/-- The namespace of the code of a schema is that given for it by the last item of the option `--namespace` about it, else the name of the schema; for the schema of the
    protocol, the last item without a name takes precedence. -/
theorem C97_namespace (value : Str) (names : List Str) (hv : ∀ n ∈ names, isValidName n = true) (ps : List Str) (hp : PiecesAny (· ∈ [',']) value ps)
    (i : Nat) (n : Str) (hi : names[i]? = some n) :
    ∃ ns, (mainNamespaces value names)[i]? = some ns ∧ NamespaceOf (ps.filter (· ≠ [])) n (i + 1 = names.length) ns := by
  obtain ⟨ps', h1, h2⟩ := C50_split_any value [','] true
  obtain rfl := C50_pieces_unique _ _ _ _ hp h1
  have hn := hv n (List.mem_of_getElem? hi)
  unfold mainNamespaces
  rw [List.getElem?_mapIdx, hi]
  refine ⟨_, rfl, ?_⟩
  have hm : namespaceOverrides value = ((ps.filter (· ≠ [])).map overrideItem).foldl overrideSet [] := by
    unfold namespaceOverrides
    rw [h2, if_pos rfl, Option.getD_some, List.filter_filter]
    congr 3
    funext x
    cases x <;> simp
  rw [hm]
  have hne : ∀ x ∈ ps.filter (· ≠ []), x ≠ [] := fun x hx => by simpa using (List.mem_filter.1 hx).2
  generalize ps.filter (· ≠ []) = items at hne
  have F0 := find_spec items []
  have Fn := find_spec items n
  unfold mainNamespace
  dsimp only
  rw [name_id hn]
  generalize overrideFind ((items.map overrideItem).foldl overrideSet []) [] = o0 at F0
  generalize overrideFind ((items.map overrideItem).foldl overrideSet []) n = o1 at Fn
  have key : ∀ o1, (∀ ns, o1 = some ns → LastSays items n ns) → (o1 = none → NoneSays items n) → (i + 1 = names.length → NoneSays items []) →
      NamespaceOf items n (i + 1 = names.length) (if (o1.getD ([] : Str)).isEmpty then n else o1.getD []) := by
    intro o1 ha hb hc
    cases o1 with
    | none => exact .own hc (hb rfl)
    | some x =>
      have := says_ne hne (ha x rfl)
      rw [if_neg (by simpa using this)]
      exact .named hc (ha x rfl)
  by_cases hl : i + 1 = names.length
  · have : (i + 1 == names.length) = true := by simpa using hl
    rw [this, if_pos rfl]
    cases o0 with
    | none => exact key o1 Fn.1 Fn.2 fun _ => F0.2 rfl
    | some x =>
      have := says_ne hne (F0.1 x rfl)
      rw [Option.getD_some, if_neg (by simpa using this)]
      exact .protocol hl (F0.1 x rfl)
  · have : (i + 1 == names.length) = false := by simpa using hl
    rw [this]
    exact key o1 Fn.1 Fn.2 fun h => absurd h hl

/-- Without the option, the namespaces of the schemas of a protocol are their names, and no two schemas share one. -/
theorem C97_default (fo : FloatOps) (p : Proto) (h : Reachable fo p) :
    mainNamespaces [] (p.schemas.map Schema.name) = p.schemas.map Schema.name ∧ (mainNamespaces [] (p.schemas.map Schema.name)).Nodup := by
  have hi := reachable_inv h
  have : mainNamespaces [] (p.schemas.map Schema.name) = p.schemas.map Schema.name := by
    unfold mainNamespaces
    apply List.ext_getElem?
    intro i
    rw [List.getElem?_mapIdx]
    cases hx : (p.schemas.map Schema.name)[i]? with
    | none => rfl
    | some n =>
      have hm := List.mem_of_getElem? hx
      obtain ⟨s, hs, rfl⟩ := List.mem_map.1 hm
      have hn := name_id (hi.valid s hs)
      rw [Option.map_some]
      congr 1
      have he : namespaceOverrides [] = [] := by decide
      unfold mainNamespace
      rw [he, hn]
      cases (i + 1 == (p.schemas.map Schema.name).length) <;> rfl
  exact ⟨this, by rw [this]; exact hi.names⟩

/-- Two schemas may get the same namespace by the option. -/
example : mainNamespaces "b:a".toList ["a".toList, "b".toList] = ["a".toList, "a".toList] := by decide +kernel

example : mainNamespaces "x,a:y,:z,b:w,b:v".toList ["a".toList, "b".toList, "c".toList] = ["y".toList, "v".toList, "z".toList] := by decide +kernel

/-- A colon at the end is not the end of a name: it stays in the namespace, which is then not an identifier. -/
theorem C97_colon_witness : mainNamespaces "a:".toList ["a".toList] = ["a:".toList] ∧ isValidName "a:".toList = false := by decide +kernel

/-! ## C97: macro names -/

namespace NameProofs

theorem macro_word (r : Str) (h : ∀ d ∈ r, isUpper d = false) (s : Str) : macroLoop true (r ++ s) = r.map toUpperC ++ macroLoop true s := by
  induction r with
  | nil => rfl
  | cons c r ih =>
    rw [List.cons_append, macroLoop, h c List.mem_cons_self]
    simp only [Bool.and_false, Bool.false_eq_true, if_false, List.map_cons, List.cons_append]
    rw [ih fun d hd => h d (List.mem_cons_of_mem _ hd)]

theorem ns_low {c : Char} (h : isUpper c = false) : toLowerC c = c := by
  unfold toLowerC; rw [h]; rfl

theorem ns_up {c : Char} (h : isUpper c = true) : toLowerC c ≠ c := by
  have h1 : c.toNat < 128 := isUpper_lt h
  intro e
  have key : ∀ n : Fin 128, isUpper (Char.ofNat n) = true → toLowerC (Char.ofNat n) ≠ Char.ofNat n := by decide
  have hc : Char.ofNat c.toNat = c := Char.ofNat_toNat c
  exact key ⟨c.toNat, h1⟩ (by rw [hc]; exact h) (by rw [hc]; exact e)

theorem ns_word (r : Str) (h : ∀ d ∈ r, isUpper d = false) (s : Str) : nsLoop true (r ++ s) = r.map toLowerC ++ nsLoop true s := by
  induction r with
  | nil => rfl
  | cons c r ih =>
    have hc := ns_low (h c List.mem_cons_self)
    rw [List.cons_append, nsLoop, if_pos hc, ih fun d hd => h d (List.mem_cons_of_mem _ hd), List.map_cons, hc]
    rfl

end NameProofs

/-- A word of a name: an upper case letter and no other ones. -/
def Word (w : Str) : Prop := ∃ c r, w = c :: r ∧ isUpper c = true ∧ ∀ d ∈ r, isUpper d = false

/-- The macro name of `SomeInputMessages` is `SOME_INPUT_MESSAGES`: the words of the name in upper case with underscores between them. -/
theorem C97_macro (c : Char) (r : Str) (hr : ∀ d ∈ r, isUpper d = false) (ws : List Str) (hw : ∀ w ∈ ws, Word w) :
    strToMacroName ((c :: r) ++ ws.flatten) = joinWith "_".toList (((c :: r) :: ws).map fun w => w.map toUpperC) := by
  have key : ∀ ws : List Str, (∀ w ∈ ws, Word w) → macroLoop true ws.flatten = (ws.map fun w => '_' :: w.map toUpperC).flatten := by
    intro ws
    induction ws with
    | nil => intro _; rfl
    | cons w ws ih =>
      intro hw
      obtain ⟨d, r, rfl, hd, hr⟩ := hw w List.mem_cons_self
      rw [List.flatten_cons, List.cons_append, macroLoop, hd]
      simp only [Bool.and_self, if_true]
      rw [macro_word r hr, ih fun x hx => hw x (List.mem_cons_of_mem _ hx)]
      simp
  have j : ∀ (ws : List Str) (a : Str), joinWith "_".toList (a :: ws) = a ++ (ws.map fun w => '_' :: w).flatten := by
    intro ws
    induction ws with
    | nil => intro a; simp [joinWith]
    | cons w ws ih => intro a; rw [joinWith, ih]; simp
  unfold strToMacroName
  rw [List.cons_append, macroLoop]
  simp only [Bool.false_and, Bool.false_eq_true, if_false]
  rw [macro_word r hr, key ws hw, List.map_cons, j]
  simp [Function.comp_def]

/-- Likewise the name of a namespace, in lower case. -/
theorem C97_ns (c : Char) (r : Str) (hr : ∀ d ∈ r, isUpper d = false) (ws : List Str) (hw : ∀ w ∈ ws, Word w) :
    nameToNs ((c :: r) ++ ws.flatten) = joinWith "_".toList (((c :: r) :: ws).map fun w => w.map toLowerC) := by
  have key : ∀ ws : List Str, (∀ w ∈ ws, Word w) → nsLoop true ws.flatten = (ws.map fun w => '_' :: w.map toLowerC).flatten := by
    intro ws
    induction ws with
    | nil => intro _; rfl
    | cons w ws ih =>
      intro hw
      obtain ⟨d, r, rfl, hd, hr⟩ := hw w List.mem_cons_self
      rw [List.flatten_cons, List.cons_append, nsLoop, if_neg (ns_up hd), if_pos rfl, ns_word r hr, ih fun x hx => hw x (List.mem_cons_of_mem _ hx)]
      simp
  have j : ∀ (ws : List Str) (a : Str), joinWith "_".toList (a :: ws) = a ++ (ws.map fun w => '_' :: w).flatten := by
    intro ws
    induction ws with
    | nil => intro a; simp [joinWith]
    | cons w ws ih => intro a; rw [joinWith, ih]; simp
  have hc : nsLoop false (c :: (r ++ ws.flatten)) = toLowerC c :: nsLoop true (r ++ ws.flatten) := by
    rw [nsLoop]
    split
    · rename_i h; rw [h]
    · simp
  unfold nameToNs
  rw [List.cons_append, hc, ns_word r hr, key ws hw, List.map_cons, j]
  simp [Function.comp_def]

namespace NameProofs

theorem first_split {c : Char} : ∀ {s : Str}, c ∈ s → ∃ a b, s = a ++ c :: b ∧ c ∉ a := by
  intro s
  induction s with
  | nil => intro h; cases h
  | cons d s ih =>
    intro h
    by_cases hd : d = c
    · exact ⟨[], s, by rw [hd]; rfl, by simp⟩
    · rcases List.mem_cons.1 h with rfl | h
      · exact absurd rfl hd
      · obtain ⟨a, b, rfl, ha⟩ := ih h
        exact ⟨d :: a, b, rfl, by simp [ha, Ne.symm hd]⟩

theorem replace_map (c d : Char) (s : Str) : strReplace s [c] [d] = s.map fun x => if x = c then d else x := by
  have keep : ∀ a : Str, c ∉ a → (a.map fun x => if x = c then d else x) = a := by
    intro a ha
    refine (List.map_congr_left fun x hx => ?_).trans (List.map_id a)
    rw [if_neg (by rintro rfl; exact ha hx)]
    rfl
  have key : ∀ (n : Nat) (s : Str), s.length ≤ n → Replaced [c] [d] s (s.map fun x => if x = c then d else x) := by
    intro n
    induction n with
    | zero =>
      intro s hs
      obtain rfl : s = [] := List.eq_nil_of_length_eq_zero (by omega)
      exact .none fun a b e => by cases a <;> cases e
    | succ n ih =>
      intro s hs
      by_cases hc : c ∈ s
      · obtain ⟨a, b, rfl, ha⟩ := first_split hc
        have hb := ih b (by simp at hs; omega)
        have : FirstAt [c] (a ++ c :: b) a b := by
          refine ⟨rfl, fun x y e => ?_⟩
          apply Classical.byContradiction
          intro hl
          have hl : x.length < a.length := by omega
          have h1 : (a ++ c :: b)[x.length]? = some c := by rw [e]; simp
          rw [List.getElem?_append_left hl] at h1
          exact ha (List.mem_of_getElem? h1)
        have := Replaced.step this hb
        rw [List.map_append, keep a ha, List.map_cons, if_pos rfl]
        exact this
      · rw [keep s hc]
        exact .none fun a b e => hc (by rw [e]; simp)
  exact ((C49_strReplace _ _ _ (by simp)).2 _ (key s.length s (Nat.le_refl _))).symm

end NameProofs

/-- Dots, minus signs and spaces of a text that becomes a name (such as the prefix of the C generator) turn into underscores; all else is kept. -/
theorem C97_text (s : Str) : strToName s = s.map fun c => if c = '.' ∨ c = '-' ∨ c = ' ' then '_' else c := by
  unfold strToName
  rw [replace_map, replace_map, replace_map, List.map_map, List.map_map]
  refine List.map_congr_left fun c _ => ?_
  simp only [Function.comp_def]
  by_cases h1 : c = '.'
  · subst h1; decide
  · rw [if_neg h1]
    by_cases h2 : c = '-'
    · subst h2; decide
    · rw [if_neg h2]
      by_cases h3 : c = ' '
      · subst h3; decide
      · rw [if_neg h3, if_neg (by simp [h1, h2, h3])]

example : strToName "my-proto v1.2".toList = "my_proto_v1_2".toList := by decide +kernel

/-- Two lists of input messages with different names may define the same macro. -/
theorem C97_macro_witness : strToMacroName "A_bMessages".toList = strToMacroName "ABMessages".toList ∧
    strToMacroName "AllMessages".toList = "ALL_MESSAGES".toList := by decide +kernel

/-! ## C98 -/

namespace NameProofs

theorem first_colons {a s : Str} (h : ':' ∉ a) : FirstAt "::".toList (a ++ ("::".toList ++ s)) a s := by
  refine ⟨rfl, fun x y e => ?_⟩
  apply Classical.byContradiction
  intro hl
  have hl : x.length < a.length := by omega
  have h1 : (a ++ ("::".toList ++ s))[x.length]? = some ':' := by rw [e]; simp
  rw [List.getElem?_append_left hl] at h1
  exact h (List.mem_of_getElem? h1)

/-- Replacement of the separators of a scope. -/
theorem scope_flat (L : List Str) (h : ∀ x ∈ L, ':' ∉ x) : scopeToName (joinWith "::".toList L) = joinWith "_".toList L := by
  have key : Replaced "::".toList ['_'] (joinWith "::".toList L) (joinWith "_".toList L) := by
    induction L using joinWith.induct with
    | case1 => exact .none fun a b e => by cases a <;> cases e
    | case2 a => exact .none fun x y e => h a (by simp) (by rw [joinWith] at e; rw [e]; simp)
    | case3 a b r ih =>
      have := ih fun x hx => h x (List.mem_cons_of_mem _ hx)
      have := Replaced.step (first_colons (s := joinWith "::".toList (b :: r)) (h a (by simp))) this
      simpa [joinWith] using this
  exact ((C49_strReplace _ _ _ (by simp)).2 _ key).symm

theorem toUpper_plain {c : Char} {d : Char} (hd : d = '_' ∨ d = ':') (h : c.toUpper = d) : c = d := by
  unfold Char.toUpper at h
  split at h
  · rename_i hc
    exfalso
    have h2 := hc.1; have h3 := hc.2
    simp only [UInt32.le_iff_toNat_le] at h2 h3
    have e1 : 'a'.val.toNat = 97 := rfl
    have e2 : 'z'.val.toNat = 122 := rfl
    rw [e1] at h2; rw [e2] at h3
    have e3 : c.toNat = c.val.toNat := rfl
    rcases hd with rfl | rfl
    · have h4 := congrArg UInt32.toNat (congrArg Char.val h)
      simp at h4
      rw [e3] at h4
      omega
    · have h4 := congrArg UInt32.toNat (congrArg Char.val h)
      simp at h4
      rw [e3] at h4
      omega
  · exact h

theorem class_plain {d : Char} (hd : d = '_' ∨ d = ':') {n : Str} (h : d ∉ n) : d ∉ className n := by
  cases n with
  | nil => exact h
  | cons c cs =>
    intro hm
    rcases List.mem_cons.1 hm with hm | hm
    · exact h (by rw [toUpper_plain hd hm.symm]; simp)
    · exact h (List.mem_cons_of_mem _ hm)

/-- A property of all names. -/
def Holder.All (P : Str → Prop) : Holder → Prop
  | .global q => ∀ x ∈ q, P x
  | .message q n => (∀ x ∈ q, P x) ∧ P n
  | .iface q n => (∀ x ∈ q, P x) ∧ P n
  | .layer q f n => (∀ x ∈ q, P x) ∧ P f ∧ P n

theorem scopes_plain {d : Char} (hd : d = '_' ∨ d = ':') {h : Holder} (ha : Holder.All (d ∉ ·) h) : ∀ x ∈ h.scopes [], d ∉ x := by
  have hk : ∀ s : Str, s ∈ ["field".toList, "message".toList, "frame".toList, "Fields".toList, "Members".toList, "Layers".toList] → d ∉ s := by
    rcases hd with rfl | rfl <;> decide
  have ap : ∀ (n s : Str), d ∉ n → s ∈ ["field".toList, "message".toList, "frame".toList, "Fields".toList, "Members".toList, "Layers".toList] → d ∉ className n ++ s ++ [] := by
    intro n s hn hs hm
    rw [List.append_nil] at hm
    rcases List.mem_append.1 hm with hm | hm
    · exact class_plain hd hn hm
    · exact hk s hs hm
  intro x hx
  cases h with
  | global q =>
    rcases List.mem_append.1 hx with hx | hx
    · exact ha x hx
    · rw [List.mem_singleton.1 hx]; exact hk _ (by decide)
  | message q n =>
    rcases List.mem_append.1 hx with hx | hx
    · exact ha.1 x hx
    · rcases List.mem_cons.1 hx with rfl | hx
      · exact hk _ (by decide)
      · rw [List.mem_singleton.1 hx]; exact ap n _ ha.2 (by decide)
  | iface q n =>
    rcases List.mem_append.1 hx with hx | hx
    · exact ha.1 x hx
    · rw [List.mem_singleton.1 hx]; exact ap n _ ha.2 (by decide)
  | layer q f n =>
    rcases List.mem_append.1 hx with hx | hx
    · exact ha.1 x hx
    · rcases List.mem_cons.1 hx with rfl | hx
      · exact hk _ (by decide)
      · rcases List.mem_cons.1 hx with rfl | hx
        · exact ap f _ ha.2.1 (by decide)
        · rw [List.mem_singleton.1 hx]; exact ap n _ ha.2.2 (by decide)

theorem all_mono {P Q : Str → Prop} (hPQ : ∀ n, P n → Q n) {h : Holder} (ha : Holder.All P h) : Holder.All Q h := by
  cases h with
  | global q => exact fun x hx => hPQ x (ha x hx)
  | message q n => exact ⟨fun x hx => hPQ x (ha.1 x hx), hPQ _ ha.2⟩
  | iface q n => exact ⟨fun x hx => hPQ x (ha.1 x hx), hPQ _ ha.2⟩
  | layer q f n => exact ⟨fun x hx => hPQ x (ha.1 x hx), hPQ _ ha.2.1, hPQ _ ha.2.2⟩

theorem all_named {h : Holder} (ha : Holder.All (fun n => isValidName n = true) h) : h.Named := by
  have key : ∀ n, isValidName n = true → n ≠ [] := by rintro n h rfl; cases h
  have := all_mono key ha
  cases h <;> exact this

theorem valid_colon {n : Str} (h : isValidName n = true) : ':' ∉ n := fun hm => (name_chars h _ hm).2.2.2.1 rfl

theorem valid_ne {n : Str} (h : isValidName n = true) : n ≠ [] := by rintro rfl; cases h

/-- The components of the scope of a field. -/
def comps (main : Str) (addMain : Bool) (h : Holder) (outer : List Str) (name : Str) : List Str :=
  (if addMain then [main] else []) ++ h.scopes [] ++ (outer.map fun n => className n ++ "Members".toList) ++ [className name]

theorem comps_plain {d : Char} (hd : d = '_' ∨ d = ':') {main : Str} {addMain : Bool} {h : Holder} {outer : List Str} {name : Str} (hm : addMain = true → d ∉ main)
    (hh : Holder.All (d ∉ ·) h) (ho : ∀ x ∈ outer, d ∉ x) (hn : d ∉ name) : ∀ x ∈ comps main addMain h outer name, d ∉ x := by
  intro x hx
  unfold comps at hx
  rcases List.mem_append.1 hx with hx | hx
  · rcases List.mem_append.1 hx with hx | hx
    · rcases List.mem_append.1 hx with hx | hx
      · cases addMain with
        | false => cases hx
        | true => rw [List.mem_singleton.1 hx]; exact hm rfl
      · exact scopes_plain hd hh x hx
    · obtain ⟨n, hn, rfl⟩ := List.mem_map.1 hx
      intro hm
      rcases List.mem_append.1 hm with hm | hm
      · exact class_plain hd (ho n hn) hm
      · rcases hd with rfl | rfl <;> revert hm <;> decide
  · rw [List.mem_singleton.1 hx]; exact class_plain hd hn

end NameProofs

/-- A field of a schema: what holds it, the fields around it, its name. -/
structure FieldAt where
  holder : Holder
  outer : List Str := []
  name : Str

/-- All names of it. -/
def FieldAt.All (P : Str → Prop) (f : FieldAt) : Prop := Holder.All P f.holder ∧ (∀ x ∈ f.outer, P x) ∧ P f.name

/-- The name of the SWIG and Emscripten classes of a field are the components of the scope of its C++ class, with underscores between them. -/
theorem C98_flat (main : Str) (hm : isValidName main = true) (addMain : Bool) (f : FieldAt) (hf : f.All fun n => isValidName n = true) :
    flatClassName main addMain (fieldChain f.holder f.outer f.name) =
      joinWith "_".toList ((if addMain then [main] else []) ++ f.holder.scopes [] ++ (f.outer.map fun n => className n ++ "Members".toList) ++ [className f.name]) := by
  unfold flatClassName
  rw [C96_field main (valid_ne hm) addMain f.holder (all_named hf.1) f.outer f.name (fun x hx => valid_ne (hf.2.1 x hx)) (valid_ne hf.2.2)]
  exact scope_flat _ (comps_plain (Or.inr rfl) (fun _ => valid_colon hm) (all_mono (fun n h => valid_colon h) hf.1) (fun x hx => valid_colon (hf.2.1 x hx)) (valid_colon hf.2.2))

/-- Full claim: different classes get different names. Proved for names without underscores, of one schema or (with `addMain`) of several ones. -/
theorem C98_distinct_partial (main main' : Str) (hm : isValidName main = true) (hm' : isValidName main' = true) (addMain : Bool) (h1 : addMain = true → '_' ∉ main ∧ '_' ∉ main')
    (f g : FieldAt) (hf : f.All fun n => isValidName n = true ∧ '_' ∉ n) (hg : g.All fun n => isValidName n = true ∧ '_' ∉ n) :
    flatClassName main addMain (fieldChain f.holder f.outer f.name) = flatClassName main' addMain (fieldChain g.holder g.outer g.name) ↔
      scopeFor main addMain true (fieldChain f.holder f.outer f.name) = scopeFor main' addMain true (fieldChain g.holder g.outer g.name) := by
  have vf : f.All fun n => isValidName n = true := ⟨all_mono (fun n h => h.1) hf.1, fun x hx => (hf.2.1 x hx).1, hf.2.2.1⟩
  have vg : g.All fun n => isValidName n = true := ⟨all_mono (fun n h => h.1) hg.1, fun x hx => (hg.2.1 x hx).1, hg.2.2.1⟩
  constructor
  · intro h
    rw [C98_flat main hm addMain f vf, C98_flat main' hm' addMain g vg] at h
    have := join_inj (c := '_') (by simp [comps]) (by simp [comps])
      (comps_plain (Or.inl rfl) (fun h => (h1 h).1) (all_mono (fun n h => h.2) hf.1) (fun x hx => (hf.2.1 x hx).2) hf.2.2.2)
      (comps_plain (Or.inl rfl) (fun h => (h1 h).2) (all_mono (fun n h => h.2) hg.1) (fun x hx => (hg.2.1 x hx).2) hg.2.2.2) h
    rw [C96_field main (valid_ne hm) addMain f.holder (all_named vf.1) f.outer f.name (fun x hx => valid_ne (vf.2.1 x hx)) (valid_ne vf.2.2),
      C96_field main' (valid_ne hm') addMain g.holder (all_named vg.1) g.outer g.name (fun x hx => valid_ne (vg.2.1 x hx)) (valid_ne vg.2.2)]
    exact congrArg _ this
  · intro h
    unfold flatClassName
    rw [h]

example : flatClassName "Demo".toList false (fieldChain (.message ["ns".toList] "msg".toList) ["f1".toList] "f2".toList) = "ns_message_MsgFields_F1Members_F2".toList ∧
    FieldAt.All (fun n => isValidName n = true ∧ '_' ∉ n) { holder := .message ["ns".toList] "msg".toList, outer := ["f1".toList], name := "f2".toList } := by
  refine ⟨by decide +kernel, ⟨?_, ?_⟩, ?_, ?_⟩ <;> decide +kernel

/-- The C generator: the names of fields of the schema of the protocol start with the given prefix instead of the namespace. -/
theorem C98_c (namesPrefix main : Str) (hp : isValidName namesPrefix = true) (hm : isValidName main = true) (f : FieldAt) (hf : f.All fun n => isValidName n = true) :
    cNameFor namesPrefix main true (fieldChain f.holder f.outer f.name) = flatClassName namesPrefix true (fieldChain f.holder f.outer f.name) ∧
    cNameFor namesPrefix main false (fieldChain f.holder f.outer f.name) = flatClassName main true (fieldChain f.holder f.outer f.name) := by
  refine ⟨?_, rfl⟩
  unfold cNameFor flatClassName
  rw [if_pos rfl, name_id hp,
    C96_field main (valid_ne hm) false f.holder (all_named hf.1) f.outer f.name (fun x hx => valid_ne (hf.2.1 x hx)) (valid_ne hf.2.2),
    C96_field namesPrefix (valid_ne hp) true f.holder (all_named hf.1) f.outer f.name (fun x hx => valid_ne (hf.2.1 x hx)) (valid_ne hf.2.2)]
  congr 1
  generalize f.holder.scopes [] = a
  generalize (f.outer.map fun n => className n ++ "Members".toList) = b
  have : ∀ L : List Str, L ≠ [] → namesPrefix ++ "::".toList ++ joinWith "::".toList L = joinWith "::".toList (namesPrefix :: L) := by
    intro L hL
    cases L with
    | nil => exact absurd rfl hL
    | cons => rfl
  exact this _ (by simp)

/-- Refutation of the full claim: an accepted schema with two messages whose classes are `S::A::B::message::M` and `S::A_B::message::M` and have the same name in C,
    SWIG and Emscripten. -/
theorem C98_clash_witness : ∃ p s a b, Reachable fo0 p ∧ p.validated = true ∧ p.schemas[0]? = some s ∧
    s.messages = [(["A".toList, "B".toList], a), (["A_B".toList], b)] ∧ a.name = "M".toList ∧ b.name = "M".toList ∧
    scopeFor "S".toList true true (chainOf .message ["A".toList, "B".toList] a.name) ≠ scopeFor "S".toList true true (chainOf .message ["A_B".toList] b.name) ∧
    ∀ addMain, flatClassName "S".toList addMain (chainOf .message ["A".toList, "B".toList] a.name) = flatClassName "S".toList addMain (chainOf .message ["A_B".toList] b.name) := by
  obtain ⟨p, s, h1, h2, h3, h4⟩ := schemaIs_spec (docs := [schemaEl "S" [nsEl "A" [nsEl "B" [msgEl "M" "1"]], nsEl "A_B" [msgEl "M" "2"]]]) (n := 0)
    (P := fun s => match s.messages with
      | [(x, a), (y, b)] => decide (x = ["A".toList, "B".toList] ∧ y = ["A_B".toList] ∧ a.name = "M".toList ∧ b.name = "M".toList)
      | _ => false) (by decide +kernel)
  split at h4
  · rename_i x a y b hm
    obtain ⟨rfl, rfl, ha, hb⟩ := of_decide_eq_true h4
    refine ⟨p, s, a, b, h1, h2, h3, hm, ha, hb, ?_, ?_⟩
    · rw [ha, hb]; decide +kernel
    · rw [ha, hb]; decide +kernel
  · cases h4

/-! ## C99 -/

/-- Without a different namespace, files of the user are copied as they are. -/
theorem C99_same (schema rel content : Str) (h : isValidName schema = true) : copiedPath schema schema rel = rel ∧ copiedContent schema schema content = content := by
  unfold copiedPath copiedContent
  simp only [name_id h, if_true, and_self]

/-- Files of the include directory of the schema go to that of the namespace. Files elsewhere go to the same place; full claim: all of them; proved for those in
    directories whose names do not start with that of the schema. -/
theorem C99_path_partial (schema main rel : Str) (h : isValidName schema = true) (hm : main ≠ schema) :
    copiedPath schema main ("include/".toList ++ schema ++ '/' :: rel) = "include/".toList ++ main ++ '/' :: rel ∧
    ∀ other, ¬ "include/".toList ++ schema <+: other → copiedPath schema main other = other := by
  unfold copiedPath
  simp only [name_id h, if_neg hm]
  constructor
  · rw [if_pos (by rw [List.isPrefixOf_iff_prefix]; exact List.prefix_append _ _)]
    rw [List.drop_left]
  · intro other ho
    rw [if_neg (by rw [List.isPrefixOf_iff_prefix]; exact ho)]

/-- Exactly the occurrences of `namespace S` are replaced by `namespace M`. (Full claim: the namespace of the schema is renamed; not those whose names only start with
    its name, and also where it is referred to.) -/
theorem C99_content_partial (schema main content : Str) (h : isValidName schema = true) (hm : main ≠ schema) :
    Replaced ("namespace ".toList ++ schema) ("namespace ".toList ++ main) content (copiedContent schema main content) := by
  unfold copiedContent
  simp only [name_id h, if_neg hm]
  exact (C49_strReplace _ _ _ (by simp)).1

/-- Refutation of the full claims: the directory and the namespace `demo_utils` are renamed as well, and the reference is not. -/
theorem C99_other_witness : copiedPath "demo".toList "m".toList "include/demo_utils/a.h".toList = "include/m_utils/a.h".toList ∧
    copiedContent "demo".toList "m".toList "namespace demo_utils {}".toList = "namespace m_utils {}".toList ∧
    copiedContent "demo".toList "m".toList "using demo::field::F;".toList = "using demo::field::F;".toList := by decide +kernel

example : copiedPath "demo".toList "m".toList "include/demo/a/b.h".toList = "include/m/a/b.h".toList ∧ isValidName "demo".toList = true ∧
    copiedContent "demo".toList "m".toList "namespace demo {}".toList = "namespace m {}".toList := by decide +kernel

end Commsdsl.Props
