import Verif.Props.GenMsgNames
/-!
# C84 to C86: which files are written, and where

`C84_written`, `C84_apart_partial`, `C84_place_witness`.
-/
namespace Commsdsl.Props
open Commsdsl Text Fld Msg Frm Proto Gen Spec

namespace MsgProofs

mutual
theorem hasFrames_iff : ∀ n : GNs, n.hasFrames = true ↔ ∃ x ∈ n.allNs, x.frames ≠ []
  | .mk p nm fs ms is frs subs => by
    rw [GNs.hasFrames, GNs.allNs]
    cases frs with
    | nil =>
      simp only [List.isEmpty_nil, Bool.not_true, Bool.false_eq_true, if_false, anyFrames_iff subs, List.mem_append, List.mem_singleton]
      constructor
      · rintro ⟨x, hx, h⟩; exact ⟨x, .inl hx, h⟩
      · rintro ⟨x, hx | rfl, h⟩
        · exact ⟨x, hx, h⟩
        · exact absurd rfl h
    | cons f frs =>
      simp only [List.isEmpty_cons, Bool.not_false, if_true, true_iff]
      exact ⟨_, List.mem_append.2 (.inr (List.mem_singleton.2 rfl)), by simp [GNs.frames]⟩
theorem anyFrames_iff : ∀ l : List GNs, anyFrames l = true ↔ ∃ x ∈ allNsOf l, x.frames ≠ []
  | [] => by simp [anyFrames, allNsOf]
  | n :: l => by
    rw [anyFrames, allNsOf, Bool.or_eq_true, hasFrames_iff n, anyFrames_iff l]
    simp only [List.mem_append, or_and_right, exists_or]
end

mutual
theorem hasMessages_iff : ∀ n : GNs, n.hasMessages = true ↔ ∃ x ∈ n.allNs, x.msgs ≠ []
  | .mk p nm fs ms is frs subs => by
    rw [GNs.hasMessages, GNs.allNs]
    cases ms with
    | nil =>
      simp only [List.isEmpty_nil, Bool.not_true, Bool.false_eq_true, if_false, anyMessages_iff subs, List.mem_append, List.mem_singleton]
      constructor
      · rintro ⟨x, hx, h⟩; exact ⟨x, .inl hx, h⟩
      · rintro ⟨x, hx | rfl, h⟩
        · exact ⟨x, hx, h⟩
        · exact absurd rfl h
    | cons f frs =>
      simp only [List.isEmpty_cons, Bool.not_false, if_true, true_iff]
      exact ⟨_, List.mem_append.2 (.inr (List.mem_singleton.2 rfl)), by simp [GNs.msgs]⟩
theorem anyMessages_iff : ∀ l : List GNs, anyMessages l = true ↔ ∃ x ∈ allNsOf l, x.msgs ≠ []
  | [] => by simp [anyMessages, allNsOf]
  | n :: l => by
    rw [anyMessages, allNsOf, Bool.or_eq_true, hasMessages_iff n, anyMessages_iff l]
    simp only [List.mem_append, or_and_right, exists_or]
end

/-- Some namespace inside has an element, if the schema has one there. -/
theorem node_elems {α : Type} {s : Schema} (hs : SchemaInv s) {n : GNs} (h : n ∈ allNsOf (buildSchema s)) (nameOf : α → Str) (l : List (Path × α))
    (get : GNs → List α) (hget : ∀ d q, get (buildNs s d q) = elemsAt nameOf l q) (hl : ∀ e ∈ l, e.1 ∈ s.nss) :
    (∃ x ∈ n.allNs, get x ≠ []) ↔ ∃ e ∈ l, NsInside n.path e.1 := by
  obtain ⟨d, q, rfl, hq, hd⟩ := schema_nodes h
  rw [buildNs_path]
  unfold NsInside
  constructor
  · rintro ⟨x, hx, hne⟩
    obtain ⟨d', r, rfl, hr, _⟩ := ns_nodes s _ _ _ hx
    rw [hget] at hne
    obtain ⟨a, ha⟩ := List.exists_mem_of_ne_nil _ hne
    refine ⟨_, (elemsAt_mem _ _ _ _).1 ha, ?_⟩
    rcases hd with ⟨rfl, rfl⟩ | ⟨hne, _⟩
    · rw [if_pos rfl]
      have : r = [] := List.length_eq_zero_iff.1 (by omega)
      rw [this]
      rfl
    · rw [if_neg hne]
      exact ⟨r, rfl⟩
  · rintro ⟨⟨p, a⟩, he, hi⟩
    simp only at hi
    rcases hd with ⟨rfl, rfl⟩ | ⟨hne, hdep⟩
    · rw [if_pos rfl] at hi
      subst hi
      exact ⟨_, self_mem _, by rw [hget]; exact List.ne_nil_of_mem ((elemsAt_mem _ _ _ _).2 he)⟩
    · rw [if_neg hne] at hi
      obtain ⟨r, rfl⟩ := hi
      have hin := hl _ he
      have := le_nsDepth hin
      refine ⟨_, ns_reaches s hs.nsUp r d q (by simp at this; omega) hne hin, ?_⟩
      rw [hget]
      exact List.ne_nil_of_mem ((elemsAt_mem _ _ _ _).2 he)

theorem build_frames (s : Schema) (d : Nat) (q : Path) : (buildNs s d q).frames = elemsAt Frame.name s.frames q := by
  cases d <;> rfl

theorem build_msgs (s : Schema) (d : Nat) (q : Path) : (buildNs s d q).msgs = elemsAt Message.name s.messages q := by
  cases d <;> rfl

end MsgProofs
open MsgProofs

/-- The files for a platform of the schema, for a bundle, or for all messages are asked for. -/
def AskedFor (platforms : List Str) (bundles : List (Str × List MsgKey)) : Sel → Prop
  | .every => True
  | .platform p => p ∈ platforms
  | .bundle b ms => (b, ms) ∈ bundles

/-- C84 to C86: the files are written for the namespaces that have a frame and a message in them, or in the namespaces inside, and no others. -/
theorem C84_written (fo : FloatOps) (p : Proto) (h : Reachable fo p) (i : Nat) (s : Schema) (hs : p.schemas[i]? = some s) (n : GNs)
    (hn : n ∈ allNsOf (buildSchema s)) (main : Str) (platforms : List Str) (bundles : List (Str × List MsgKey)) :
    (listHeaders main platforms bundles n ≠ [] ↔ (∃ e ∈ s.frames, NsInside n.path e.1) ∧ ∃ e ∈ s.messages, NsInside n.path e.1) ∧
    (listHeaders main platforms bundles n ≠ [] → ∀ sel side, AskedFor platforms bundles sel →
      (inputFile main i n sel side).header ∈ listHeaders main platforms bundles n ∧
      relHeaderIn main "factory".toList (factoryName sel side) n.name ∈ listHeaders main platforms bundles n ∧
      relHeaderIn main "dispatch".toList (dispatchName sel side) n.name ∈ listHeaders main platforms bundles n) := by
  have hinv := inv_at h hs
  have hf : n.hasFrames = true ↔ ∃ e ∈ s.frames, NsInside n.path e.1 :=
    (hasFrames_iff n).trans (node_elems hinv hn Frame.name s.frames GNs.frames (build_frames s) fun e he => (hinv.frames.1 _ he).1)
  have hm : n.hasMessages = true ↔ ∃ e ∈ s.messages, NsInside n.path e.1 :=
    (hasMessages_iff n).trans (node_elems hinv hn Message.name s.messages GNs.msgs (build_msgs s) fun e he => (hinv.messages.1 _ he).1)
  have hsel : ∀ sel side, AskedFor platforms bundles sel → (sel, side) ∈ selections platforms bundles := by
    intro sel side ha
    unfold selections
    rw [List.mem_flatMap]
    refine ⟨sel, ?_, by cases side <;> simp⟩
    cases sel with
    | every => simp
    | platform p => exact List.mem_cons_of_mem _ (List.mem_append.2 (.inl (List.mem_map_of_mem ha)))
    | bundle b ms => exact List.mem_cons_of_mem _ (List.mem_append.2 (.inr (List.mem_map.2 ⟨(b, ms), ha, rfl⟩)))
  rw [← hf, ← hm]
  unfold listHeaders
  cases n.hasFrames <;> cases n.hasMessages <;> simp only [Bool.not_true, Bool.not_false, Bool.or_self, Bool.or_true, Bool.or_false, if_true, Bool.false_eq_true, if_false, ne_eq, not_true_eq_false,
    and_self, and_true, and_false, false_implies, iff_true, List.append_eq_nil_iff, List.map_eq_nil_iff]
  refine ⟨fun he => ?_, fun _ sel side ha => ?_⟩
  · have := hsel .every .all trivial
    rw [he] at this
    cases this
  · have hin := hsel sel side ha
    refine ⟨List.mem_append.2 (.inr (List.mem_map.2 ⟨_, hin, rfl⟩)), List.mem_append.2 (.inl (List.mem_append.2 (.inr (List.mem_map.2 ⟨_, hin, rfl⟩)))),
      List.mem_append.2 (.inl (List.mem_append.2 (.inl (List.mem_map.2 ⟨_, hin, rfl⟩))))⟩

namespace MsgProofs

theorem first_comp {a a' b b' : Str} (ha : '/' ∉ a) (ha' : '/' ∉ a') (h : a ++ '/' :: b = a' ++ '/' :: b') : a = a' ∧ b = b' := by
  induction a generalizing a' with
  | nil =>
    cases a' with
    | nil => exact ⟨rfl, (List.cons.inj h).2⟩
    | cons x a' => exact absurd (List.cons.inj h).1 fun e => ha' (e ▸ List.mem_cons_self)
  | cons x a ih =>
    cases a' with
    | nil => exact absurd (List.cons.inj h).1.symm fun e => ha (e ▸ List.mem_cons_self)
    | cons y a' =>
      obtain ⟨h1, h2⟩ := List.cons.inj h
      obtain ⟨h3, h4⟩ := ih (fun hm => ha (List.mem_cons_of_mem _ hm)) (fun hm => ha' (List.mem_cons_of_mem _ hm)) h2
      exact ⟨by rw [h1, h3], h4⟩

theorem header_ns {main dir dir' name name' ns ns' : Str} (hm : main ≠ []) (hd : '/' ∉ dir) (hd' : '/' ∉ dir') (hn : '/' ∉ name) (hn' : '/' ∉ name')
    (hns : '/' ∉ ns) (hns' : '/' ∉ ns') (h : relHeaderIn main dir name ns = relHeaderIn main dir' name' ns') : ns = ns' := by
  rw [relHeaderIn_eq hm, relHeaderIn_eq hm] at h
  have hno : ∀ x : Str, '/' ∉ x → '/' ∉ x ++ ".h".toList := by
    intro x hx hmem
    rcases List.mem_append.1 hmem with h | h
    · exact hx h
    · revert h; decide
  by_cases e : ns = [] <;> by_cases e' : ns' = []
  · rw [e, e']
  · rw [if_pos e, if_neg e', List.append_assoc] at h
    have h1 := (List.cons.inj (List.append_cancel_left h)).2
    have h2 := (first_comp hd hns' h1).2
    exact absurd (h2 ▸ List.mem_append.2 (.inr List.mem_cons_self)) (hno _ hn)
  · rw [if_neg e, if_pos e', List.append_assoc] at h
    have h1 := (List.cons.inj (List.append_cancel_left h)).2
    have h2 := (first_comp hns hd' h1).2
    exact absurd (h2 ▸ List.mem_append.2 (.inr List.mem_cons_self)) (hno _ hn')
  · rw [if_neg e, if_neg e', List.append_assoc, List.append_assoc] at h
    exact (first_comp hns hns' (List.cons.inj (List.append_cancel_left h)).2).1

theorem ident_slash {x : Str} (h : Identifier x) : '/' ∉ x := by
  obtain ⟨c, cs, rfl, h1, h2⟩ := h
  intro hm
  rcases List.mem_cons.1 hm with h | h
  · subst h; revert h1; unfold NameStart; decide
  · have := h2 _ h; revert this; unfold NameRest; decide

theorem node_name {s : Schema} (hs : SchemaInv s) {n : GNs} (h : n ∈ allNsOf (buildSchema s)) : '/' ∉ n.name := by
  obtain ⟨d, q, rfl, hq, _⟩ := schema_nodes h
  have e : (buildNs s d q).name = q.getLast?.getD [] := by cases d <;> rfl
  rw [e]
  cases hl : q.getLast? with
  | none => simp
  | some x =>
    have hv := hs.nsNames q hq x (List.mem_of_getLast? hl)
    exact ident_slash ((C02_name_iff x).1 hv)

theorem header_form {main : Str} {platforms : List Str} {bundles : List (Str × List MsgKey)} (hb : ∀ x ∈ platforms ++ bundles.map (·.1), '/' ∉ x) {n : GNs} {x : Str}
    (h : x ∈ listHeaders main platforms bundles n) : ∃ dir name, '/' ∉ dir ∧ '/' ∉ name ∧ x = relHeaderIn main dir name n.name := by
  have hp : ∀ y ∈ selections platforms bundles, '/' ∉ y.1.prefix := by
    intro y hy
    unfold selections at hy
    obtain ⟨sel, h1, h2⟩ := List.mem_flatMap.1 hy
    have e : y.1 = sel := by
      simp only [List.mem_cons, List.not_mem_nil, or_false] at h2
      rcases h2 with rfl | rfl | rfl <;> rfl
    rw [e]
    have hcl : ∀ x : Str, '/' ∉ x → '/' ∉ className x := by
      intro x hx hm
      rw [upperFirst_eq] at hm
      cases x with
      | nil => cases hm
      | cons c cs =>
        rcases List.mem_cons.1 hm with h | h
        · have hc : c ≠ '/' := fun e => hx (e ▸ List.mem_cons_self)
          exact hc (toUpper_slash h.symm)
        · exact hx (List.mem_cons_of_mem _ h)
    rcases List.mem_cons.1 h1 with rfl | h1
    · simp [Sel.prefix]
    · rcases List.mem_append.1 h1 with h1 | h1
      · obtain ⟨p, hp, rfl⟩ := List.mem_map.1 h1
        exact hcl _ (hb _ (List.mem_append.2 (.inl hp)))
      · obtain ⟨b, hb', rfl⟩ := List.mem_map.1 h1
        exact hcl _ (hb _ (List.mem_append.2 (.inr (List.mem_map_of_mem hb'))))
  have hst : ∀ s : Side, '/' ∉ s.text := by intro s; cases s <;> decide
  have hin : ∀ y : Sel × Side, '/' ∉ y.1.prefix → '/' ∉ inputStem y.1 y.2 := by
    rintro ⟨a, s⟩ hy hm
    have : '/' ∈ "All".toList ∨ '/' ∈ a.prefix ++ s.text := by
      cases a <;> cases s <;> first | exact .inl hm | exact .inr hm
    rcases this with h | h
    · revert h; decide
    · rcases List.mem_append.1 h with h | h
      · exact hy h
      · exact hst s h
  have hap : ∀ a b : Str, '/' ∉ a → '/' ∉ b → '/' ∉ a ++ b := fun a b h1 h2 hm => (List.mem_append.1 hm).elim h1 h2
  unfold listHeaders at h
  split at h
  · cases h
  rcases List.mem_append.1 h with h | h
  · rcases List.mem_append.1 h with h | h
    · obtain ⟨y, hy, rfl⟩ := List.mem_map.1 h
      exact ⟨_, _, by decide, hap _ _ (hap _ _ (by decide) (hap _ _ (hp y hy) (hst _))) (by decide), rfl⟩
    · obtain ⟨y, hy, rfl⟩ := List.mem_map.1 h
      exact ⟨_, _, by decide, hap _ _ (hap _ _ (hap _ _ (hin y (hp y hy)) (by decide)) (by decide)) (by decide), rfl⟩
  · obtain ⟨y, hy, rfl⟩ := List.mem_map.1 h
    exact ⟨_, _, by decide, hap _ _ (hin y (hp y hy)) (by decide), rfl⟩

end MsgProofs

/-- C84 to C86: namespaces with different names have their files in different places, if the names of platforms and bundles have no slash. Missing: different
    namespaces of the same name, see `C84_place_witness`. -/
theorem C84_apart_partial (fo : FloatOps) (p : Proto) (h : Reachable fo p) (i : Nat) (s : Schema) (hs : p.schemas[i]? = some s) (n n' : GNs)
    (hn : n ∈ allNsOf (buildSchema s)) (hn' : n' ∈ allNsOf (buildSchema s)) (hne : n.name ≠ n'.name) (main : Str) (hm : main ≠ []) (platforms : List Str)
    (bundles : List (Str × List MsgKey)) (hb : ∀ x ∈ platforms ++ bundles.map (·.1), '/' ∉ x) :
    ∀ x ∈ listHeaders main platforms bundles n, x ∉ listHeaders main platforms bundles n' := by
  have hinv := inv_at h hs
  intro x hx hx'
  obtain ⟨d, a, h1, h2, rfl⟩ := header_form hb hx
  obtain ⟨d', a', h1', h2', he⟩ := header_form hb hx'
  exact hne (header_ns hm h1 h1' h2 h2' (node_name hinv hn) (node_name hinv hn') he)

open MsgSample Sample in
/-- C84 to C86 do not hold for namespaces of the same name in different namespaces: their lists of different messages are in the same file. -/
theorem C84_place_witness : ∃ p s n n', Reachable fo0 p ∧ p.validated = true ∧ p.schemas[0]? = some s ∧ n ∈ allNsOf (buildSchema s) ∧ n' ∈ allNsOf (buildSchema s) ∧
    n.path = [t "A", t "X"] ∧ n'.path = [t "B", t "X"] ∧
    (inputFile (t "prot") 0 n .every .all).header ∈ listHeaders (t "prot") [] [] n ∧ (inputFile (t "prot") 0 n' .every .all).header ∈ listHeaders (t "prot") [] [] n' ∧
    (inputFile (t "prot") 0 n .every .all).header = (inputFile (t "prot") 0 n' .every .all).header ∧
    (inputFile (t "prot") 0 n .every .all).types ≠ (inputFile (t "prot") 0 n' .every .all).types := by
  obtain ⟨p, s, n, h1, h2, h3, h4, h5⟩ := nsIs_spec (docs := [schemaEl "S" [nsEl "A" [nsEl "X" [frEl "F", msgEl "M" "1"]], nsEl "B" [nsEl "X" [frEl "F", msgEl "M" "2"]]]])
    (P := fun s n => (allNsOf (buildSchema s)).any fun n' => decide (n.path = [t "A", t "X"] ∧ n'.path = [t "B", t "X"] ∧
    (inputFile (t "prot") 0 n .every .all).header ∈ listHeaders (t "prot") [] [] n ∧ (inputFile (t "prot") 0 n' .every .all).header ∈ listHeaders (t "prot") [] [] n' ∧
    (inputFile (t "prot") 0 n .every .all).header = (inputFile (t "prot") 0 n' .every .all).header ∧
    (inputFile (t "prot") 0 n .every .all).types ≠ (inputFile (t "prot") 0 n' .every .all).types)) (by decide +kernel)
  obtain ⟨n', hn', hP⟩ := List.any_eq_true.1 h5
  exact ⟨p, s, n, n', h1, h2, h3, h4, hn', of_decide_eq_true hP⟩

open MsgSample Sample in
/-- The hypotheses of C84_written and C84_apart_partial are met, with a frame only in the outer namespace: no files for the inner one. -/
example : ∃ p s n, Reachable fo0 p ∧ p.validated = true ∧ p.schemas[0]? = some s ∧ n ∈ allNsOf (buildSchema s) ∧
    ((allNsOf (buildSchema s)).any fun n' => decide (n.name ≠ n'.name ∧ listHeaders (t "prot") [] [] n ≠ [] ∧ listHeaders (t "prot") [] [] n' = [])) = true :=
  nsIs_spec (docs := docs1) (by decide +kernel)

end Commsdsl.Props
