import Verif.Props.Protocol
import Verif.Lemmas.Sort
/-!
# The protocol object: message ids (C30), the list of messages (C31), the life cycle (C35), references to later schemas (C33)
-/
namespace Commsdsl.Props
open Commsdsl Fld Msg Frm Spec Text Proto

/-! ## C30, C31: messages -/

/-- Ids differ or, if equal ids are allowed, orders differ. -/
def Distinguished (nonUnique : Bool) (a b : Message) : Prop := a.id ≠ b.id ∨ (nonUnique = true ∧ a.order ≠ b.order)

/-- Sorted by id and, for equal ids, by order. -/
def Ordered (a b : Message) : Prop := a.id < b.id ∨ (a.id = b.id ∧ a.order ≤ b.order)

/-- Nothing of a schema goes away: name and version stay, elements are added at the end, platforms are added. -/
def Grown (s t : Schema) : Prop :=
  t.name = s.name ∧ t.version = s.version ∧ s.nss <+: t.nss ∧ s.fields <+: t.fields ∧ s.messages <+: t.messages ∧ s.ifaces <+: t.ifaces ∧
  s.frames <+: t.frames ∧ ∀ x ∈ s.platforms, x ∈ t.platforms

/-- Documents, flags and everything recorded are still there. -/
def Kept (p q : Proto) : Prop := q.docs = p.docs ∧ q.validated = p.validated ∧ q.multi = p.multi ∧
  ∀ (i : Nat) (s : Schema), p.schemas[i]? = some s → ∃ t, q.schemas[i]? = some t ∧ Grown s t

namespace CallProofs

theorem Distinguished.symm {n : Bool} {a b : Message} (h : Distinguished n a b) : Distinguished n b a := by
  rcases h with h | ⟨h1, h2⟩
  · exact .inl (Ne.symm h)
  · exact .inr ⟨h1, Ne.symm h2⟩

theorem sorted (l : List Message) : (sortBy msgLt l).Pairwise Ordered := by
  apply sortBy_pairwise msgLt (fun _ => True) Ordered
  · intro a b c _ _ _ h1 h2; unfold Ordered at *; omega
  · intro a b _ _ h
    unfold msgLt at h; unfold Ordered
    split at h <;> simp only [decide_eq_true_eq] at h <;> omega
  · intro a b _ _ h
    unfold msgLt at h; unfold Ordered
    split at h <;> simp only [decide_eq_false_iff_not] at h <;> omega
  · intros; trivial

theorem neighbours_iff (n : Bool) (l : List Message) (hs : l.Pairwise Ordered) : neighboursOk n l = true ↔ l.Pairwise (Distinguished n) := by
  induction l using neighboursOk.induct with
  | case1 => simp [neighboursOk]
  | case2 => simp [neighboursOk]
  | case3 a b r ih =>
    obtain ⟨h1, h2⟩ := List.pairwise_cons.1 hs
    obtain ⟨h3, h4⟩ := List.pairwise_cons.1 h2
    rw [neighboursOk, Bool.and_eq_true, ih h2, List.pairwise_cons (a := a)]
    constructor
    · rintro ⟨hab, hr⟩
      refine ⟨?_, hr⟩
      have hab' : Distinguished n a b := by
        unfold Distinguished
        simpa [Bool.or_eq_true, Bool.and_eq_true] using hab
      intro c hc
      rcases List.mem_cons.1 hc with rfl | hc
      · exact hab'
      · have h5 := h1 b (by simp)
        have h6 := h3 c hc
        unfold Ordered at h5 h6
        unfold Distinguished at hab' ⊢
        rcases hab' with hab' | ⟨hn, hab'⟩
        · left; omega
        · by_cases hid : a.id = c.id
          · right; exact ⟨hn, by omega⟩
          · left; exact hid
    · rintro ⟨hab, hr⟩
      refine ⟨?_, hr⟩
      have := hab b (by simp)
      unfold Distinguished at this
      simpa [Bool.or_eq_true, Bool.and_eq_true] using this

theorem below_iff (path : Path) (e : Path × Message) :
    (e.1 == path || (!path.isEmpty && e.1.dropLast == path && e.1.length == path.length + 1)) = true ↔
      e.1 = path ∨ (path ≠ [] ∧ ∃ x, e.1 = path ++ [x]) := by
  simp only [Bool.or_eq_true, Bool.and_eq_true, beq_iff_eq, Bool.not_eq_true', List.isEmpty_eq_false_iff]
  constructor
  · rintro (h | ⟨⟨h1, h2⟩, h3⟩)
    · exact .inl h
    · right
      refine ⟨h1, ?_⟩
      have hne : e.1 ≠ [] := by intro h; rw [h] at h3; simp at h3
      exact ⟨e.1.getLast hne, by rw [← h2, List.dropLast_concat_getLast hne]⟩
  · rintro (h | ⟨h1, x, h2⟩)
    · exact .inl h
    · right; rw [h2]; simp [h1]

theorem nsOk_iff (s : Schema) (path : Path) : s.nsMessagesOk path = true ↔ (s.msgsBelow path).Pairwise (Distinguished s.nonUnique) := by
  unfold Schema.nsMessagesOk
  rw [neighbours_iff _ _ (sorted _)]
  exact (sortBy_perm msgLt _).pairwise_iff (fun h => Distinguished.symm h)

theorem reachable_snoc {fo : FloatOps} {p : Proto} (h : Reachable fo p) (c : Call) : Reachable fo (call fo p c) := by
  obtain ⟨cs, rfl⟩ := h
  exact ⟨cs ++ [c], by simp⟩

theorem reachable_ind {fo : FloatOps} {P : Proto → Prop} (h0 : P {}) (hs : ∀ p c, Reachable fo p → P p → P (call fo p c)) {p : Proto}
    (h : Reachable fo p) : P p := by
  obtain ⟨cs, rfl⟩ := h
  have : ∀ (cs : List Call) (p : Proto), Reachable fo p → P p → P (cs.foldl (call fo) p) := by
    intro cs
    induction cs with
    | nil => intro p _ h; exact h
    | cons c cs ih => intro p hr h; exact ih _ (reachable_snoc hr c) (hs p c hr h)
  exact this cs {} ⟨[], rfl⟩ h0

theorem Kept.refl (p : Proto) : Kept p p :=
  ⟨rfl, rfl, rfl, fun _ s h => ⟨s, h, rfl, rfl, List.prefix_refl _, List.prefix_refl _, List.prefix_refl _, List.prefix_refl _, List.prefix_refl _,
    fun _ h => h⟩⟩

theorem Kept.trans {p q r : Proto} (h : Kept p q) (h' : Kept q r) : Kept p r := by
  obtain ⟨a1, a2, a3, a4⟩ := h
  obtain ⟨b1, b2, b3, b4⟩ := h'
  refine ⟨b1.trans a1, b2.trans a2, b3.trans a3, ?_⟩
  intro i s hs
  obtain ⟨s', hs', c1, c2, c3, c4, c5, c6, c7, c8⟩ := a4 i s hs
  obtain ⟨s'', hs'', d1, d2, d3, d4, d5, d6, d7, d8⟩ := b4 i s' hs'
  exact ⟨s'', hs'', d1.trans c1, d2.trans c2, c3.trans d3, c4.trans d4, c5.trans d5, c6.trans d6, c7.trans d7, fun x hx => d8 x (c8 x hx)⟩

theorem Kept.update (p : Proto) (f : Schema → Schema) (hf : ∀ s, Grown s (f s)) : Kept p (p.update f) := by
  unfold Proto.update
  split
  · exact Kept.refl p
  · rename_i c hc
    refine ⟨rfl, rfl, rfl, ?_⟩
    intro i s hs
    by_cases hi : c = i
    · subst hi
      exact ⟨f s, by simp [hs], hf s⟩
    · refine ⟨s, ?_, rfl, rfl, List.prefix_refl _, List.prefix_refl _, List.prefix_refl _, List.prefix_refl _, List.prefix_refl _, fun _ h => h⟩
      show (p.schemas.modify c f)[i]? = some s
      rw [List.getElem?_modify, hs]
      simp [hi]

theorem Kept.record {α : Type} (p : Proto) (nameOf : α → Str) (coll : Schema → List (Path × α)) (add : α → Schema → Schema) (path : Path)
    (x : Res α) (hf : ∀ a s, Grown s (add a s)) : Kept p (record p nameOf coll add path x).1 := by
  unfold Proto.record
  split
  · exact Kept.refl p
  · exact Kept.refl p
  · split
    · exact Kept.refl p
    · exact Kept.update p _ (hf _)

theorem step_kept {fo : FloatOps} {p : Proto} (a : Action) : Kept p (step fo p a).1 := by
  cases a with
  | bad => exact Kept.refl p
  | schema n =>
    show Kept p (stepSchema p n).1
    unfold stepSchema
    split
    · exact Kept.refl p
    · exact Kept.refl p
    · unfold placeSchema
      split
      · exact Kept.refl p
      · split
        · exact Kept.refl p
        · split
          · exact Kept.refl p
          · refine ⟨rfl, rfl, rfl, ?_⟩
            intro i s hs
            refine ⟨s, ?_, rfl, rfl, List.prefix_refl _, List.prefix_refl _, List.prefix_refl _, List.prefix_refl _, List.prefix_refl _,
              fun _ h => h⟩
            have hi : i < p.schemas.length := (List.getElem?_eq_some_iff.1 hs).1
            show (p.schemas ++ _)[i]? = some s
            rw [List.getElem?_append_left hi, hs]
  | platform n =>
    show Kept p (stepPlatform p n).1
    unfold stepPlatform
    split
    · exact Kept.refl p
    · split
      · exact Kept.refl p
      · split
        · exact Kept.refl p
        · exact Kept.update p _ (fun s => ⟨rfl, rfl, List.prefix_refl _, List.prefix_refl _, List.prefix_refl _, List.prefix_refl _,
            List.prefix_refl _, fun x hx => (insertPlatform_mem _ _ x).2 (.inr hx)⟩)
  | openNs path =>
    refine Kept.update p _ (fun s => ?_)
    unfold addNs
    split
    · exact ⟨rfl, rfl, List.prefix_refl _, List.prefix_refl _, List.prefix_refl _, List.prefix_refl _, List.prefix_refl _, fun _ h => h⟩
    · exact ⟨rfl, rfl, List.prefix_append _ _, List.prefix_refl _, List.prefix_refl _, List.prefix_refl _, List.prefix_refl _, fun _ h => h⟩
  | field path n =>
    exact Kept.record p _ _ _ _ _ (fun a s => ⟨rfl, rfl, List.prefix_refl _, List.prefix_append _ _, List.prefix_refl _, List.prefix_refl _,
      List.prefix_refl _, fun _ h => h⟩)
  | message path n =>
    exact Kept.record p _ _ _ _ _ (fun a s => ⟨rfl, rfl, List.prefix_refl _, List.prefix_refl _, List.prefix_append _ _, List.prefix_refl _,
      List.prefix_refl _, fun _ h => h⟩)
  | iface path n =>
    exact Kept.record p _ _ _ _ _ (fun a s => ⟨rfl, rfl, List.prefix_refl _, List.prefix_refl _, List.prefix_refl _, List.prefix_append _ _,
      List.prefix_refl _, fun _ h => h⟩)
  | frame path n =>
    exact Kept.record p _ _ _ _ _ (fun a s => ⟨rfl, rfl, List.prefix_refl _, List.prefix_refl _, List.prefix_refl _, List.prefix_refl _,
      List.prefix_append _ _, fun _ h => h⟩)

theorem run_kept {fo : FloatOps} (as : List Action) : ∀ {p : Proto}, Kept p (run fo p as).1 := by
  induction as with
  | nil => intro p; exact Kept.refl p
  | cons a as ih =>
    intro p
    have h := step_kept (fo := fo) (p := p) a
    unfold run
    split
    · rename_i h'; rw [h'] at h; exact Kept.trans h ih
    · rename_i h'; rw [h'] at h; exact h
    · rename_i h'; rw [h'] at h; exact h

theorem runDocs_kept {fo : FloatOps} (ds : List Xml) : ∀ {p : Proto}, Kept p (runDocs fo p ds).1 := by
  induction ds with
  | nil => intro p; exact Kept.refl p
  | cons d ds ih =>
    intro p
    have h := run_kept (fo := fo) (p := p) (docActions d)
    unfold runDocs
    split
    · rename_i h'; rw [h'] at h; exact Kept.trans h ih
    · rename_i h'; rw [h'] at h; exact h
    · rename_i h'; rw [h'] at h; exact h

theorem runDocs_validated {fo : FloatOps} (ds : List Xml) {p : Proto} : (runDocs fo p ds).1.validated = p.validated := (runDocs_kept ds).2.1

theorem validated_ok {fo : FloatOps} {p : Proto} (h : Reachable fo p) : p.validated = true → p.schemas.all Schema.messagesOk = true := by
  refine reachable_ind (P := fun p => p.validated = true → p.schemas.all Schema.messagesOk = true) (by intro h; cases h) ?_ h
  intro p c _ hp
  cases c with
  | parse d =>
    intro hv
    show ((p.parse d).1.schemas.all _) = true
    change (p.parse d).1.validated = true at hv
    unfold Proto.parse at hv ⊢
    split
    · rename_i h; exact hp h
    · rename_i h; rw [if_neg h] at hv
      cases d with
      | none => exact hp hv
      | some d => exact hp hv
  | enableMulti b => exact hp
  | validate =>
    intro hv
    change (p.validate fo).1.validated = true at hv
    show ((p.validate fo).1.schemas.all _) = true
    unfold Proto.validate at hv ⊢
    have hr := runDocs_validated (fo := fo) (p := p) p.docs
    split
    · rename_i h; exact hp h
    · rename_i h
      rw [if_neg h] at hv
      split
      · rename_i h'; rw [if_pos h'] at hv; exact hp hv
      · rename_i h'
        rw [if_neg h'] at hv
        split <;> rename_i he <;> rw [he] at hv hr <;> simp only at hv hr
        · split
          · rename_i h2; exact h2
          · rename_i h2; rw [if_neg h2, hr] at hv; exact absurd hv h
        · rw [hr] at hv; exact absurd hv h
        · rw [hr] at hv; exact absurd hv h

end CallProofs
open CallProofs

/-- `e` is in the namespace with the given path or, if that is not the global one, in a namespace directly inside. -/
def Near (path : Path) (e : Path × Message) : Prop := e.1 = path ∨ (path ≠ [] ∧ ∃ x, e.1 = path ++ [x])

/-- C30, what is compared: the check of a namespace of the schema accepts exactly if any two of its messages and of those of the namespaces directly
    inside it are distinguished. -/
theorem C30_check_iff (s : Schema) (path : Path) :
    s.nsMessagesOk path = true ↔ ∀ (i j : Nat) (a b : Path × Message), s.messages[i]? = some a → s.messages[j]? = some b → i < j →
      Near path a → Near path b → Distinguished s.nonUnique a.2 b.2 := by
  rw [nsOk_iff]
  unfold Schema.msgsBelow
  rw [List.pairwise_map, List.pairwise_filter, List.pairwise_iff_getElem]
  constructor
  · intro h i j a b hi hj hij ha hb
    obtain ⟨hi', rfl⟩ := List.getElem?_eq_some_iff.1 hi
    obtain ⟨hj', rfl⟩ := List.getElem?_eq_some_iff.1 hj
    exact h i j hi' hj' hij ((below_iff path _).2 ha) ((below_iff path _).2 hb)
  · intro h i j hi hj hij ha hb
    exact h i j _ _ (List.getElem?_eq_getElem hi) (List.getElem?_eq_getElem hj) hij ((below_iff path _).1 ha) ((below_iff path _).1 hb)

/-- C30, as far as it holds: in a validated protocol two messages of the same top-level namespace (or the global one), or of namespaces directly
    inside that one, have different ids or, where the schema allows equal ids, different orders. Missing: messages of different top-level
    namespaces and of deeper namespaces, see the witnesses below. -/
theorem C30_unique_ids_partial (fo : FloatOps) (p : Proto) (h : Reachable fo p) (hv : p.validated = true) (s : Schema) (hs : s ∈ p.schemas)
    (path : Path) (hl : path.length ≤ 1) (i j : Nat) (a b : Path × Message) (hi : s.messages[i]? = some a) (hj : s.messages[j]? = some b)
    (hij : i ≠ j) (ha : Near path a) (hb : Near path b) : Distinguished s.nonUnique a.2 b.2 := by
  have hok := List.all_eq_true.1 (validated_ok h hv) s hs
  have hinv := (reachable_inv h).each s hs
  have hp : path ∈ s.nss := by
    have h1 := (hinv.messages.1 a (List.mem_of_getElem? hi)).1
    rcases ha with e | ⟨hne, x, e⟩
    · rw [e] at h1; exact h1
    · rw [e] at h1; exact hinv.nsUp _ _ h1 hne
  unfold Schema.messagesOk at hok
  have hok := List.all_eq_true.1 hok path (List.mem_filter.2 ⟨hp, by simpa using hl⟩)
  rw [C30_check_iff] at hok
  rcases Nat.lt_or_gt_of_ne hij with hlt | hlt
  · exact hok i j a b hi hj hlt ha hb
  · exact Distinguished.symm (hok j i b a hj hi hlt hb ha)

/-- C31, as far as it holds: the list of all messages is a rearrangement of the messages of the top-level namespaces and the global one, sorted by
    id and order. Missing: messages of deeper namespaces are left out, see the witness below. -/
theorem C31_messages_sorted_partial (s : Schema) :
    s.allMessages.Pairwise Ordered ∧ s.allMessages.Perm ((s.messages.filter fun m => decide (m.1.length ≤ 1)).map Prod.snd) :=
  ⟨sorted _, sortBy_perm _ _⟩

/-- C31 in full for schemas whose messages are not nested deeper. -/
theorem C31_messages_all (s : Schema) (h : ∀ e ∈ s.messages, e.1.length ≤ 1) :
    s.allMessages.Pairwise Ordered ∧ s.allMessages.Perm (s.messages.map Prod.snd) := by
  refine ⟨sorted _, ?_⟩
  have hf : (s.messages.filter fun m => decide (m.1.length ≤ 1)) = s.messages :=
    List.filter_eq_self.2 (fun a ha => by simpa using h a ha)
  have := sortBy_perm msgLt ((s.messages.filter fun m => decide (m.1.length ≤ 1)).map Prod.snd)
  rw [hf] at this
  unfold Schema.allMessages
  rw [hf]
  exact this

/-! ## Concrete protocols -/

/-- No floating point numbers. -/
def fo0 : FloatOps := { stod := fun _ => none }

/-- Several schemas enabled, documents read, validation. -/
def session (docs : List Xml) : List Call := .enableMulti true :: docs.map (fun d => .parse (some d)) ++ [.validate]

/-- The state after that. -/
def after (docs : List Xml) : Proto := (session docs).foldl (call fo0) {}

theorem after_reachable (docs : List Xml) : Reachable fo0 (after docs) := ⟨session docs, rfl⟩

/-- Validation succeeds and the schema with this number is as told. -/
def schemaIs (docs : List Xml) (n : Nat) (P : Schema → Bool) : Bool :=
  (after docs).validated && match (after docs).schemas[n]? with
    | some s => P s
    | none => false

theorem schemaIs_spec {docs : List Xml} {n : Nat} {P : Schema → Bool} (h : schemaIs docs n P = true) :
    ∃ p s, Reachable fo0 p ∧ p.validated = true ∧ p.schemas[n]? = some s ∧ P s = true := by
  unfold schemaIs at h
  obtain ⟨h1, h2⟩ := Bool.and_eq_true_iff.1 h
  split at h2
  · rename_i s hs; exact ⟨_, s, after_reachable docs, h1, hs, h2⟩
  · cases h2

open Sample in
/-- A message element. -/
def msgEl (name id : String) : Xml := el "message" [("name", name), ("id", id), ("displayName", name)]

open Sample in
/-- A namespace element. -/
def nsEl (name : String) (ch : List Xml) : Xml := el "ns" [("name", name)] ch

open Sample in
/-- A schema element. -/
def schemaEl (name : String) (ch : List Xml) : Xml := el "schema" [("name", name), ("version", "3"), ("endian", "little")] ch

/-- The hypotheses of `C30_unique_ids_partial` are met: two messages in a namespace and one in a namespace inside. -/
example : ∃ p s, Reachable fo0 p ∧ p.validated = true ∧ p.schemas[0]? = some s ∧
    (s.messages.length == 3 && s.messages.all fun e => e.1 == ["A".toList] || e.1 == ["A".toList, "B".toList]) = true :=
  schemaIs_spec (docs := [schemaEl "S" [nsEl "A" [msgEl "M1" "1", msgEl "M2" "2", nsEl "B" [msgEl "M3" "3"]]]]) (by decide +kernel)

/-- Equal ids in one namespace, or in it and a namespace inside, are refused. -/
example : (after [schemaEl "S" [nsEl "A" [msgEl "M1" "1", nsEl "B" [msgEl "M3" "1"]]]]).validated = false := by decide +kernel

/-- Exactly two messages, in the given namespaces, with the same id. -/
def sameIds (x y : Path) (s : Schema) : Bool :=
  match s.messages with
  | [(x', a), (y', b)] => x' == x && y' == y && a.id == b.id && !s.nonUnique
  | _ => false

theorem sameIds_spec {x y : Path} {s : Schema} (h : sameIds x y s = true) :
    ∃ a b, s.messages = [(x, a), (y, b)] ∧ a.id = b.id ∧ s.nonUnique = false := by
  unfold sameIds at h
  split at h
  · rename_i x' a y' b hm
    simp only [Bool.and_eq_true, beq_iff_eq, Bool.not_eq_true'] at h
    obtain ⟨⟨⟨rfl, rfl⟩, h3⟩, h4⟩ := h
    exact ⟨a, b, hm, h3, h4⟩
  · cases h

/-- C30 does not hold: messages of two top-level namespaces of a validated schema have the same id. -/
theorem C30_namespaces_witness : ∃ p s a b, Reachable fo0 p ∧ p.validated = true ∧ s ∈ p.schemas ∧ s.nonUnique = false ∧
    s.messages = [(["A".toList], a), (["B".toList], b)] ∧ a.id = b.id := by
  obtain ⟨p, s, h1, h2, h3, h4⟩ := schemaIs_spec (docs := [schemaEl "S" [nsEl "A" [msgEl "M1" "1"], nsEl "B" [msgEl "M2" "1"]]]) (n := 0)
    (P := sameIds ["A".toList] ["B".toList]) (by decide +kernel)
  obtain ⟨a, b, h5, h6, h7⟩ := sameIds_spec h4
  exact ⟨p, s, a, b, h1, h2, List.mem_of_getElem? h3, h7, h5, h6⟩

/-- C30 does not hold within one top-level namespace either: two levels down, equal ids are not noticed. C31: these messages are not in the list of
    all messages. -/
theorem C30_nested_witness : ∃ p s a b, Reachable fo0 p ∧ p.validated = true ∧ s ∈ p.schemas ∧ s.nonUnique = false ∧
    s.messages = [(["A".toList, "B".toList, "C".toList], a), (["A".toList, "B".toList, "C".toList], b)] ∧ a.id = b.id ∧ s.allMessages = [] := by
  obtain ⟨p, s, h1, h2, h3, h4⟩ := schemaIs_spec (docs := [schemaEl "S" [nsEl "A" [nsEl "B" [nsEl "C" [msgEl "M1" "1", msgEl "M2" "1"]]]]]) (n := 0)
    (P := fun s => sameIds ["A".toList, "B".toList, "C".toList] ["A".toList, "B".toList, "C".toList] s && s.allMessages.isEmpty) (by decide +kernel)
  obtain ⟨h4, h8⟩ := Bool.and_eq_true_iff.1 h4
  obtain ⟨a, b, h5, h6, h7⟩ := sameIds_spec h4
  exact ⟨p, s, a, b, h1, h2, List.mem_of_getElem? h3, h7, h5, h6, by simpa using h8⟩

/-! ## C33: references to values -/

open Sample in
/-- Documents of the schemas A, B and A again. -/
def aba : List Xml := [
  schemaEl "A" [el "fields" [] [el "int" [("name", "x"), ("type", "uint8")]]],
  schemaEl "B" [el "fields" [] [el "int" [("name", "y"), ("type", "uint8"), ("defaultValue", "5")]]],
  schemaEl "A" [el "fields" [] [el "int" [("name", "z"), ("type", "uint8"), ("defaultValue", "@B.y")]]]]

/-- C33 does not hold for references to values: with documents of schemas A, B, A again, the field `z` of A (number 0, the current one) gets its
    default value from a field of B (number 1). The order of schemas is only checked for references to fields, messages and interfaces. -/
theorem C33_value_witness : Reachable fo0 (after aba) ∧ (after aba).validated = true ∧
    ((after aba).schemas.map Schema.name = ["A".toList, "B".toList]) ∧ (after aba).curr = some 0 ∧
    ((after aba).schemas[0]?.bind fun s => (lookup Field.name s.fields [] "z".toList).bind fun f => match f with
      | .int _ st => some st.default
      | _ => none) = some 5 ∧
    ((after aba).findField "@B.y".toList).isNone = true := by
  refine ⟨after_reachable _, ?_, ?_, ?_, ?_, ?_⟩ <;> decide +kernel

/-- The hypotheses of the theorems on references are met: after A and B, references to fields of both schemas. -/
example : ((after (aba.take 2)).findField "@A.x".toList).isSome ∧ ((after (aba.take 2)).findField "@B.y".toList).isSome ∧
    ((after (aba.take 2)).findField "y".toList).isSome ∧ ((after (aba.take 2)).findField "x".toList).isNone := by
  refine ⟨?_, ?_, ?_, ?_⟩ <;> decide +kernel

/-! ## C35: life cycle -/

/-- C35: after successful validation no call changes documents, schemas or the current schema. -/
theorem C35_frozen (fo : FloatOps) (p : Proto) (hv : p.validated = true) (cs : List Call) :
    let q := cs.foldl (call fo) p
    q.validated = true ∧ q.docs = p.docs ∧ q.schemas = p.schemas ∧ q.curr = p.curr := by
  induction cs generalizing p with
  | nil => exact ⟨hv, rfl, rfl, rfl⟩
  | cons c cs ih =>
    have h1 : (call fo p c).validated = true ∧ (call fo p c).docs = p.docs ∧ (call fo p c).schemas = p.schemas ∧ (call fo p c).curr = p.curr := by
      cases c <;> simp [call, Proto.parse, Proto.validate, hv]
    have h2 := ih (call fo p c) h1.1
    simp only [List.foldl_cons]
    exact ⟨h2.1, h2.2.1.trans h1.2.1, h2.2.2.1.trans h1.2.2.1, h2.2.2.2.trans h1.2.2.2⟩

/-- C35: `parse` fails exactly if the protocol is validated or libxml2 cannot read the document; then nothing changes. Otherwise the document is put
    at the end and nothing else changes. -/
theorem C35_parse (p : Proto) (d : Option Xml) :
    ((p.parse d).2 = false ↔ p.validated = true ∨ d = none) ∧ ((p.parse d).2 = false → (p.parse d).1 = p) ∧
    ((p.parse d).2 = true → ∃ x, d = some x ∧ (p.parse d).1 = { p with docs := p.docs ++ [x] }) := by
  unfold Proto.parse
  cases hv : p.validated <;> cases d <;> simp

/-- C35: `validate` succeeds again, without effect, once it has succeeded; without documents it fails without effect; it keeps the documents and
    everything recorded; afterwards the protocol is validated exactly if it succeeded. -/
theorem C35_validate (fo : FloatOps) (p : Proto) :
    (p.validated = true → p.validate fo = (p, .ok ())) ∧ (p.validated = false → p.docs = [] → p.validate fo = (p, .err)) ∧
    ((p.validate fo).1.validated = true ↔ ∃ u, (p.validate fo).2 = .ok u) ∧
    Kept { p with validated := (p.validate fo).1.validated } (p.validate fo).1 := by
  refine ⟨fun h => by simp [Proto.validate, h], fun h h' => by simp [Proto.validate, h, h'], ?_⟩
  unfold Proto.validate
  obtain ⟨k1, k2, k3, k4⟩ := runDocs_kept (fo := fo) (p := p) p.docs
  split
  · rename_i h; exact ⟨by simp [h], Kept.refl p⟩
  · rename_i h
    split
    · exact ⟨by simp [h], Kept.refl p⟩
    · split <;> rename_i he <;> rw [he] at k1 k2 k3 k4 <;> simp only at k1 k2 k3 k4
      · split
        · exact ⟨by simp, k1, rfl, k3, k4⟩
        · exact ⟨by simp [k2, h], k1, rfl, k3, k4⟩
      · exact ⟨by simp [k2, h], k1, rfl, k3, k4⟩
      · exact ⟨by simp [k2, h], k1, rfl, k3, k4⟩

/-- Validation that succeeds, then refused documents; and validation that fails and keeps the first schema. -/
example : (after aba).validated = true ∧ ((after aba).parse (some (schemaEl "C" []))).2 = false ∧
    (after [schemaEl "A" [msgEl "M" "1"], schemaEl "B" [msgEl "M" "x"]]).validated = false ∧
    ((after [schemaEl "A" [msgEl "M" "1"], schemaEl "B" [msgEl "M" "x"]]).schemas.map fun s => s.messages.length) = [1, 0] := by
  refine ⟨?_, ?_, ?_, ?_⟩ <;> decide +kernel

end Commsdsl.Props
