import Verif.Lemmas.GenMsgs
import Verif.Lemmas.FieldObj
import Verif.Props.FieldSem
import Verif.Props.GenScope
/-!
# Lemmas on the fields for message ids
-/
namespace Commsdsl.Gen
open Commsdsl Text Fld Msg Frm Proto Spec

/-- The check of the fields. -/
def isIdField (f : Field) : Bool := decide (f.sem = .messageId) && (decide (f.kind = .enum) || decide (f.kind = .int))

theorem idFieldsOf_mem (l : List GNs) (e : Path × Field) : e ∈ idFieldsOf l ↔ ∃ n ∈ l, e ∈ n.idFields := by
  induction l with
  | nil => simp [idFieldsOf]
  | cons n l ih => rw [idFieldsOf, List.mem_append, ih]; simp

theorem idFields_mk (p : Path) (n : Str) (fs : List Field) (ms : List Message) (is : List Interface) (frs : List Frame) (subs : List GNs) :
    (GNs.mk p n fs ms is frs subs).idFields = ((fs.filter isIdField).map fun f => (p, f)) ++ idFieldsOf subs := by
  rw [GNs.idFields]; rfl

theorem own_mem (s : Schema) (path q : Path) (f : Field) :
    (q, f) ∈ ((elemsAt Field.name s.fields path).filter isIdField).map (fun f => (path, f)) ↔ (q, f) ∈ s.fields ∧ isIdField f = true ∧ q = path := by
  rw [List.mem_map]
  constructor
  · rintro ⟨f', hf, he⟩
    simp only [Prod.mk.injEq] at he
    obtain ⟨rfl, rfl⟩ := he
    obtain ⟨h1, h2⟩ := List.mem_filter.1 hf
    exact ⟨(elemsAt_mem _ _ _ _).1 h1, h2, rfl⟩
  · rintro ⟨h1, h2, rfl⟩
    exact ⟨f, List.mem_filter.2 ⟨(elemsAt_mem _ _ _ _).2 h1, h2⟩, rfl⟩

theorem ns_idFields {s : Schema} (hs : SchemaInv s) (d : Nat) : ∀ (path : Path) (q : Path) (f : Field),
    (q, f) ∈ (buildNs s d path).idFields ↔ (q, f) ∈ s.fields ∧ isIdField f = true ∧ ∃ r, q = path ++ r ∧ r.length ≤ d := by
  induction d with
  | zero =>
    intro path q f
    rw [buildNs, idFields_mk, idFieldsOf, List.append_nil, own_mem]
    constructor
    · rintro ⟨h1, h2, rfl⟩
      exact ⟨h1, h2, [], by simp, by simp⟩
    · rintro ⟨h1, h2, r, rfl, hr⟩
      have : r = [] := List.length_eq_zero_iff.1 (by omega)
      subst this
      exact ⟨h1, h2, by simp⟩
  | succ d ih =>
    intro path q f
    rw [buildNs, idFields_mk, List.mem_append, idFieldsOf_mem, own_mem]
    constructor
    · rintro (⟨h1, h2, rfl⟩ | ⟨n, hn, he⟩)
      · exact ⟨h1, h2, [], by simp, by simp⟩
      · obtain ⟨x, hx, rfl⟩ := List.mem_map.1 hn
        obtain ⟨hm, h2, r, rfl, hr⟩ := (ih _ _ _).1 he
        exact ⟨hm, h2, x :: r, by simp, by simp; omega⟩
    · rintro ⟨hm, h2, r, rfl, hr⟩
      cases r with
      | nil => left; exact ⟨hm, h2, by simp⟩
      | cons x r =>
        right
        refine ⟨buildNs s d (path ++ [x]), List.mem_map.2 ⟨x, (subNs_mem _ _ _).2 ?_, rfl⟩, ?_⟩
        · refine nsUp_prefix hs.nsUp (path ++ [x]) r (by simp) ?_
          simpa using (hs.fields.1 _ hm).1
        · exact (ih _ _ _).2 ⟨hm, h2, r, by simp, by simp at hr; omega⟩

theorem ns_idFields_nodup {s : Schema} (hs : SchemaInv s) (d : Nat) : ∀ path : Path, (buildNs s d path).idFields.Nodup := by
  have own : ∀ path : Path, (((elemsAt Field.name s.fields path).filter isIdField).map fun m => (path, m)).Nodup := by
    intro path
    unfold List.Nodup
    rw [List.pairwise_map]
    refine ((elemsAt_sorted Field.name s.fields hs.fields.2 path).filter _).imp ?_
    intro a b hab he
    simp only [Prod.mk.injEq, true_and] at he
    subst he
    exact str_irrefl _ hab
  induction d with
  | zero =>
    intro path
    rw [buildNs, idFields_mk, idFieldsOf, List.append_nil]
    exact own path
  | succ d ih =>
    intro path
    rw [buildNs, idFields_mk, List.nodup_append]
    refine ⟨own path, ?_, ?_⟩
    · have hsort := subNs_sorted s.nss path
      generalize subNs s.nss path = xs at hsort
      induction xs with
      | nil => simp [idFieldsOf]
      | cons x xs ihx =>
        rw [List.map_cons, idFieldsOf, List.nodup_append]
        rw [List.pairwise_cons] at hsort
        refine ⟨ih _, ihx hsort.2, ?_⟩
        rintro ⟨q, m⟩ ha b hb rfl
        rw [idFieldsOf_mem] at hb
        obtain ⟨n, hn, hb⟩ := hb
        obtain ⟨y, hy, rfl⟩ := List.mem_map.1 hn
        obtain ⟨_, _, r1, h1, _⟩ := (ns_idFields hs _ _ _ _).1 ha
        obtain ⟨_, _, r2, h2, _⟩ := (ns_idFields hs _ _ _ _).1 hb
        rw [h1] at h2
        have : x = y := by simp at h2; exact h2.1
        subst this
        exact str_irrefl _ (hsort.1 _ hy)
    · rintro ⟨q, m⟩ ha b hb rfl
      rw [idFieldsOf_mem] at hb
      obtain ⟨n, hn, hb⟩ := hb
      obtain ⟨y, hy, rfl⟩ := List.mem_map.1 hn
      obtain ⟨_, _, r1, h1, _⟩ := (ns_idFields hs _ _ _ _).1 hb
      have := ((own_mem s path q m).1 ha).2.2
      rw [this] at h1
      simp at h1

theorem isIdField_iff {s : Schema} (hs : SchemaInv s) {e : Path × Field} (he : e ∈ s.fields) :
    isIdField e.2 = true ↔ e.2.sem = .messageId ∧ e.2.kind = .enum := by
  obtain ⟨n, hr⟩ := (hs.fields.1 _ he).2.2
  have hacc := hr.accepted
  unfold isIdField
  simp only [Bool.and_eq_true, Bool.or_eq_true, decide_eq_true_eq]
  constructor
  · rintro ⟨h1, h2⟩
    refine ⟨h1, h2.resolve_right ?_⟩
    intro hk
    obtain ⟨p, f⟩ := e
    dsimp only at *
    obtain ⟨g, hf, hfit⟩ := Props.C71_semantic_types f (.acc hacc) (by rw [h1]; simp)
    rw [h1] at hfit
    have : g.kind = .enum := hfit
    cases hf with
    | self => rw [hk] at this; cases this
    | ref ht _ => simp [Field.kind] at hk
  · rintro ⟨h1, h2⟩
    exact ⟨h1, .inl h2⟩

theorem node_idFields {s : Schema} (hs : SchemaInv s) {n : GNs} (h : n ∈ allNsOf (buildSchema s)) (e : Path × Field) :
    e ∈ n.idFields ↔ IdField s n.path e := by
  obtain ⟨d, q, rfl, hq, hd⟩ := schema_nodes h
  obtain ⟨p, f⟩ := e
  rw [ns_idFields hs, buildNs_path]
  unfold IdField NsInside
  constructor
  · rintro ⟨hm, h2, r, rfl, hr⟩
    refine ⟨hm, ?_, (isIdField_iff hs hm).1 h2⟩
    rcases hd with ⟨rfl, rfl⟩ | ⟨hne, _⟩
    · rw [if_pos rfl]
      simpa using hr
    · rw [if_neg hne]
      exact ⟨r, rfl⟩
  · rintro ⟨hm, hi, h2⟩
    refine ⟨hm, (isIdField_iff hs hm).2 h2, ?_⟩
    rcases hd with ⟨rfl, rfl⟩ | ⟨hne, hdep⟩
    · rw [if_pos rfl] at hi
      exact ⟨[], by simpa using hi, by simp⟩
    · rw [if_neg hne] at hi
      obtain ⟨r, rfl⟩ := hi
      refine ⟨r, rfl, ?_⟩
      have := le_nsDepth (hs.fields.1 _ hm).1
      simp at this
      omega

theorem schema_tops {s : Schema} {n : GNs} (h : n ∈ buildSchema s) : (n = buildNs s 0 []) ∨ ∃ x ∈ subNs s.nss [], n = buildNs s (nsDepth s.nss) [x] := by
  unfold buildSchema at h
  rcases List.mem_append.1 h with h | h
  · split at h
    · exact .inl (by simpa using h)
    · cases h
  · obtain ⟨x, hx, rfl⟩ := List.mem_map.1 h
    exact .inr ⟨x, hx, rfl⟩

theorem schema_top_of {s : Schema} (hs : SchemaInv s) {q : Path} (hq : q ∈ s.nss) :
    (q = [] ∧ buildNs s 0 [] ∈ buildSchema s) ∨ ∃ x r, q = x :: r ∧ r.length ≤ nsDepth s.nss ∧ buildNs s (nsDepth s.nss) [x] ∈ buildSchema s := by
  unfold buildSchema
  cases q with
  | nil => exact .inl ⟨rfl, by rw [if_pos (by simpa using hq)]; simp⟩
  | cons x r =>
    refine .inr ⟨x, r, rfl, ?_, List.mem_append.2 (.inr (List.mem_map.2 ⟨x, (subNs_mem _ _ _).2 ?_, rfl⟩))⟩
    · have := le_nsDepth hq; simp at this; omega
    · exact nsUp_prefix hs.nsUp [x] r (by simp) (by simpa using hq)

theorem schema_idFields {s : Schema} (hs : SchemaInv s) (e : Path × Field) :
    e ∈ idFieldsOf (buildSchema s) ↔ e ∈ s.fields ∧ e.2.sem = .messageId ∧ e.2.kind = .enum := by
  obtain ⟨q, f⟩ := e
  rw [idFieldsOf_mem]
  constructor
  · rintro ⟨n, hn, he⟩
    rcases schema_tops hn with rfl | ⟨x, _, rfl⟩
    · obtain ⟨h1, h2, _⟩ := (ns_idFields hs _ _ _ _).1 he
      exact ⟨h1, (isIdField_iff hs h1).1 h2⟩
    · obtain ⟨h1, h2, _⟩ := (ns_idFields hs _ _ _ _).1 he
      exact ⟨h1, (isIdField_iff hs h1).1 h2⟩
  · rintro ⟨h1, h2⟩
    have h2 := (isIdField_iff hs h1).2 h2
    rcases schema_top_of hs (hs.fields.1 _ h1).1 with ⟨rfl, hn⟩ | ⟨x, r, rfl, hr, hn⟩
    · exact ⟨_, hn, (ns_idFields hs _ _ _ _).2 ⟨h1, h2, [], by simp, by simp⟩⟩
    · exact ⟨_, hn, (ns_idFields hs _ _ _ _).2 ⟨h1, h2, r, by simp, hr⟩⟩

/-- Lists over the top level namespaces without duplicates. -/
theorem tops_nodup {α : Type} {s : Schema} (own : GNs → List (Path × α)) (all : List GNs → List (Path × α)) (h0 : all [] = [])
    (h1 : ∀ n l, all (n :: l) = own n ++ all l) (hn : ∀ d path, (own (buildNs s d path)).Nodup)
    (hp : ∀ d path e, e ∈ own (buildNs s d path) → ∃ r, e.1 = path ++ r ∧ r.length ≤ d) : (all (buildSchema s)).Nodup := by
  have hmem : ∀ l e, e ∈ all l ↔ ∃ n ∈ l, e ∈ own n := by
    intro l e
    induction l with
    | nil => simp [h0]
    | cons n l ih => rw [h1, List.mem_append, ih]; simp
  have hrest : (all ((subNs s.nss []).map fun x => buildNs s (nsDepth s.nss) [x])).Nodup := by
    have hsort := subNs_sorted s.nss []
    generalize subNs s.nss [] = xs at hsort
    induction xs with
    | nil => simp [h0]
    | cons x xs ihx =>
      rw [List.map_cons, h1, List.nodup_append]
      rw [List.pairwise_cons] at hsort
      refine ⟨hn _ _, ihx hsort.2, ?_⟩
      rintro ⟨q, m⟩ ha b hb rfl
      obtain ⟨n, hn', hb⟩ := (hmem _ _).1 hb
      obtain ⟨y, hy, rfl⟩ := List.mem_map.1 hn'
      obtain ⟨r1, e1, _⟩ := hp _ _ _ ha
      obtain ⟨r2, e2, _⟩ := hp _ _ _ hb
      rw [e1] at e2
      have : x = y := by simp at e2; exact e2.1
      subst this
      exact str_irrefl _ (hsort.1 _ hy)
  unfold buildSchema
  split
  · rw [List.singleton_append, h1, List.nodup_append]
    refine ⟨hn _ _, hrest, ?_⟩
    rintro ⟨q, m⟩ ha b hb rfl
    obtain ⟨n, hn', hb⟩ := (hmem _ _).1 hb
    obtain ⟨y, hy, rfl⟩ := List.mem_map.1 hn'
    obtain ⟨r1, e1, hr⟩ := hp _ _ _ ha
    obtain ⟨r2, e2, _⟩ := hp _ _ _ hb
    have : r1 = [] := List.length_eq_zero_iff.1 (by omega)
    rw [e1, this] at e2
    simp at e2
  · rw [List.nil_append]
    exact hrest

theorem schema_idFields_nodup {s : Schema} (hs : SchemaInv s) : (idFieldsOf (buildSchema s)).Nodup :=
  tops_nodup GNs.idFields idFieldsOf rfl (fun n l => by rw [idFieldsOf]) (ns_idFields_nodup hs)
    (fun d path e he => ((ns_idFields hs d path e.1 e.2).1 he).2.2)

theorem schema_messages_nodup {s : Schema} (hs : SchemaInv s) : (allMessagesOf (buildSchema s)).Nodup :=
  tops_nodup GNs.allMessages allMessagesOf rfl (fun n l => by rw [allMessagesOf]) (ns_nodup hs)
    (fun d path e he => ((ns_messages hs d path e.1 e.2).1 he).2)

theorem node_name {s : Schema} (hs : SchemaInv s) {n : GNs} (h : n ∈ allNsOf (buildSchema s)) : n.name = [] ↔ n.path = [] := by
  obtain ⟨d, q, rfl, hq, hd⟩ := schema_nodes h
  have hn : (buildNs s d q).name = q.getLast?.getD [] := by cases d <;> rfl
  rw [hn, buildNs_path]
  rcases List.eq_nil_or_concat q with rfl | ⟨l, x, rfl⟩
  · simp
  · have := hs.nsNames _ hq x (by simp)
    have : x ≠ [] := Props.name_ne this
    simpa using this

/-- The fields that decide on the enumerators. -/
theorem msgIdFields_spec {s : Schema} (hs : SchemaInv s) {n : GNs} (h : n ∈ allNsOf (buildSchema s)) :
    (msgIdFields (buildSchema s) n).Nodup ∧ ∀ e, e ∈ msgIdFields (buildSchema s) n ↔ IdFieldFor s n.path e := by
  have hown : n.idFields.Nodup := by
    obtain ⟨d, q, rfl, _⟩ := schema_nodes h
    exact ns_idFields_nodup hs d q
  have hm := node_idFields hs h
  unfold msgIdFields IdFieldFor
  split
  · rename_i hc
    obtain ⟨h1, h2⟩ := Bool.and_eq_true_iff.1 hc
    have h1 : n.idFields = [] := by simpa using h1
    have h2 : n.path = [] := (node_name hs h).1 (by simpa using h2)
    have hno : ∀ x, ¬ IdField s [] x := fun x hx => by
      have := (hm x).2 (h2 ▸ hx); rw [h1] at this; cases this
    refine ⟨schema_idFields_nodup hs, fun e => ?_⟩
    rw [schema_idFields hs, h2]
    exact ⟨fun he => .inr ⟨rfl, hno, he⟩, fun he => he.elim (fun hx => absurd hx (hno e)) fun hx => hx.2.2⟩
  · rename_i hc
    refine ⟨hown, fun e => ?_⟩
    rw [hm]
    refine ⟨.inl, fun he => he.elim id ?_⟩
    rintro ⟨h2, hno, _⟩
    refine absurd ?_ hc
    have h1 : n.idFields = [] := List.eq_nil_iff_forall_not_mem.2 fun x hx => hno x (h2 ▸ (hm x).1 hx)
    simp [h1, (node_name hs h).2 h2]

/-- The messages that decide on the enumerators. -/
theorem msgIdMessages_spec {s : Schema} (hs : SchemaInv s) {n : GNs} (h : n ∈ allNsOf (buildSchema s)) :
    Listing (MessageFor s n.path) (msgIdMessages (buildSchema s) n) := by
  have hown := listed_spec hs h 0 .every .all
  have hlist : listed 0 n .every .all = n.sortedMessages := by
    unfold listed
    rw [List.filter_eq_self]
    intro a _
    rfl
  rw [hlist] at hown
  have hm : ∀ e, e ∈ n.sortedMessages ↔ e ∈ s.messages ∧ NsInside n.path e.1 := fun e => by
    rw [hown.exact]
    exact ⟨fun hx => ⟨hx.1, hx.2.1⟩, fun hx => ⟨hx.1, hx.2, trivial, trivial⟩⟩
  unfold msgIdMessages
  split
  · rename_i hc
    obtain ⟨h1, h2⟩ := Bool.and_eq_true_iff.1 hc
    have h1 : n.sortedMessages = [] := by simpa using h1
    have h2 : n.path = [] := (node_name hs h).1 (by simpa using h2)
    have hno : ∀ x ∈ s.messages, x.1 ≠ [] := fun x hx h0 => by
      have := (hm x).2 ⟨hx, by unfold NsInside; rw [if_pos h2]; exact h0⟩
      rw [h1] at this; cases this
    refine ⟨fun e => ?_, (sortBy_perm _ _).nodup_iff.2 (schema_messages_nodup hs), key_sorted _⟩
    rw [mem_sortBy, show e = (e.1, e.2) from rfl, schema_messages hs]
    unfold MessageFor
    constructor
    · exact fun he => .inr ⟨h2, hno, he⟩
    · rintro (⟨he, _⟩ | ⟨_, _, he⟩) <;> exact he
  · rename_i hc
    refine ⟨fun e => ?_, hown.once, hown.ascending⟩
    rw [hm]
    unfold MessageFor
    refine ⟨.inl, fun he => he.elim id ?_⟩
    rintro ⟨h2, hno, _⟩
    refine absurd ?_ hc
    have h1 : n.sortedMessages = [] := List.eq_nil_iff_forall_not_mem.2 fun x hx => by
      obtain ⟨ha, hb⟩ := (hm x).1 hx
      unfold NsInside at hb
      rw [if_pos h2] at hb
      exact hno x ha hb
    simp [h1, (node_name hs h).2 h2]

end Commsdsl.Gen
