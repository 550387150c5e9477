import Verif.Spec.GenMsgs
import Verif.Lemmas.GenSchema
import Verif.Lemmas.Sort
import Verif.Lemmas.Text
/-!
# Lemmas on lists of messages and maps by id
-/
namespace Commsdsl.Gen
open Commsdsl Text Fld Msg Frm Proto Spec

/-! ## The namespaces of the tree -/

theorem allNsOf_mem (l : List GNs) (n : GNs) : n ∈ allNsOf l ↔ ∃ x ∈ l, n ∈ x.allNs := by
  induction l with
  | nil => simp [allNsOf]
  | cons x l ih => rw [allNsOf, List.mem_append, ih]; simp

theorem ns_nodes (s : Schema) (d : Nat) : ∀ (path : Path) (n : GNs), n ∈ (buildNs s d path).allNs →
    ∃ d' r, n = buildNs s d' (path ++ r) ∧ d' + r.length = d ∧ (r ≠ [] → path ++ r ∈ s.nss) := by
  induction d with
  | zero =>
    intro path n h
    rw [buildNs, GNs.allNs, allNsOf, List.nil_append, List.mem_singleton] at h
    exact ⟨0, [], by rw [h, List.append_nil, buildNs], rfl, fun h => absurd rfl h⟩
  | succ d ih =>
    intro path n h
    rw [buildNs, GNs.allNs, List.mem_append, allNsOf_mem] at h
    rcases h with ⟨x, hx, h⟩ | h
    · obtain ⟨y, hy, rfl⟩ := List.mem_map.1 hx
      obtain ⟨d', r, rfl, hd, hr⟩ := ih _ _ h
      refine ⟨d', y :: r, by simp, by simp; omega, ?_⟩
      intro _
      by_cases hr0 : r = []
      · subst hr0
        exact (subNs_mem _ _ _).1 hy
      · simpa using hr hr0
    · rw [List.mem_singleton] at h
      exact ⟨d + 1, [], by rw [h, List.append_nil, buildNs], rfl, fun h => absurd rfl h⟩

/-- The namespaces that are written, with the depth that is left. -/
theorem schema_nodes {s : Schema} {n : GNs} (h : n ∈ allNsOf (buildSchema s)) :
    ∃ d q, n = buildNs s d q ∧ q ∈ s.nss ∧ (q = [] ∧ d = 0 ∨ q ≠ [] ∧ nsDepth s.nss ≤ d + q.length) := by
  rw [allNsOf_mem] at h
  obtain ⟨x, hx, h⟩ := h
  unfold buildSchema at hx
  rcases List.mem_append.1 hx with hx | hx
  · split at hx
    · rename_i hc
      rw [List.mem_singleton] at hx
      subst hx
      rw [buildNs, GNs.allNs, allNsOf, List.nil_append, List.mem_singleton] at h
      exact ⟨0, [], by rw [h, buildNs], by simpa using hc, .inl ⟨rfl, rfl⟩⟩
    · cases hx
  · obtain ⟨y, hy, rfl⟩ := List.mem_map.1 hx
    obtain ⟨d', r, rfl, hd, hr⟩ := ns_nodes s _ _ _ h
    refine ⟨d', [y] ++ r, rfl, ?_, .inr ⟨by simp, by simp; omega⟩⟩
    by_cases hr0 : r = []
    · subst hr0
      exact (subNs_mem _ _ _).1 hy
    · exact hr hr0

theorem self_mem (n : GNs) : n ∈ n.allNs := by
  cases n; rw [GNs.allNs]; simp

theorem ns_reaches (s : Schema) (hu : ∀ q x, q ++ [x] ∈ s.nss → q ≠ [] → q ∈ s.nss) (r : Path) : ∀ (d : Nat) (path : Path), r.length ≤ d → path ≠ [] →
    path ++ r ∈ s.nss → buildNs s (d - r.length) (path ++ r) ∈ (buildNs s d path).allNs := by
  induction r with
  | nil => intro d path _ _ _; rw [List.append_nil]; exact self_mem _
  | cons x r ih =>
    intro d path hl hne hmem
    obtain ⟨d, rfl⟩ : ∃ e, d = e + 1 := ⟨d - 1, by simp at hl; omega⟩
    rw [buildNs.eq_2, GNs.allNs]
    refine List.mem_append.2 (.inl ((allNsOf_mem _ _).2 ⟨buildNs s d (path ++ [x]), List.mem_map.2 ⟨x, (subNs_mem _ _ _).2 ?_, rfl⟩, ?_⟩))
    · exact nsUp_prefix hu (path ++ [x]) r (by simp) (by simpa using hmem)
    · have h := ih d (path ++ [x]) (by simp at hl; omega) (by simp) (by simpa using hmem)
      simpa using h

/-- Every namespace of the schema is written. -/
theorem schema_reaches {s : Schema} (hu : ∀ q x, q ++ [x] ∈ s.nss → q ≠ [] → q ∈ s.nss) {q : Path} (hq : q ∈ s.nss) :
    ∃ n ∈ allNsOf (buildSchema s), n.path = q := by
  cases q with
  | nil =>
    refine ⟨buildNs s 0 [], (allNsOf_mem _ _).2 ⟨buildNs s 0 [], ?_, self_mem _⟩, buildNs_path _ _ _⟩
    unfold buildSchema
    rw [if_pos (by simpa using hq)]
    simp
  | cons x r =>
    refine ⟨_, (allNsOf_mem _ _).2 ⟨buildNs s (nsDepth s.nss) [x], ?_, ns_reaches s hu r _ _ ?_ (by simp) (by simpa using hq)⟩, buildNs_path _ _ _⟩
    · unfold buildSchema
      exact List.mem_append.2 (.inr (List.mem_map.2 ⟨x, (subNs_mem _ _ _).2 (nsUp_prefix hu [x] r (by simp) (by simpa using hq)), rfl⟩))
    · have := le_nsDepth hq; simp at this; omega

/-! ## The messages of a namespace, each once -/

theorem ns_nodup {s : Schema} (hs : SchemaInv s) (d : Nat) : ∀ path : Path, (buildNs s d path).allMessages.Nodup := by
  have own : ∀ path : Path, ((elemsAt Message.name s.messages path).map fun m => (path, m)).Nodup := by
    intro path
    unfold List.Nodup
    rw [List.pairwise_map]
    refine (elemsAt_sorted Message.name s.messages hs.messages.2 path).imp ?_
    intro a b hab he
    simp only [Prod.mk.injEq, true_and] at he
    subst he
    exact str_irrefl _ hab
  induction d with
  | zero =>
    intro path
    rw [buildNs, GNs.allMessages, allMessagesOf, List.nil_append]
    exact own path
  | succ d ih =>
    intro path
    rw [buildNs, GNs.allMessages, List.nodup_append]
    refine ⟨?_, own path, ?_⟩
    · have hsort := subNs_sorted s.nss path
      generalize subNs s.nss path = xs at hsort
      induction xs with
      | nil => simp [allMessagesOf]
      | cons x xs ihx =>
        rw [List.map_cons, allMessagesOf, List.nodup_append]
        rw [List.pairwise_cons] at hsort
        refine ⟨ih _, ihx hsort.2, ?_⟩
        rintro ⟨q, m⟩ ha b hb rfl
        rw [allMessagesOf_mem] at hb
        obtain ⟨n, hn, hb⟩ := hb
        obtain ⟨y, hy, rfl⟩ := List.mem_map.1 hn
        obtain ⟨_, r1, h1, _⟩ := (ns_messages hs _ _ _ _).1 ha
        obtain ⟨_, r2, h2, _⟩ := (ns_messages hs _ _ _ _).1 hb
        rw [h1] at h2
        have : x = y := by simp at h2; exact h2.1
        subst this
        exact str_irrefl _ (hsort.1 _ hy)
    · rintro ⟨q, m⟩ ha b hb rfl
      rw [allMessagesOf_mem] at ha
      obtain ⟨n, hn, ha⟩ := ha
      obtain ⟨y, hy, rfl⟩ := List.mem_map.1 hn
      obtain ⟨_, r1, h1, _⟩ := (ns_messages hs _ _ _ _).1 ha
      obtain ⟨m', _, h2⟩ := List.mem_map.1 hb
      have := congrArg Prod.fst h2
      simp only at this
      rw [h1] at this
      simp at this

/-- The order of the sorted messages. -/
def KeyLe (a b : Path × Message) : Prop := a.2.id < b.2.id ∨ a.2.id = b.2.id ∧ a.2.order ≤ b.2.order

theorem key_sorted (l : List (Path × Message)) : (sortBy msgKeyLt l).Pairwise KeyLe := by
  apply sortBy_pairwise _ (fun _ => True)
  · intro a b c _ _ _ h1 h2
    unfold KeyLe at *
    omega
  · intro a b _ _ h
    unfold msgKeyLt at h
    unfold KeyLe
    split at h
    · exact .inl (of_decide_eq_true h)
    · rename_i hn
      have := of_decide_eq_true h
      omega
  · intro a b _ _ h
    unfold msgKeyLt at h
    unfold KeyLe
    split at h
    · rename_i hn
      have := of_decide_eq_false h
      omega
    · rename_i hn
      have := of_decide_eq_false h
      omega
  · simp

theorem node_messages {s : Schema} (hs : SchemaInv s) {n : GNs} (h : n ∈ allNsOf (buildSchema s)) (e : Path × Message) :
    e ∈ n.allMessages ↔ e ∈ s.messages ∧ NsInside n.path e.1 := by
  obtain ⟨d, q, rfl, hq, hd⟩ := schema_nodes h
  obtain ⟨p, m⟩ := e
  rw [ns_messages hs, buildNs_path]
  unfold NsInside
  constructor
  · rintro ⟨hm, r, rfl, hr⟩
    refine ⟨hm, ?_⟩
    rcases hd with ⟨rfl, rfl⟩ | ⟨hne, _⟩
    · rw [if_pos rfl]
      simpa using hr
    · rw [if_neg hne]
      exact ⟨r, rfl⟩
  · rintro ⟨hm, hi⟩
    refine ⟨hm, ?_⟩
    rcases hd with ⟨rfl, rfl⟩ | ⟨hne, hdep⟩
    · rw [if_pos rfl] at hi
      exact ⟨[], by simpa using hi, by simp⟩
    · rw [if_neg hne] at hi
      obtain ⟨r, rfl⟩ := hi
      refine ⟨r, rfl, ?_⟩
      have := le_nsDepth (hs.messages.1 _ hm).1
      simp at this
      omega

theorem side_iff (side : Side) (m : Message) : side.wants m = true ↔ ForSide side m := by
  cases side <;> simp only [Side.wants, ForSide]
  · cases m.sender <;> simp
  · cases m.sender <;> simp

theorem sel_iff (i : Nat) (sel : Sel) (e : Path × Message) : sel.wants i e = true ↔ ForSel i sel e := by
  cases sel with
  | every => simp [Sel.wants, ForSel]
  | platform p => simp [Sel.wants, ForSel, supports]
  | bundle b ms => simp [Sel.wants, ForSel]

theorem node_nodup {s : Schema} (hs : SchemaInv s) {n : GNs} (h : n ∈ allNsOf (buildSchema s)) : n.allMessages.Nodup := by
  obtain ⟨d, q, rfl, _⟩ := schema_nodes h
  exact ns_nodup hs d q

/-- The messages of a file are those it is about. -/
theorem listed_spec {s : Schema} (hs : SchemaInv s) {n : GNs} (h : n ∈ allNsOf (buildSchema s)) (i : Nat) (sel : Sel) (side : Side) :
    Listing (Meant s i n.path sel side) (listed i n sel side) := by
  unfold listed GNs.sortedMessages
  refine ⟨?_, ?_, ?_⟩
  · intro e
    rw [List.mem_filter, mem_sortBy, node_messages hs h, Bool.and_eq_true, side_iff, sel_iff]
    unfold Meant
    exact ⟨fun ⟨⟨a, b⟩, c, d⟩ => ⟨a, b, c, d⟩, fun ⟨a, b, c, d⟩ => ⟨⟨a, b⟩, c, d⟩⟩
  · exact ((sortBy_perm _ _).nodup_iff.2 (node_nodup hs h)).filter _
  · exact (key_sorted _).filter _

theorem listing_withId {P : Path × Message → Prop} {l : List (Path × Message)} (h : Listing P l) (id : Nat) :
    Listing (fun e => P e ∧ e.2.id = id) (l.filter fun e => decide (e.2.id = id)) := by
  refine ⟨?_, h.once.filter _, h.ascending.filter _⟩
  intro e
  rw [List.mem_filter, h.exact]
  simp

theorem nodup_length_le {α : Type} {l l' : List α} (h : l.Nodup) (hs : ∀ a ∈ l, a ∈ l') : l.length ≤ l'.length := by
  induction l generalizing l' with
  | nil => simp
  | cons a l ih =>
    rw [List.nodup_cons] at h
    obtain ⟨x, y, rfl⟩ := List.append_of_mem (hs a (by simp))
    have := ih (l' := x ++ y) h.2 (by
      intro b hb
      have := hs b (by simp [hb])
      simp only [List.mem_append, List.mem_cons] at this ⊢
      rcases this with h1 | h1 | h1
      · exact .inl h1
      · subst h1; exact absurd hb h.1
      · exact .inr h1)
    simp at this ⊢
    omega

/-! ## The map -/

theorem addToMap_keys {α : Type} (id : Nat) (m : α) (l : List (Nat × List α)) (k : Nat) :
    k ∈ (addToMap id m l).map Prod.fst ↔ k = id ∨ k ∈ l.map Prod.fst := by
  induction l with
  | nil => simp [addToMap]
  | cons e r ih =>
    obtain ⟨k', g⟩ := e
    unfold addToMap
    split
    · rename_i h; subst h; simp
    split
    · simp
    · rw [List.map_cons, List.mem_cons, ih]
      simp only [List.map_cons, List.mem_cons]
      constructor
      · rintro (h | h | h) <;> simp [h]
      · rintro (h | h | h) <;> simp [h]

theorem addToMap_spec {α : Type} (id : Nat) (m : α) (l : List (Nat × List α)) (hl : l.Pairwise fun a b => a.1 < b.1) :
    (addToMap id m l).Pairwise (fun a b => a.1 < b.1) ∧
    ∀ k g, (k, g) ∈ addToMap id m l ↔ (k ≠ id ∧ (k, g) ∈ l) ∨ (k = id ∧ ((∃ g', (k, g') ∈ l ∧ g = g' ++ [m]) ∨ ((∀ g', (k, g') ∉ l) ∧ g = [m]))) := by
  induction l with
  | nil =>
    refine ⟨by simp [addToMap], ?_⟩
    intro k g
    simp [addToMap]
  | cons e r ih =>
    obtain ⟨k', g0⟩ := e
    rw [List.pairwise_cons] at hl
    obtain ⟨ih1, ih2⟩ := ih hl.2
    have hlt : ∀ k g, (k, g) ∈ r → k' < k := fun k g h => hl.1 _ h
    unfold addToMap
    split
    · rename_i h
      subst h
      refine ⟨List.pairwise_cons.2 ⟨hl.1, hl.2⟩, ?_⟩
      intro k g
      constructor
      · intro h
        rcases List.mem_cons.1 h with h | h
        · simp only [Prod.mk.injEq] at h
          obtain ⟨rfl, rfl⟩ := h
          exact .inr ⟨rfl, .inl ⟨g0, by simp, rfl⟩⟩
        · have := hlt _ _ h
          exact .inl ⟨by omega, by simp [h]⟩
      · rintro (⟨hk, h⟩ | ⟨rfl, ⟨g', h, rfl⟩ | ⟨h, rfl⟩⟩)
        · rcases List.mem_cons.1 h with h | h
          · simp only [Prod.mk.injEq] at h; exact absurd h.1 hk
          · simp [h]
        · rcases List.mem_cons.1 h with h | h
          · simp only [Prod.mk.injEq, true_and] at h; subst h; simp
          · have := hlt _ _ h; omega
        · exact absurd (by simp) (h g0)
    split
    · rename_i h1 h2
      refine ⟨List.pairwise_cons.2 ⟨?_, List.pairwise_cons.2 hl⟩, ?_⟩
      · rintro ⟨k, g⟩ h
        rcases List.mem_cons.1 h with h | h
        · simp only [Prod.mk.injEq] at h; simp only; omega
        · have := hlt _ _ h; simp only; omega
      · intro k g
        have hno : ∀ g', (id, g') ∉ (k', g0) :: r := by
          intro g' h
          rcases List.mem_cons.1 h with h | h
          · simp only [Prod.mk.injEq] at h; omega
          · have := hlt _ _ h; omega
        constructor
        · intro h
          rcases List.mem_cons.1 h with h | h
          · simp only [Prod.mk.injEq] at h
            obtain ⟨rfl, rfl⟩ := h
            exact .inr ⟨rfl, .inr ⟨hno, rfl⟩⟩
          · exact .inl ⟨fun hk => hno g (hk ▸ h), h⟩
        · rintro (⟨hk, h⟩ | ⟨rfl, ⟨g', h, rfl⟩ | ⟨h, rfl⟩⟩)
          · exact List.mem_cons_of_mem _ h
          · exact absurd h (hno _)
          · simp
    · rename_i h1 h2
      refine ⟨List.pairwise_cons.2 ⟨?_, ih1⟩, ?_⟩
      · rintro ⟨k, g⟩ h
        have : k ∈ (addToMap id m r).map Prod.fst := List.mem_map.2 ⟨_, h, rfl⟩
        rw [addToMap_keys] at this
        rcases this with rfl | h
        · simp only; omega
        · obtain ⟨⟨k2, g'⟩, h2, he⟩ := List.mem_map.1 h
          simp only at he
          subst he
          exact hlt _ _ h2
      · intro k g
        rw [List.mem_cons, ih2]
        constructor
        · rintro (h | ⟨hk, h⟩ | ⟨rfl, ⟨g', h, rfl⟩ | ⟨h, rfl⟩⟩)
          · simp only [Prod.mk.injEq] at h
            obtain ⟨rfl, rfl⟩ := h
            exact .inl ⟨by omega, by simp⟩
          · exact .inl ⟨hk, by simp [h]⟩
          · exact .inr ⟨rfl, .inl ⟨g', by simp [h], rfl⟩⟩
          · refine .inr ⟨rfl, .inr ⟨?_, rfl⟩⟩
            intro g' h'
            rcases List.mem_cons.1 h' with h' | h'
            · simp only [Prod.mk.injEq] at h'; omega
            · exact h _ h'
        · rintro (⟨hk, h⟩ | ⟨rfl, ⟨g', h, rfl⟩ | ⟨h, rfl⟩⟩)
          · rcases List.mem_cons.1 h with h | h
            · exact .inl h
            · exact .inr (.inl ⟨hk, h⟩)
          · rcases List.mem_cons.1 h with h | h
            · simp only [Prod.mk.injEq] at h; omega
            · exact .inr (.inr ⟨rfl, .inl ⟨g', h, rfl⟩⟩)
          · exact .inr (.inr ⟨rfl, .inr ⟨fun g' h' => h g' (by simp [h']), rfl⟩⟩)

/-- The messages with the same id, in the order of the list. -/
theorem mapById_spec (l : List (Path × Message)) : (mapById l).Pairwise (fun a b => a.1 < b.1) ∧
    ∀ k g, (k, g) ∈ mapById l ↔ g ≠ [] ∧ g = l.filter fun e => decide (e.2.id = k) := by
  have gen : ∀ (l pre : List (Path × Message)) (acc : List (Nat × List (Path × Message))), acc.Pairwise (fun a b => a.1 < b.1) →
      (∀ k g, (k, g) ∈ acc ↔ g ≠ [] ∧ g = pre.filter fun e => decide (e.2.id = k)) →
      (l.foldl (fun acc e => addToMap e.2.id e acc) acc).Pairwise (fun a b => a.1 < b.1) ∧
      ∀ k g, (k, g) ∈ l.foldl (fun acc e => addToMap e.2.id e acc) acc ↔ g ≠ [] ∧ g = (pre ++ l).filter fun e => decide (e.2.id = k) := by
    intro l
    induction l with
    | nil => intro pre acc h1 h2; simpa using ⟨h1, h2⟩
    | cons e l ih =>
      intro pre acc h1 h2
      rw [List.foldl_cons, show pre ++ e :: l = (pre ++ [e]) ++ l by simp]
      obtain ⟨ha, hb⟩ := addToMap_spec e.2.id e acc h1
      refine ih _ _ ha ?_
      intro k g
      rw [hb, List.filter_append]
      by_cases hk : k = e.2.id
      · subst hk
        simp only [ne_eq, not_true_eq_false, false_and, true_and, false_or, List.filter_cons, decide_true, if_true, List.filter_nil]
        constructor
        · rintro (⟨g', h, rfl⟩ | ⟨h, rfl⟩)
          · obtain ⟨_, rfl⟩ := (h2 _ _).1 h
            exact ⟨by simp, rfl⟩
          · refine ⟨by simp, ?_⟩
            have : pre.filter (fun x => decide (x.2.id = e.2.id)) = [] := by
              false_or_by_contra
              rename_i hne
              exact h _ ((h2 _ _).2 ⟨hne, rfl⟩)
            rw [this, List.nil_append]
        · rintro ⟨_, rfl⟩
          by_cases hp : pre.filter (fun x => decide (x.2.id = e.2.id)) = []
          · refine .inr ⟨?_, by rw [hp, List.nil_append]⟩
            intro g' h
            obtain ⟨hne, rfl⟩ := (h2 _ _).1 h
            exact hne hp
          · exact .inl ⟨_, (h2 _ _).2 ⟨hp, rfl⟩, rfl⟩
      · have hf : [e].filter (fun x => decide (x.2.id = k)) = [] := by
          rw [List.filter_cons, if_neg (by simpa using fun h : e.2.id = k => hk h.symm), List.filter_nil]
        rw [hf, List.append_nil, ← h2]
        simp [hk]
  have := gen l [] [] List.Pairwise.nil (by intro k g; simp)
  simpa [mapById] using this

theorem mapRes_ok {α β : Type} {f : α → Res β} {l : List α} {r : List β} (h : mapRes f l = .ok r) :
    (∀ b, b ∈ r ↔ ∃ a ∈ l, f a = .ok b) ∧ r.length = l.length := by
  induction l generalizing r with
  | nil => have := Res.ok.inj h; subst this; simp
  | cons a l ih =>
    unfold mapRes at h
    simp only [Res.bind_eq_ok, Res.pure_eq] at h
    obtain ⟨b, hb, r', hr, he⟩ := h
    have := Res.ok.inj he
    subst this
    obtain ⟨h1, h2⟩ := ih hr
    refine ⟨?_, by simp [h2]⟩
    intro x
    rw [List.mem_cons, h1]
    constructor
    · rintro (rfl | ⟨y, hy, h⟩)
      · exact ⟨a, by simp, hb⟩
      · exact ⟨y, by simp [hy], h⟩
    · rintro ⟨y, hy, h⟩
      rcases List.mem_cons.1 hy with rfl | hy
      · rw [hb] at h; exact .inl (Res.ok.inj h).symm
      · exact .inr ⟨y, hy, h⟩

theorem mapRes_total {α β : Type} {f : α → Res β} {l : List α} (h : ∀ a ∈ l, ∃ b, f a = .ok b) : ∃ r, mapRes f l = .ok r := by
  induction l with
  | nil => exact ⟨[], rfl⟩
  | cons a l ih =>
    obtain ⟨b, hb⟩ := h a (by simp)
    obtain ⟨r, hr⟩ := ih fun x hx => h x (by simp [hx])
    exact ⟨b :: r, by unfold mapRes; rw [hb, Res.bind_ok, hr, Res.bind_ok, Res.pure_eq]⟩

theorem indexed_mem {α : Type} (l : List α) (i j : Nat) (a : α) : (j, a) ∈ indexed i l ↔ ∃ k, j = i + k ∧ l[k]? = some a := by
  induction l generalizing i with
  | nil => simp [indexed]
  | cons x l ih =>
    rw [indexed, List.mem_cons, ih]
    constructor
    · rintro (h | ⟨k, rfl, h⟩)
      · simp only [Prod.mk.injEq] at h
        exact ⟨0, by omega, by simp [h.2]⟩
      · exact ⟨k + 1, by omega, by simpa using h⟩
    · rintro ⟨k, rfl, h⟩
      cases k with
      | zero => simp at h; exact .inl (by simp [h])
      | succ k => exact .inr ⟨k, by omega, by simpa using h⟩

/-! ## Texts of numbers have one value -/

theorem takeWhile_self {α : Type} {p : α → Bool} {l : List α} (h : ∀ a ∈ l, p a = true) : l.takeWhile p = l := by
  induction l with
  | nil => rfl
  | cons a l ih => rw [List.takeWhile_cons, if_pos (h a (by simp)), ih fun x hx => h x (by simp [hx])]

theorem denotes_chars {s : Str} {n : Nat} (h : DenotesU s n) : ∀ c ∈ s, c ∈ "0123456789abcdefABCDEFxX".toList := by
  cases h with
  | dec c cs _ h =>
    intro d hd
    have h := h d hd
    unfold DecDigit at h
    revert h; simp; intro h
    rcases h with h | h | h | h | h | h | h | h | h | h <;> simp [h]
  | oct cs h =>
    intro d hd
    rcases List.mem_cons.1 hd with rfl | hd
    · decide
    have h := h d hd
    unfold OctDigit at h
    revert h; simp; intro h
    rcases h with h | h | h | h | h | h | h | h <;> simp [h]
  | hex x cs hx _ h =>
    intro d hd
    rcases List.mem_cons.1 hd with rfl | hd
    · decide
    rcases List.mem_cons.1 hd with rfl | hd
    · rcases hx with rfl | rfl <;> decide
    have h := h d hd
    unfold HexDigit at h
    revert h; simp; intro h
    rcases h with h | h | h | h | h | h | h | h | h | h | h | h | h | h | h | h | h | h | h | h | h | h <;> simp [h]

theorem denotes_one {s : Str} {n m : Nat} (h : DenotesU s n) (h' : DenotesU s m) : n = m := by
  have h1 := scanNumber_plain h
  have h2 := scanNumber_plain h'
  rw [h1] at h2
  simpa using h2

theorem suffix_cases {b : Bool} {suffix : Str} {p : Bool × Nat → Bool} {x : Bool × Nat} (h : (litTypes b suffix).find? p = some x) :
    suffix = [] ∨ suffix = "U".toList ∨ suffix = "LL".toList ∨ suffix = "ULL".toList := by
  unfold litTypes at h
  split at h
  · left; assumption
  split at h
  · right; left; assumption
  split at h
  · right; right; left; assumption
  split at h
  · right; right; right; assumption
  · simp at h

/-- The digits of a literal are what is before the suffix. -/
theorem lit_split {s : Str} {n : Nat} {sg : Bool} (h : CppLit s n sg) :
    DenotesU (s.takeWhile fun c => c != 'U' && c != 'L') n ∧ ∀ c ∈ s, c ∈ "0123456789abcdefABCDEFxXUL".toList := by
  obtain ⟨ds, suf, mx, rfl, hd, hf⟩ := h
  have hc := denotes_chars hd
  have hsuf := suffix_cases hf
  constructor
  · have h1 : ds.takeWhile (fun c => c != 'U' && c != 'L') = ds := by
      apply takeWhile_self
      intro c hc'
      have := hc c hc'
      revert this; simp
      intro h
      constructor
      · rintro rfl; simp at h
      · rintro rfl; simp at h
    rw [List.takeWhile_append, h1, if_pos rfl]
    have h2 : suf.takeWhile (fun c => c != 'U' && c != 'L') = [] := by
      rcases hsuf with rfl | rfl | rfl | rfl <;> decide
    rw [h2, List.append_nil]
    exact hd
  · intro c hc'
    rcases List.mem_append.1 hc' with h | h
    · have := hc c h
      simp at this ⊢
      rcases this with h | h | h | h | h | h | h | h | h | h | h | h | h | h | h | h | h | h | h | h | h | h | h | h <;> simp [h]
    · rcases hsuf with rfl | rfl | rfl | rfl <;> simp at h ⊢
      · simp [h]
      · simp [h]
      · rcases h with h | h <;> simp [h]

/-- A C++ expression has one value. -/
theorem expr_one {s : Str} {v w : Int} (h : CppExpr s v) (h' : CppExpr s w) : v = w := by
  have neg : ∀ t n, ¬ CppLit ('-' :: t) n true ∧ ¬ CppLit ('-' :: t) n false := by
    intro t n
    constructor <;>
    · intro hl
      have := (lit_split hl).2 '-' (by simp)
      revert this; decide
  rcases h with ⟨n, sg, hl, rfl⟩ | ⟨t, n, rfl, hl, rfl⟩
  · rcases h' with ⟨m, sg', hl', rfl⟩ | ⟨t, m, rfl, hl', rfl⟩
    · rw [denotes_one (lit_split hl).1 (lit_split hl').1]
    · cases sg
      · exact absurd hl (neg _ _).2
      · exact absurd hl (neg _ _).1
  · rcases h' with ⟨m, sg', hl', rfl⟩ | ⟨t', m, he, hl', rfl⟩
    · cases sg'
      · exact absurd hl' (neg _ _).2
      · exact absurd hl' (neg _ _).1
    · simp only [List.cons.injEq, true_and] at he
      subst he
      rw [denotes_one (lit_split hl).1 (lit_split hl').1]

theorem expr_blank {s : Str} {v : Int} (h : CppExpr s v) : ' ' ∉ s := by
  rcases h with ⟨n, sg, hl, rfl⟩ | ⟨t, n, rfl, hl, rfl⟩
  · intro hm; have := (lit_split hl).2 _ hm; revert this; decide
  · intro hm
    rcases List.mem_cons.1 hm with h | h
    · revert h; decide
    · have := (lit_split hl).2 _ h; revert this; decide

theorem label_takes {text : Str} {v : Int} (h : LabelIs text v) : CppExpr (text.takeWhile fun c => c != ' ') v := by
  obtain ⟨e, c, rfl, he, hc⟩ := h
  have hb := expr_blank he
  have h1 : e.takeWhile (fun c => c != ' ') = e := by
    apply takeWhile_self
    intro d hd
    simp only [bne_iff_ne, ne_eq]
    rintro rfl
    exact hb hd
  rw [List.takeWhile_append, h1, if_pos rfl]
  have h2 : c.takeWhile (fun c => c != ' ') = [] := by
    rcases hc with rfl | ⟨t, rfl, _⟩
    · rfl
    · simp
  rw [h2, List.append_nil]
  exact he

/-- A label has one value. -/
theorem label_one {text : Str} {v w : Int} (h : LabelIs text v) (h' : LabelIs text w) : v = w := expr_one (label_takes h) (label_takes h')

end Commsdsl.Gen
