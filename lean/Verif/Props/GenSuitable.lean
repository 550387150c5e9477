import Verif.Spec.GenSuitable
import Verif.Lemmas.GenMsgId
import Verif.Props.GenMsgNames
/-!
# The interface a namespace uses: C125
-/
namespace Commsdsl.Props
open Commsdsl Text Fld Msg Frm Proto Spec Gen ProtoProofs

namespace SuitProofs

/-! ## Chains of namespaces -/

theorem chainsOf_mem (up : List GNs) (l : List GNs) (c : List GNs) : c ∈ chainsOf up l ↔ ∃ n ∈ l, c ∈ n.chains up := by
  induction l with
  | nil => simp [chainsOf]
  | cons x l ih => rw [chainsOf, List.mem_append, ih]; simp

/-- What the chain of a namespace in the namespace `path` looks like. -/
structure ChainIn (s : Schema) (path q : Path) (l : List GNs) : Prop where
  head : l.head?.map GNs.path = some q
  within : path <+: q
  nodes : ∀ n ∈ l, ∃ d, n = buildNs s d n.path
  paths : ∀ a, a ∈ l.map GNs.path ↔ path <+: a ∧ a <+: q
  order : (l.map GNs.path).Pairwise fun a b => b.length < a.length

theorem prefix_antisymm {a b : Path} (h : a <+: b) (h' : b <+: a) : a = b := h.eq_of_length (Nat.le_antisymm h.length_le h'.length_le)

theorem chain_self (s : Schema) (d : Nat) (path : Path) : ChainIn s path path [buildNs s d path] := by
  refine ⟨by simp [buildNs_path], List.prefix_refl _, ?_, ?_, by simp⟩
  · intro n hn
    rw [List.mem_singleton] at hn
    subst hn
    exact ⟨d, by rw [buildNs_path]⟩
  · intro a
    simp only [List.map_cons, List.map_nil, List.mem_singleton, buildNs_path]
    exact ⟨fun h => by subst h; exact ⟨List.prefix_refl _, List.prefix_refl _⟩, fun h => prefix_antisymm h.2 h.1⟩

theorem prefix_snoc {path a : Path} (h : path <+: a) (hne : a ≠ path) : ∃ x, path ++ [x] <+: a := by
  obtain ⟨r, rfl⟩ := h
  cases r with
  | nil => simp at hne
  | cons x r => exact ⟨x, r, by simp⟩

theorem snoc_unique {path q : Path} {x y : Str} (h : path ++ [x] <+: q) (h' : path ++ [y] <+: q) : x = y := by
  obtain ⟨r, rfl⟩ := h
  obtain ⟨r', h'⟩ := h'
  simpa using (List.cons.inj (by simpa using h' : y :: r' = x :: r)).1.symm

theorem chain_in (s : Schema) (d : Nat) : ∀ (path : Path) (up c : List GNs), c ∈ (buildNs s d path).chains up →
    ∃ l q, c = l ++ up ∧ ChainIn s path q l := by
  induction d with
  | zero =>
    intro path up c h
    have hc : c = buildNs s 0 path :: up := by
      rw [buildNs, GNs.chains, chainsOf, List.nil_append, List.mem_singleton] at h
      rw [h, buildNs]
    exact ⟨[buildNs s 0 path], path, by rw [hc]; rfl, chain_self s 0 path⟩
  | succ d ih =>
    intro path up c h
    rw [buildNs, GNs.chains, List.mem_append, chainsOf_mem] at h
    rcases h with ⟨n, hn, hc⟩ | h
    · obtain ⟨x, _, rfl⟩ := List.mem_map.1 hn
      rw [← buildNs.eq_2] at hc
      obtain ⟨l, q, rfl, hl⟩ := ih _ _ _ hc
      have hpq : path <+: q := List.IsPrefix.trans (List.prefix_append path [x]) hl.within
      refine ⟨l ++ [buildNs s (d + 1) path], q, by simp, ?_, hpq, ?_, ?_, ?_⟩
      · have := hl.head
        cases l with
        | nil => cases this
        | cons a l => simpa using this
      · intro n hn
        rcases List.mem_append.1 hn with hn | hn
        · exact hl.nodes n hn
        · exact (chain_self s (d + 1) path).nodes n hn
      · intro a
        rw [List.map_append, List.mem_append, hl.paths]
        simp only [List.map_cons, List.map_nil, List.mem_singleton, buildNs_path]
        constructor
        · rintro (⟨h1, h2⟩ | rfl)
          · exact ⟨List.IsPrefix.trans (List.prefix_append path [x]) h1, h2⟩
          · exact ⟨List.prefix_refl _, hpq⟩
        · rintro ⟨h1, h2⟩
          by_cases ha : a = path
          · exact .inr ha
          · obtain ⟨y, hy⟩ := prefix_snoc h1 ha
            have := snoc_unique (List.IsPrefix.trans hy h2) hl.within
            subst this
            exact .inl ⟨hy, h2⟩
      · rw [List.map_append, List.pairwise_append]
        refine ⟨hl.order, by simp, ?_⟩
        intro a ha b hb
        simp only [List.map_cons, List.map_nil, List.mem_singleton, buildNs_path] at hb
        subst hb
        have := ((hl.paths a).1 ha).1.length_le
        simp at this
        omega
    · have hc : c = buildNs s (d + 1) path :: up := by
        rw [List.mem_singleton] at h
        rw [h, buildNs]
      exact ⟨[buildNs s (d + 1) path], path, by rw [hc]; rfl, chain_self s (d + 1) path⟩

/-- The chains of a schema: the names of the namespaces around a namespace, the longest first. -/
theorem schema_chain {s : Schema} {c : List GNs} (h : c ∈ chainsOf [] (buildSchema s)) :
    ∃ q, c.head?.map GNs.path = some q ∧ (∀ n ∈ c, ∃ d, n = buildNs s d n.path) ∧ (∀ a, a ∈ c.map GNs.path ↔ a <+: q ∧ (a = [] → q = [])) ∧
      (c.map GNs.path).Pairwise fun a b => b.length < a.length := by
  rw [chainsOf_mem] at h
  obtain ⟨n, hn, hc⟩ := h
  rcases schema_tops hn with rfl | ⟨x, _, rfl⟩
  · rw [buildNs, GNs.chains, chainsOf, List.nil_append, List.mem_singleton] at hc
    rw [← buildNs.eq_1] at hc
    subst hc
    refine ⟨[], by simp [buildNs_path], ?_, ?_, by simp⟩
    · intro n hn
      rw [List.mem_singleton] at hn
      subst hn
      exact ⟨0, by rw [buildNs_path]⟩
    · intro a
      simp [buildNs_path]
  · obtain ⟨l, q, rfl, hl⟩ := chain_in s _ _ _ _ hc
    rw [List.append_nil]
    refine ⟨q, hl.head, hl.nodes, ?_, hl.order⟩
    intro a
    rw [hl.paths]
    constructor
    · rintro ⟨h1, h2⟩
      refine ⟨h2, ?_⟩
      rintro rfl
      simp at h1
    · rintro ⟨h1, h2⟩
      refine ⟨?_, h1⟩
      cases a with
      | nil =>
        have := h2 rfl
        subst this
        have := hl.within
        simp at this
      | cons y a =>
        have := List.IsPrefix.trans (⟨a, rfl⟩ : [y] <+: y :: a) h1
        have := snoc_unique (path := []) this hl.within
        subst this
        exact ⟨a, rfl⟩

theorem ns_has_chain (s : Schema) (hu : ∀ q x, q ++ [x] ∈ s.nss → q ≠ [] → q ∈ s.nss) (r : Path) : ∀ (d : Nat) (path : Path) (up : List GNs), r.length ≤ d → path ≠ [] →
    path ++ r ∈ s.nss → ∃ c ∈ (buildNs s d path).chains up, c.head?.map GNs.path = some (path ++ r) := by
  induction r with
  | nil =>
    intro d path up _ _ _
    refine ⟨buildNs s d path :: up, ?_, by simp [buildNs_path]⟩
    cases d <;> simp [buildNs, GNs.chains]
  | cons x r ih =>
    intro d path up hl hne hmem
    obtain ⟨d, rfl⟩ : ∃ e, d = e + 1 := ⟨d - 1, by simp at hl; omega⟩
    obtain ⟨c, hc, hh⟩ := ih d (path ++ [x]) (buildNs s (d + 1) path :: up) (by simp at hl; omega) (by simp) (by simpa using hmem)
    refine ⟨c, ?_, by simpa using hh⟩
    rw [buildNs.eq_2, GNs.chains]
    refine List.mem_append.2 (.inl ((chainsOf_mem _ _ _).2 ⟨buildNs s d (path ++ [x]), List.mem_map.2 ⟨x, (subNs_mem _ _ _).2 ?_, rfl⟩, ?_⟩))
    · exact nsUp_prefix hu (path ++ [x]) r (by simp) (by simpa using hmem)
    · rw [← buildNs.eq_2]; exact hc

/-- Every namespace has a chain. -/
theorem schema_has_chain {s : Schema} (hs : SchemaInv s) {q : Path} (hq : q ∈ s.nss) :
    ∃ c ∈ chainsOf [] (buildSchema s), c.head?.map GNs.path = some q := by
  rcases schema_top_of hs hq with ⟨rfl, hn⟩ | ⟨x, r, rfl, hr, hn⟩
  · exact ⟨[buildNs s 0 []], (chainsOf_mem _ _ _).2 ⟨_, hn, by simp [buildNs, GNs.chains, chainsOf]⟩, by simp [buildNs_path]⟩
  · obtain ⟨c, hc, hh⟩ := ns_has_chain s hs.nsUp r _ [x] [] hr (by simp) (by simpa using hq)
    exact ⟨c, (chainsOf_mem _ _ _).2 ⟨_, hn, hc⟩, by simpa using hh⟩

/-! ## Searching outwards -/

/-- The interfaces recorded in a namespace. -/
def ifacesAt (s : Schema) (q : Path) : List (Path × Interface) := (elemsAt Interface.name s.ifaces q).map fun f => (q, f)

theorem ifacesAt_mem {s : Schema} {q : Path} {e : Path × Interface} : e ∈ ifacesAt s q ↔ e ∈ s.ifaces ∧ e.1 = q := by
  unfold ifacesAt
  rw [List.mem_map]
  constructor
  · rintro ⟨f, hf, rfl⟩
    exact ⟨(elemsAt_mem _ _ _ _).1 hf, rfl⟩
  · rintro ⟨h, rfl⟩
    exact ⟨e.2, (elemsAt_mem _ _ _ _).2 h, rfl⟩

theorem global_ifaces {s : Schema} (hs : SchemaInv s) : globalIfaces (buildSchema s) = ifacesAt s [] := by
  unfold globalIfaces
  by_cases hg : [] ∈ s.nss
  · have hb : buildSchema s = buildNs s 0 [] :: (subNs s.nss []).map fun x => buildNs s (nsDepth s.nss) [x] := by
      unfold buildSchema
      rw [if_pos (by simpa using hg)]
      rfl
    rw [hb, allNsOf]
    have hself : (buildNs s 0 []).allNs = [buildNs s 0 []] := by rw [buildNs, GNs.allNs, allNsOf]; rfl
    rw [hself]
    have hname : (buildNs s 0 []).name.isEmpty = true := by rw [buildNs_name]; rfl
    rw [List.cons_append, List.find?_cons]
    simp only [hname]
    rw [buildNs, GNs.allInterfaces, allInterfacesOf, List.nil_append]
    rfl
  · have hf : (allNsOf (buildSchema s)).find? (fun n => n.name.isEmpty) = none := by
      rw [List.find?_eq_none]
      intro n hn hc
      have h0 := (node_name hs hn).1 (by simpa using hc)
      obtain ⟨d, q, rfl, hq, _⟩ := schema_nodes hn
      rw [buildNs_path] at h0
      subst h0
      exact hg hq
    rw [hf]
    simp only
    refine (List.eq_nil_iff_forall_not_mem.2 fun e he => ?_).symm
    obtain ⟨h1, h2⟩ := ifacesAt_mem.1 he
    have := (hs.ifaces.1 e h1).1
    rw [h2] at this
    exact hg this

theorem findSome_longest {α : Type} (f : Path → Option α) (l : List Path) (h : l.Pairwise fun a b => b.length < a.length) (e : α) :
    l.findSome? f = some e ↔ ∃ a ∈ l, f a = some e ∧ ∀ b ∈ l, (f b).isSome = true → b.length ≤ a.length := by
  induction l with
  | nil => simp
  | cons x l ih =>
    rw [List.pairwise_cons] at h
    rw [List.findSome?_cons]
    cases hx : f x with
    | some y =>
      simp only [Option.some.injEq]
      constructor
      · rintro rfl
        refine ⟨x, by simp, hx, fun b hb _ => ?_⟩
        rcases List.mem_cons.1 hb with rfl | hb
        · omega
        · exact Nat.le_of_lt (h.1 b hb)
      · rintro ⟨a, ha, hae, hmax⟩
        rcases List.mem_cons.1 ha with rfl | ha
        · rw [hx] at hae; exact Option.some.inj hae
        · have := h.1 a ha
          have := hmax x (by simp) (by rw [hx]; rfl)
          omega
    | none =>
      simp only
      rw [ih h.2]
      constructor
      · rintro ⟨a, ha, hae, hmax⟩
        refine ⟨a, by simp [ha], hae, fun b hb hs => ?_⟩
        rcases List.mem_cons.1 hb with rfl | hb
        · rw [hx] at hs; cases hs
        · exact hmax b hb hs
      · rintro ⟨a, ha, hae, hmax⟩
        rcases List.mem_cons.1 ha with rfl | ha
        · rw [hx] at hae; cases hae
        · exact ⟨a, ha, hae, fun b hb hs => hmax b (by simp [hb]) hs⟩

/-- Searching through the chain of a namespace, then in the global namespace. -/
theorem search_spec {α : Type} (f : Path → Option α) {q : Path} {l : List Path} (hl : ∀ a, a ∈ l ↔ a <+: q ∧ (a = [] → q = []))
    (ho : l.Pairwise fun a b => b.length < a.length) (e : α) :
    (l.findSome? f).or (f []) = some e ↔ ∃ a, a <+: q ∧ f a = some e ∧ ∀ b, b <+: q → (f b).isSome = true → b.length ≤ a.length := by
  rw [Option.or_eq_some_iff, findSome_longest f l ho]
  constructor
  · rintro (⟨a, ha, hae, hmax⟩ | ⟨hn, he⟩)
    · refine ⟨a, ((hl a).1 ha).1, hae, fun b hb hs => ?_⟩
      cases b with
      | nil => simp
      | cons y b => exact hmax _ ((hl _).2 ⟨hb, by simp⟩) hs
    · rw [List.findSome?_eq_none_iff] at hn
      refine ⟨[], List.nil_prefix, he, fun b hb hs => ?_⟩
      cases b with
      | nil => simp
      | cons y b => rw [hn _ ((hl _).2 ⟨hb, by simp⟩)] at hs; cases hs
  · rintro ⟨a, ha, hae, hmax⟩
    cases a with
    | nil =>
      by_cases hn : l.findSome? f = none
      · exact .inr ⟨hn, hae⟩
      · left
        obtain ⟨z, hz⟩ := Option.ne_none_iff_exists'.1 hn
        obtain ⟨b, hb, hbz, _⟩ := (findSome_longest f l ho z).1 hz
        have hb0 := hmax b ((hl b).1 hb).1 (by rw [hbz]; rfl)
        have : b = [] := List.length_eq_zero_iff.1 (by simpa using hb0)
        subst this
        exact ⟨[], hb, hae, fun c hc hs => hmax c ((hl c).1 hc).1 hs⟩
    | cons y a => exact .inl ⟨_, (hl _).2 ⟨ha, by simp⟩, hae, fun b hb hs => hmax b ((hl b).1 hb).1 hs⟩

theorem node_ifaces {s : Schema} {n : GNs} (h : ∃ d, n = buildNs s d n.path) : n.ifaces.map (fun f => (n.path, f)) = ifacesAt s n.path := by
  obtain ⟨d, hd⟩ := h
  have : n.ifaces = elemsAt Interface.name s.ifaces n.path := by
    conv => lhs; rw [hd]
    rw [buildNs_ifaces]
  rw [this]
  rfl

theorem nearest_eq {s : Schema} (hs : SchemaInv s) (u : IfaceUse) (i : Nat) (c : List GNs) (hc : ∀ n ∈ c, ∃ d, n = buildNs s d n.path) :
    u.nearest i (buildSchema s) c = ((c.map GNs.path).findSome? fun q => (ifacesAt s q).find? (u.isUsed i)).or ((ifacesAt s []).find? (u.isUsed i)) := by
  induction c with
  | nil => rw [IfaceUse.nearest, global_ifaces hs]; rfl
  | cons n c ih =>
    have ih := ih fun m hm => hc m (by simp [hm])
    rw [IfaceUse.nearest, List.map_cons, List.findSome?_cons]
    have hown : u.ownIface i n = (ifacesAt s n.path).find? (u.isUsed i) := by
      unfold IfaceUse.ownIface
      rw [node_ifaces (hc n (by simp))]
    rw [hown]
    cases (ifacesAt s n.path).find? (u.isUsed i) with
    | some e => rfl
    | none => exact ih

theorem suits_eq {s : Schema} (hs : SchemaInv s) (path : Path) (name : Str) (c : List GNs) (hc : ∀ n ∈ c, ∃ d, n = buildNs s d n.path) :
    suits (buildSchema s) path name c = ((c.map GNs.path).findSome? fun q => (ifacesAt s q).find? fun e => e.1 == path && e.2.name == name).or
      ((ifacesAt s []).find? fun e => e.1 == path && e.2.name == name) := by
  induction c with
  | nil => rw [suits, global_ifaces hs]; rfl
  | cons n c ih =>
    have ih := ih fun m hm => hc m (by simp [hm])
    rw [suits, List.map_cons, List.findSome?_cons, node_ifaces (hc n (by simp))]
    cases (ifacesAt s n.path).find? (fun e => e.1 == path && e.2.name == name) with
    | some e => rfl
    | none => exact ih

/-! ## The interfaces in use -/

theorem referenceAll_mem (k : Nat) (ts : List (List GNs)) (x : IfaceKey) :
    x ∈ referenceAllIfaces k ts ↔ ∃ (j : Nat) (t : List GNs), ts[j]? = some t ∧ ∃ n ∈ t, ∃ f ∈ n.ifaces, x = (k + j, n.path, f.name) := by
  induction ts generalizing k with
  | nil => simp [referenceAllIfaces]
  | cons t ts ih =>
    rw [referenceAllIfaces, List.mem_append, ih, List.mem_flatMap]
    constructor
    · rintro (⟨n, hn, hx⟩ | ⟨j, t', ht, n, hn, f, hf, rfl⟩)
      · obtain ⟨f, hf, rfl⟩ := List.mem_map.1 hx
        exact ⟨0, t, rfl, n, hn, f, hf, rfl⟩
      · exact ⟨j + 1, t', ht, n, hn, f, hf, by rw [Nat.add_assoc, Nat.add_comm 1 j]⟩
    · rintro ⟨j, t', ht, n, hn, f, hf, rfl⟩
      cases j with
      | zero =>
        cases ht
        exact .inl ⟨n, hn, List.mem_map.2 ⟨f, hf, rfl⟩⟩
      | succ j => exact .inr ⟨j, t', ht, n, hn, f, hf, by rw [Nat.add_assoc, Nat.add_comm 1 j]⟩

theorem top_length {s : Schema} {n : GNs} (h : n ∈ buildSchema s) : n.path.length ≤ 1 ∧ ∃ d, n = buildNs s d n.path := by
  rcases schema_tops h with rfl | ⟨x, _, rfl⟩
  · exact ⟨by simp [buildNs_path], 0, by rw [buildNs_path]⟩
  · exact ⟨by simp [buildNs_path], nsDepth s.nss, by rw [buildNs_path]⟩

theorem short_top {s : Schema} (hs : SchemaInv s) {q : Path} (hq : q ∈ s.nss) (hl : q.length ≤ 1) : ∃ n ∈ buildSchema s, n.path = q := by
  rcases schema_top_of hs hq with ⟨rfl, hn⟩ | ⟨x, r, rfl, _, hn⟩
  · exact ⟨_, hn, buildNs_path _ _ _⟩
  · have : r = [] := List.length_eq_zero_iff.1 (by simpa using hl)
    subst this
    exact ⟨_, hn, buildNs_path _ _ _⟩

/-- Without a forced interface those of namespaces that are not nested are in use. -/
theorem all_used {ss : List Schema} {i : Nat} {s : Schema} (hs : SchemaInv s) (hi : ss[i]? = some s) {e : Path × Interface} (he : e ∈ s.ifaces) :
    (i, e.1, e.2.name) ∈ referenceAllIfaces 0 (ss.map buildSchema) ↔ e.1.length ≤ 1 := by
  rw [referenceAll_mem]
  have ht : (ss.map buildSchema)[i]? = some (buildSchema s) := by rw [List.getElem?_map, hi]; rfl
  constructor
  · rintro ⟨j, t, hj, n, hn, f, hf, hx⟩
    rw [Nat.zero_add] at hx
    have h0 : i = j := (Prod.mk.inj hx).1
    have h1 : e.1 = n.path := (Prod.mk.inj (Prod.mk.inj hx).2).1
    subst h0
    rw [ht] at hj
    cases hj
    rw [h1]
    exact (top_length hn).1
  · intro hl
    obtain ⟨n, hn, hp⟩ := short_top hs (hs.ifaces.1 e he).1 hl
    refine ⟨i, _, ht, n, hn, e.2, ?_, by rw [hp, Nat.zero_add]⟩
    have := node_ifaces (top_length hn).2
    have hm : (e.1, e.2) ∈ n.ifaces.map fun f => (n.path, f) := by rw [this, hp]; exact ifacesAt_mem.2 ⟨he, rfl⟩
    obtain ⟨f, hf, hfe⟩ := List.mem_map.1 hm
    rw [← (Prod.mk.inj hfe).2]
    exact hf

theorem ifacesAt_sorted {s : Schema} (hs : SchemaInv s) (q : Path) : (ifacesAt s q).Pairwise fun a b => a.2.name < b.2.name := by
  unfold ifacesAt
  rw [List.pairwise_map]
  exact elemsAt_sorted _ _ hs.ifaces.2 _

/-- The first of the interfaces of a namespace when all of them or none are in use. -/
theorem first_used {s : Schema} (hs : SchemaInv s) (q : Path) (p : Path × Interface → Bool) (P : Prop) (hp : ∀ e ∈ ifacesAt s q, p e = true ↔ P) (e : Path × Interface) :
    (ifacesAt s q).find? p = some e ↔ P ∧ e.1 = q ∧ FirstIn s q e.2 := by
  have hsort := ifacesAt_sorted hs q
  have hmem : ∀ a, a ∈ ifacesAt s q ↔ a ∈ s.ifaces ∧ a.1 = q := fun a => ifacesAt_mem
  generalize ifacesAt s q = l at hp hsort hmem
  constructor
  · intro h
    have hin := List.mem_of_find?_eq_some h
    obtain ⟨h1, h2⟩ := (hmem e).1 hin
    refine ⟨(hp e hin).1 (List.find?_some h), h2, ?_, ?_⟩
    · rw [← h2]; exact h1
    · intro j hj hlt
      have hjm := (hmem (q, j)).2 ⟨hj, rfl⟩
      cases l with
      | nil => cases hjm
      | cons a l =>
        have hpa : p a = true := (hp a (by simp)).2 ((hp e hin).1 (List.find?_some h))
        rw [List.find?_cons, hpa] at h
        simp only [Option.some.injEq] at h
        subst h
        rw [List.pairwise_cons] at hsort
        rcases List.mem_cons.1 hjm with hjm | hjm
        · rw [← hjm] at hlt; exact str_irrefl _ hlt
        · exact str_irrefl _ (str_trans (hsort.1 _ hjm) hlt)
  · rintro ⟨hP, h2, h1, hmin⟩
    have hin := (hmem e).2 ⟨by rw [← h2] at h1; exact h1, h2⟩
    cases l with
    | nil => cases hin
    | cons a l =>
      rw [List.find?_cons, (hp a (by simp)).2 hP]
      simp only [Option.some.injEq]
      rw [List.pairwise_cons] at hsort
      rcases List.mem_cons.1 hin with hin | hin
      · exact hin.symm
      · obtain ⟨h3, h4⟩ := (hmem a).1 (by simp)
        exact absurd (hsort.1 e hin) (hmin a.2 (by rw [← h4]; exact h3))

/-! ## All interfaces, and the default one -/

mutual
theorem ns_allIfaces (n : GNs) (e : Path × Interface) : e ∈ n.allInterfaces ↔ ∃ m ∈ n.allNs, e ∈ m.ifaces.map fun f => (m.path, f) := by
  match n with
  | .mk p nm fs ms is frs subs =>
    rw [GNs.allInterfaces, GNs.allNs, List.mem_append, list_allIfaces subs e]
    constructor
    · rintro (⟨m, hm, he⟩ | he)
      · exact ⟨m, by simp [hm], he⟩
      · exact ⟨.mk p nm fs ms is frs subs, List.mem_append.2 (.inr (by simp)), he⟩
    · rintro ⟨m, hm, he⟩
      rcases List.mem_append.1 hm with hm | hm
      · exact .inl ⟨m, hm, he⟩
      · rw [List.mem_singleton] at hm
        subst hm
        exact .inr he
theorem list_allIfaces (l : List GNs) (e : Path × Interface) : e ∈ allInterfacesOf l ↔ ∃ m ∈ allNsOf l, e ∈ m.ifaces.map fun f => (m.path, f) := by
  match l with
  | [] => simp [allInterfacesOf, allNsOf]
  | n :: ns =>
    rw [allInterfacesOf, allNsOf, List.mem_append, ns_allIfaces n e, list_allIfaces ns e]
    constructor
    · rintro (⟨m, hm, he⟩ | ⟨m, hm, he⟩)
      · exact ⟨m, List.mem_append.2 (.inl hm), he⟩
      · exact ⟨m, List.mem_append.2 (.inr hm), he⟩
    · rintro ⟨m, hm, he⟩
      rcases List.mem_append.1 hm with hm | hm
      · exact .inl ⟨m, hm, he⟩
      · exact .inr ⟨m, hm, he⟩
end

theorem schema_allIfaces {s : Schema} (hs : SchemaInv s) (e : Path × Interface) : e ∈ allInterfacesOf (buildSchema s) ↔ e ∈ s.ifaces := by
  rw [list_allIfaces]
  constructor
  · rintro ⟨m, hm, he⟩
    obtain ⟨d, q, rfl, _⟩ := schema_nodes hm
    rw [node_ifaces ⟨d, by rw [buildNs_path]⟩] at he
    exact (ifacesAt_mem.1 he).1
  · intro he
    obtain ⟨m, hm, hp⟩ := schema_reaches hs.nsUp (hs.ifaces.1 e he).1
    refine ⟨m, hm, ?_⟩
    have : ∃ d, m = buildNs s d m.path := by
      obtain ⟨d, q, rfl, _⟩ := schema_nodes hm
      exact ⟨d, by rw [buildNs_path]⟩
    rw [node_ifaces this, hp]
    exact ifacesAt_mem.2 ⟨he, rfl⟩

theorem no_ifaces {s : Schema} (hs : SchemaInv s) : (allInterfacesOf (buildSchema s)).isEmpty = true ↔ s.ifaces = [] := by
  rw [List.isEmpty_iff]
  constructor
  · intro h
    refine List.eq_nil_iff_forall_not_mem.2 fun e he => ?_
    have := (schema_allIfaces hs e).2 he
    rw [h] at this
    cases this
  · intro h
    refine List.eq_nil_iff_forall_not_mem.2 fun e he => ?_
    have := (schema_allIfaces hs e).1 he
    rw [h] at this
    cases this

/-- The preparation changes only a last schema without interfaces. -/
theorem default_cases {ss : List Schema} (hall : ∀ s ∈ ss, SchemaInv s) {u0 : IfaceUse} (h0 : u0.tops = ss.map buildSchema) {i : Nat} {s : Schema} (hi : ss[i]? = some s) :
    (prepareDefault u0).forced = u0.forced ∧
    (∀ k, k ∈ (prepareDefault u0).used ↔ k ∈ u0.used ∨ ((∃ t, ss[ss.length - 1]? = some t ∧ t.ifaces = []) ∧ k = (ss.length - 1, [], []))) ∧
    (prepareDefault u0).tops[i]? = some (if s.ifaces = [] ∧ i + 1 = ss.length then addDefault (buildSchema s) else buildSchema s) := by
  have hlen : i < ss.length := (List.getElem?_eq_some_iff.1 hi).1
  have hlast : ∃ t, ss[ss.length - 1]? = some t := ⟨ss[ss.length - 1]'(by omega), List.getElem?_eq_getElem _⟩
  obtain ⟨t, ht⟩ := hlast
  have htl : u0.tops[u0.tops.length - 1]? = some (buildSchema t) := by
    rw [h0, List.length_map, List.getElem?_map, ht]; rfl
  have hti : SchemaInv t := hall t (List.mem_of_getElem? ht)
  have hget : u0.tops[i]? = some (buildSchema s) := by rw [h0, List.getElem?_map, hi]; rfl
  unfold prepareDefault
  rw [htl]
  simp only
  by_cases hte : t.ifaces = []
  · rw [if_pos ((no_ifaces hti).2 hte)]
    refine ⟨rfl, fun k => ?_, ?_⟩
    · simp only [List.mem_append, List.mem_singleton]
      rw [h0, List.length_map]
      constructor
      · rintro (h | h)
        · exact .inl h
        · exact .inr ⟨⟨t, ht, hte⟩, h⟩
      · rintro (h | ⟨_, h⟩)
        · exact .inl h
        · exact .inr h
    · simp only
      by_cases hil : i + 1 = ss.length
      · have : i = ss.length - 1 := by omega
        subst this
        rw [ht] at hi
        cases hi
        rw [if_pos ⟨hte, hil⟩, h0, List.length_map, List.getElem?_set_self (by rw [List.length_map]; omega)]
      · rw [if_neg (by rintro ⟨_, h⟩; exact hil h), List.getElem?_set_ne (by rw [h0, List.length_map]; omega), hget]
  · rw [if_neg (fun h => hte ((no_ifaces hti).1 h))]
    refine ⟨rfl, fun k => ?_, ?_⟩
    · constructor
      · exact .inl
      · rintro (h | ⟨⟨t', ht', hte'⟩, _⟩)
        · exact h
        · rw [ht] at ht'
          cases ht'
          exact absurd hte' hte
    · have : ¬ (s.ifaces = [] ∧ i + 1 = ss.length) := by
        rintro ⟨h1, h2⟩
        have : i = ss.length - 1 := by omega
        subst this
        rw [ht] at hi
        cases hi
        exact hte h1
      rw [if_neg this, hget]

/-- The namespaces with the default interface. -/
theorem default_tops {s : Schema} (hs : SchemaInv s) : ∃ g rest, addDefault (buildSchema s) = g :: rest ∧ g.path = [] ∧ g.name = [] ∧ g.subs = [] ∧
    g.ifaces = defaultIface :: elemsAt Interface.name s.ifaces [] ∧ (∀ n ∈ rest, n ∈ buildSchema s) ∧ ∀ n ∈ buildSchema s, n ∈ rest ∨ n.path = [] := by
  by_cases hg : [] ∈ s.nss
  · have hb : buildSchema s = buildNs s 0 [] :: (subNs s.nss []).map fun x => buildNs s (nsDepth s.nss) [x] := by
      unfold buildSchema
      rw [if_pos (by simpa using hg)]
      rfl
    refine ⟨_, _, by rw [hb, buildNs.eq_1]; rfl, rfl, rfl, rfl, rfl, ?_, ?_⟩
    · intro n hn
      rw [hb]
      exact List.mem_cons.2 (.inr hn)
    · intro n hn
      rw [hb] at hn
      rcases List.mem_cons.1 hn with rfl | hn
      · exact .inr (buildNs_path _ _ _)
      · exact .inl hn
  · have hb : buildSchema s = (subNs s.nss []).map fun x => buildNs s (nsDepth s.nss) [x] := by
      unfold buildSchema
      rw [if_neg (by simpa using hg)]
      rfl
    have he : elemsAt Interface.name s.ifaces [] = [] := by
      refine List.eq_nil_iff_forall_not_mem.2 fun f hf => ?_
      exact hg (hs.ifaces.1 _ ((elemsAt_mem _ _ _ _).1 hf)).1
    refine ⟨.mk [] [] [] [] [defaultIface] [] [], buildSchema s, ?_, rfl, rfl, rfl, by rw [he]; rfl, fun n hn => hn, fun n hn => .inl hn⟩
    cases hl : buildSchema s with
    | nil => rfl
    | cons n l =>
      have hn : n ∈ buildSchema s := by rw [hl]; simp
      have hnn : n.name ≠ [] := by
        intro h0
        have h1 := (node_name hs ((allNsOf_mem _ _).2 ⟨n, hn, self_mem n⟩)).1 h0
        rw [hb] at hn
        obtain ⟨x, _, rfl⟩ := List.mem_map.1 hn
        rw [buildNs_path] at h1
        cases h1
      cases n with
      | mk p nm fs ms is frs subs =>
        have hnm : nm ≠ [] := hnn
        exact if_neg (by simpa using hnm)

theorem unforced_prep {ss : List Schema} {u : IfaceUse} (h : prepareIfaces ss [] = .ok u) :
    u = prepareDefault { tops := ss.map buildSchema, used := referenceAllIfaces 0 (ss.map buildSchema), forced := none } := by
  exact (Res.ok.inj h).symm

theorem chosen_mem {u : IfaceUse} {i : Nat} {t : List GNs} (ht : u.tops[i]? = some t) (x : Path × Option (Path × Interface)) :
    x ∈ u.chosen i ↔ ∃ c ∈ chainsOf [] t, x = ((c.head?.map GNs.path).getD [], u.suitable i t c) := by
  unfold IfaceUse.chosen
  rw [ht]
  simp only [Option.getD_some, List.mem_map]
  exact ⟨fun ⟨c, hc, hx⟩ => ⟨c, hc, hx.symm⟩, fun ⟨c, hc, hx⟩ => ⟨c, hc, hx.symm⟩⟩

/-- In a schema that is as it was created the interfaces are searched for from the inside. -/
theorem nearest_spec {s : Schema} (hs : SchemaInv s) {u : IfaceUse} {i : Nat} (hu : ∀ e ∈ s.ifaces, u.isUsed i e = true ↔ e.1.length ≤ 1)
    {c : List GNs} (hc : c ∈ chainsOf [] (buildSchema s)) (e : Path × Interface) :
    u.nearest i (buildSchema s) c = some e ↔ NearestTopIface s ((c.head?.map GNs.path).getD []) e := by
  obtain ⟨q, hq, hnodes, hpaths, horder⟩ := schema_chain hc
  rw [hq, Option.getD_some, nearest_eq hs u i c hnodes, search_spec (fun q => (ifacesAt s q).find? (u.isUsed i)) hpaths horder]
  have hfirst : ∀ a e, (ifacesAt s a).find? (u.isUsed i) = some e ↔ a.length ≤ 1 ∧ e.1 = a ∧ FirstIn s a e.2 := fun a e =>
    first_used hs a _ _ (fun x hx => by
      obtain ⟨h1, h2⟩ := ifacesAt_mem.1 hx
      rw [hu x h1, h2]) e
  have hsome : ∀ b, ((ifacesAt s b).find? (u.isUsed i)).isSome = true ↔ b.length ≤ 1 ∧ ∃ f ∈ s.ifaces, f.1 = b := by
    intro b
    rw [List.find?_isSome]
    constructor
    · rintro ⟨x, hx, hux⟩
      obtain ⟨h1, h2⟩ := ifacesAt_mem.1 hx
      refine ⟨?_, x, h1, h2⟩
      rw [← h2]
      exact (hu x h1).1 hux
    · rintro ⟨h1, f, hf, rfl⟩
      exact ⟨f, ifacesAt_mem.2 ⟨hf, rfl⟩, (hu f hf).2 h1⟩
  unfold NearestTopIface
  constructor
  · rintro ⟨a, ha, hae, hmax⟩
    obtain ⟨h1, rfl, h2⟩ := (hfirst a e).1 hae
    exact ⟨h1, ha, h2, fun f hf hl hp => hmax f.1 hp ((hsome f.1).2 ⟨hl, f, hf, rfl⟩)⟩
  · rintro ⟨h1, ha, h2, hmax⟩
    refine ⟨e.1, ha, (hfirst e.1 e).2 ⟨h1, rfl, h2⟩, fun b hb hs => ?_⟩
    obtain ⟨h3, f, hf, rfl⟩ := (hsome b).1 hs
    exact hmax f hf h3 hb

theorem own_none {u : IfaceUse} {i : Nat} {n : GNs} (h : n.ifaces = []) : u.ownIface i n = none := by
  unfold IfaceUse.ownIface
  rw [h]
  rfl

end SuitProofs
open SuitProofs

/-! ## C125 -/

/-- C125: if no interface is requested, every namespace uses the nearest interface among those of the global namespace and of the namespaces that are not
    in another one. Only the last schema gets an interface of its own if it has none. -/
theorem C125_top (fo : FloatOps) (p : Proto) (h : Reachable fo p) (i : Nat) (s : Schema) (hi : p.schemas[i]? = some s) (u : IfaceUse)
    (hu : prepareIfaces p.schemas [] = .ok u) :
    (∀ q ∈ s.nss, ∃ r, (q, r) ∈ u.chosen i) ∧
    ∀ q r, (q, r) ∈ u.chosen i →
      (s.ifaces ≠ [] → ∀ e, r = some e ↔ NearestTopIface s q e) ∧
      (s.ifaces = [] → r = if i + 1 = p.schemas.length then some ([], defaultIface) else none) := by
  have hinv := reachable_inv h
  have hs := hinv.each s (List.mem_of_getElem? hi)
  have hu := unforced_prep hu
  obtain ⟨hforced, hused, htops⟩ := default_cases hinv.each (u0 := ⟨p.schemas.map buildSchema, referenceAllIfaces 0 (p.schemas.map buildSchema), none⟩) rfl hi
  rw [← hu] at hforced hused htops
  have hsuit : ∀ t c, u.suitable i t c = u.nearest i t c := by
    intro t c
    unfold IfaceUse.suitable
    rw [hforced]
  have husedI : ∀ e ∈ s.ifaces, u.isUsed i e = true ↔ e.1.length ≤ 1 := by
    intro e he
    unfold IfaceUse.isUsed
    rw [List.contains_iff_mem, hused]
    constructor
    · rintro (h1 | ⟨_, h1⟩)
      · exact (all_used hs hi he).1 h1
      · have : e.1 = [] := (Prod.mk.inj (Prod.mk.inj h1).2).1
        rw [this]; simp
    · intro hl
      exact .inl ((all_used hs hi he).2 hl)
  by_cases hd : s.ifaces = [] ∧ i + 1 = p.schemas.length
  · rw [if_pos hd] at htops
    obtain ⟨g, rest, hadd, hgp, hgn, hgs, hgi, hrest, hrest'⟩ := default_tops hs
    have hnoif : ∀ q, elemsAt Interface.name s.ifaces q = [] := fun q => List.eq_nil_iff_forall_not_mem.2 fun f hf => by
      have := (elemsAt_mem _ _ _ _).1 hf
      rw [hd.1] at this
      cases this
    rw [hnoif] at hgi
    have hdu : u.isUsed i ([], defaultIface) = true := by
      unfold IfaceUse.isUsed
      rw [List.contains_iff_mem, hused]
      refine .inr ⟨⟨s, ?_, hd.1⟩, ?_⟩
      · rw [← hi]; congr 1; omega
      · show (i, [], []) = _
        have : i = p.schemas.length - 1 := by omega
        rw [this]
    have hgc : g.chains [] = [[g]] := by
      cases g with
      | mk a b c d e f subs =>
        have : subs = [] := hgs
        subst this
        rw [GNs.chains, chainsOf]; rfl
    have hglob : globalIfaces (g :: rest) = [([], defaultIface)] := by
      unfold globalIfaces
      have hall : g.allNs = [g] := by
        cases g with
        | mk a b c d e f subs =>
          have : subs = [] := hgs
          subst this
          rw [GNs.allNs, allNsOf]; rfl
      rw [allNsOf, hall, List.cons_append, List.find?_cons]
      have hne : g.name.isEmpty = true := by rw [hgn]; rfl
      simp only [hne]
      cases g with
      | mk a b c d e f subs =>
        have h1 : subs = [] := hgs
        have h2 : e = [defaultIface] := hgi
        have h3 : a = [] := hgp
        subst h1 h2 h3
        rw [GNs.allInterfaces, allInterfacesOf]; rfl
    have hone : ∀ c, c ∈ chainsOf [] (g :: rest) ↔ c = [g] ∨ ∃ n ∈ rest, c ∈ n.chains [] := by
      intro c
      rw [chainsOf_mem]
      constructor
      · rintro ⟨n, hn, hc⟩
        rcases List.mem_cons.1 hn with rfl | hn
        · rw [hgc, List.mem_singleton] at hc; exact .inl hc
        · exact .inr ⟨n, hn, hc⟩
      · rintro (rfl | ⟨n, hn, hc⟩)
        · exact ⟨g, by simp, by rw [hgc]; simp⟩
        · exact ⟨n, by simp [hn], hc⟩
    rw [hadd] at htops
    constructor
    · intro q hq
      have : ∃ c ∈ chainsOf [] (g :: rest), c.head?.map GNs.path = some q := by
        cases q with
        | nil => exact ⟨[g], (hone _).2 (.inl rfl), by simp [hgp]⟩
        | cons x q =>
          obtain ⟨c, hc, hh⟩ := schema_has_chain hs hq
          obtain ⟨n, hn, hcn⟩ := (chainsOf_mem _ _ _).1 hc
          rcases hrest' n hn with hn' | hn'
          · exact ⟨c, (hone _).2 (.inr ⟨n, hn', hcn⟩), hh⟩
          · exfalso
            obtain ⟨rfl⟩ | ⟨x, _, rfl⟩ := schema_tops hn
            · rw [buildNs, GNs.chains, chainsOf, List.nil_append, List.mem_singleton] at hcn
              subst hcn
              cases hh
            · rw [buildNs_path] at hn'
              cases hn'
      obtain ⟨c, hc, hh⟩ := this
      exact ⟨_, (chosen_mem htops _).2 ⟨c, hc, by rw [hh, Option.getD_some]⟩⟩
    · intro q r hr
      refine ⟨fun hne => absurd hd.1 hne, fun _ => ?_⟩
      rw [if_pos hd.2]
      obtain ⟨c, hc, hx⟩ := (chosen_mem htops _).1 hr
      rw [(Prod.mk.inj hx).2, hsuit]
      have hdef : u.nearest i (g :: rest) [] = some ([], defaultIface) := by
        rw [IfaceUse.nearest, hglob, List.find?_cons, hdu]
      rcases (hone c).1 hc with rfl | ⟨n, hn, hcn⟩
      · rw [IfaceUse.nearest]
        have : u.ownIface i g = some ([], defaultIface) := by
          unfold IfaceUse.ownIface
          rw [hgi, hgp, List.map_cons, List.find?_cons, hdu]
        rw [this]
      · obtain ⟨q, _, hnodes, _, _⟩ := schema_chain ((chainsOf_mem [] _ _).2 ⟨n, hrest n hn, hcn⟩)
        have : ∀ l : List GNs, (∀ m ∈ l, ∃ d, m = buildNs s d m.path) → u.nearest i (g :: rest) l = some ([], defaultIface) := by
          intro l
          induction l with
          | nil => intro _; exact hdef
          | cons m l ih =>
            intro hm
            rw [IfaceUse.nearest]
            obtain ⟨d, hmd⟩ := hm m (by simp)
            rw [own_none (by rw [hmd, buildNs_ifaces]; exact hnoif _)]
            exact ih fun m' hm' => hm m' (by simp [hm'])
        exact this c hnodes
  · rw [if_neg hd] at htops
    constructor
    · intro q hq
      obtain ⟨c, hc, hh⟩ := schema_has_chain hs hq
      exact ⟨_, (chosen_mem htops _).2 ⟨c, hc, by rw [hh, Option.getD_some]⟩⟩
    · intro q r hr
      obtain ⟨c, hc, hx⟩ := (chosen_mem htops _).1 hr
      obtain ⟨rfl, rfl⟩ := Prod.mk.inj hx
      rw [hsuit]
      refine ⟨fun _ e => nearest_spec hs husedI hc e, fun he => ?_⟩
      rw [if_neg fun hl => hd ⟨he, hl⟩]
      refine Option.eq_none_iff_forall_ne_some.2 fun e hn => ?_
      have := ((nearest_spec hs husedI hc e).1 hn).2.2.1.1
      rw [he] at this
      cases this

/-- C125: if no interface is requested, every namespace uses the interface declared nearest to it. What is missing: an interface of a namespace that is in
    another namespace is never used (witness), so there are none in the schema. -/
theorem C125_partial (fo : FloatOps) (p : Proto) (h : Reachable fo p) (i : Nat) (s : Schema) (hi : p.schemas[i]? = some s) (u : IfaceUse)
    (hu : prepareIfaces p.schemas [] = .ok u) (hflat : ∀ e ∈ s.ifaces, e.1.length ≤ 1) :
    (∀ q ∈ s.nss, ∃ r, (q, r) ∈ u.chosen i) ∧
    ∀ q r, (q, r) ∈ u.chosen i →
      (s.ifaces ≠ [] → ∀ e, r = some e ↔ NearestIface s q e) ∧
      (s.ifaces = [] → r = if i + 1 = p.schemas.length then some ([], defaultIface) else none) := by
  obtain ⟨h1, h2⟩ := C125_top fo p h i s hi u hu
  refine ⟨h1, fun q r hr => ⟨fun hne e => ?_, (h2 q r hr).2⟩⟩
  rw [(h2 q r hr).1 hne e]
  constructor
  · rintro ⟨_, h3, h4, h5⟩
    exact ⟨h3, h4, fun f hf hp => h5 f hf (hflat f hf) hp⟩
  · rintro ⟨h3, h4, h5⟩
    exact ⟨hflat (e.1, e.2) h4.1, h3, h4, fun f hf _ hp => h5 f hf hp⟩

/-- C125: the preparation of the interfaces succeeds if none is requested. -/
theorem C125_total (ss : List Schema) : ∃ u, prepareIfaces ss [] = .ok u := ⟨_, rfl⟩

namespace SuitProofs

theorem iface_key_of {p : Proto} (hi : ProtoInv p) {c i : Nat} {s : Schema} (hs : p.schemas[i]? = some s) {path : Path} {f : Interface} {ref : Str}
    (hm : (path, f) ∈ s.ifaces) (hr : RefTextOf p.schemas c i path f.name ref) (hfind : (Gen.mk p.schemas c).findInterface ref = some f) :
    (Gen.mk p.schemas c).findInterfaceKey ref = some (i, path, f.name) := by
  have hsi := hi.each s (List.mem_of_getElem? hs)
  have hval := (hsi.ifaces.1 _ hm).2.1
  have hpath := hsi.nsNames _ (hsi.ifaces.1 _ hm).1
  obtain ⟨_, he⟩ := GenProofs.externalRef_of hi (c := c) hs hpath hval hr
  unfold Gen.findInterfaceKey
  rw [hfind, he]
  simp only [Option.map_some, Option.some.injEq, Prod.mk.injEq, and_true]
  have hsplit : (dotSplit (joinDots (path ++ [f.name]))).dropLast = path := by
    rw [split_join (by simp)]
    · simp
    · intro w hw
      rcases List.mem_append.1 hw with hw | hw
      · exact (name_facts (hpath w hw)).1
      · simp only [List.mem_singleton] at hw; subst hw; exact (name_facts hval).1
  refine ⟨?_, hsplit⟩
  obtain ⟨s', hs', hr⟩ := hr
  rw [hs] at hs'
  cases hs'
  unfold externalRefOf at hr
  rcases hr with hr | ⟨rfl, hr⟩
  · rw [if_pos rfl, dotJoin_eq] at hr
    have hr' : ref = '@' :: (s.name ++ '.' :: joinDots (path ++ [f.name])) := by
      rw [hr, List.cons_append, join_cons (by simp)]; rfl
    subst hr'
    have hdot := (name_facts (hi.valid s (List.mem_of_getElem? hs))).1
    simp only
    rw [(takeWhile_nodot hdot _).1]
    have := schemaIdx_of hi.names hs
    unfold schemaIdx at this
    rw [this]
    rfl
  · rw [if_neg (by simp), dotJoin_eq] at hr
    subst hr
    have hh := GenProofs.join_head path f.name hpath hval
    split
    · rename_i r hr
      rw [hr] at hh
      simp at hh
    · rfl

theorem iface_unique {s : Schema} (hs : SchemaInv s) {a b : Path × Interface} (ha : a ∈ s.ifaces) (hb : b ∈ s.ifaces) (hp : a.1 = b.1)
    (hn : a.2.name = b.2.name) : a = b := by
  have h1 := lookup_of_mem hs.ifaces.2 (path := a.1) (a := a.2) ha
  have h2 := lookup_of_mem hs.ifaces.2 (path := b.1) (a := b.2) hb
  rw [hp, hn, h2] at h1
  have := Option.some.inj h1
  exact Prod.ext hp this.symm

end SuitProofs

/-- C125: if an interface is requested, exactly the namespaces inside its namespace use it (all of the schema for the global namespace), and the others use
    none. -/
theorem C125_forced (fo : FloatOps) (p : Proto) (h : Reachable fo p) (j : Nat) (sj : Schema) (path : Path) (f : Interface) (ref : Str)
    (hj : p.schemas[j]? = some sj) (hf : (path, f) ∈ sj.ifaces) (hr : RefTextOf p.schemas (p.schemas.length - 1) j path f.name ref) :
    ∃ u, prepareIfaces p.schemas ref = .ok u ∧ ∀ i s, p.schemas[i]? = some s → (i + 1 = p.schemas.length → s.ifaces ≠ []) →
      (∀ q ∈ s.nss, ∃ r, (q, r) ∈ u.chosen i) ∧
      ∀ q r, (q, r) ∈ u.chosen i → ∀ e, r = some e ↔ i = j ∧ e = (path, f) ∧ path <+: q := by
  have hinv := reachable_inv h
  have hkey := iface_key_of hinv hj hf hr (C68_interface fo p h _ j sj path f ref hj hf hr)
  have hsj := hinv.each sj (List.mem_of_getElem? hj)
  have hne : ref ≠ [] := (GenProofs.externalRef_of hinv (c := p.schemas.length - 1) hj (hsj.nsNames _ (hsj.ifaces.1 _ hf).1) (hsj.ifaces.1 _ hf).2.1 hr).1
  have hprep : prepareIfaces p.schemas ref = .ok (prepareDefault ⟨p.schemas.map buildSchema, [(j, path, f.name)], some (j, path, f.name)⟩) := by
    unfold prepareIfaces requestedIfaces
    rw [if_neg (by simpa using hne), hkey]
    rfl
  refine ⟨_, hprep, fun i s hi hlast => ?_⟩
  have hs := hinv.each s (List.mem_of_getElem? hi)
  obtain ⟨hforced, _, htops⟩ := default_cases hinv.each (u0 := ⟨p.schemas.map buildSchema, [(j, path, f.name)], some (j, path, f.name)⟩) rfl hi
  rw [if_neg fun hc => hlast hc.2 hc.1] at htops
  generalize prepareDefault ⟨p.schemas.map buildSchema, [(j, path, f.name)], some (j, path, f.name)⟩ = u at hforced htops
  constructor
  · intro q hq
    obtain ⟨c, hc, hh⟩ := schema_has_chain hs hq
    exact ⟨_, (chosen_mem htops _).2 ⟨c, hc, by rw [hh, Option.getD_some]⟩⟩
  · intro q r hqr e
    obtain ⟨c, hc, hx⟩ := (chosen_mem htops _).1 hqr
    obtain ⟨rfl, rfl⟩ := Prod.mk.inj hx
    obtain ⟨q, hq, hnodes, hpaths, horder⟩ := schema_chain hc
    rw [hq, Option.getD_some]
    unfold IfaceUse.suitable
    rw [hforced]
    simp only
    by_cases hij : i = j
    · subst hij
      rw [hi] at hj
      have hsj' : sj = s := (Option.some.inj hj).symm
      subst hsj'
      rw [if_pos rfl, suits_eq hs path f.name c hnodes,
        search_spec (fun q => (ifacesAt sj q).find? fun e => e.1 == path && e.2.name == f.name) hpaths horder]
      have hfind : ∀ a x, (ifacesAt sj a).find? (fun e => e.1 == path && e.2.name == f.name) = some x → x = (path, f) ∧ a = path := by
        intro a x hx
        have h1 := ifacesAt_mem.1 (List.mem_of_find?_eq_some hx)
        have h2 := List.find?_some hx
        simp only [Bool.and_eq_true, beq_iff_eq] at h2
        exact ⟨iface_unique hs h1.1 hf h2.1 h2.2, by rw [← h1.2, h2.1]⟩
      constructor
      · rintro ⟨a, ha, hae, _⟩
        obtain ⟨h1, rfl⟩ := hfind a e hae
        exact ⟨rfl, h1, ha⟩
      · rintro ⟨_, rfl, hp⟩
        refine ⟨path, hp, ?_, fun b _ hb => ?_⟩
        · have : ((ifacesAt sj path).find? fun e => e.1 == path && e.2.name == f.name).isSome = true := by
            rw [List.find?_isSome]
            exact ⟨(path, f), ifacesAt_mem.2 ⟨hf, rfl⟩, by simp⟩
          obtain ⟨x, hx⟩ := Option.isSome_iff_exists.1 this
          rw [hx, (hfind _ x hx).1]
        · obtain ⟨x, hx⟩ := Option.isSome_iff_exists.1 hb
          rw [(hfind b x hx).2]
          exact Nat.le_refl _
    · rw [if_neg hij]
      constructor
      · intro h; cases h
      · rintro ⟨h, _⟩; exact absurd h hij

/-! ## Examples -/

namespace SuitSample
open Sample MsgSample

def ifaceEl (name : String) : Xml := el "interface" [("name", name)]

/-- The interfaces of the namespaces of the first schema, by their names. -/
def picks (ss : List Schema) (name : String) : List (Path × Option (Path × Str)) := match prepareIfaces ss name.toList with
  | .ok u => (u.chosen 0).map fun x => (x.1, x.2.map fun e => (e.1, e.2.name))
  | _ => []

theorem picks_ok {ss : List Schema} {name : String} {q : Path} {o : Option (Path × Str)} (h : (q, o) ∈ picks ss name) : ∃ u, prepareIfaces ss name.toList = .ok u ∧
    ∃ r, (q, r) ∈ u.chosen 0 ∧ r.map (fun e => (e.1, e.2.name)) = o := by
  unfold picks at h
  split at h
  · rename_i u hu
    obtain ⟨y, hy, hx⟩ := List.mem_map.1 h
    obtain ⟨rfl, rfl⟩ := Prod.mk.inj hx
    exact ⟨u, hu, y.2, hy, rfl⟩
  · cases h

/-- Interfaces in namespaces that are not nested, two of them in the same. -/
def docsF : List Xml := [schemaEl "S" [ifaceEl "G", nsEl "A" [ifaceEl "J", ifaceEl "I", nsEl "B" [nsEl "C" [msgEl "M" "1"]]], nsEl "D" [msgEl "M2" "2"]]]
/-- An interface in a nested namespace. -/
def docsN : List Xml := [schemaEl "S" [nsEl "A" [ifaceEl "IA", msgEl "M1" "1", nsEl "B" [ifaceEl "IB", msgEl "M2" "2"]]]]
/-- The only interface in a nested namespace. -/
def docsO : List Xml := [schemaEl "S" [nsEl "A" [nsEl "B" [ifaceEl "IB", msgEl "M2" "2"]]]]
end SuitSample
open Sample MsgSample SuitSample

/-- The hypotheses of `C125_partial` are met: the namespaces below `A` use its first interface, `D` and the global namespace the global one. -/
example : ∃ p s, Reachable fo0 p ∧ p.validated = true ∧ p.schemas[0]? = some s ∧ (∀ e ∈ s.ifaces, e.1.length ≤ 1) ∧ picks p.schemas "" =
    [([], some ([], t "G")), ([t "A", t "B", t "C"], some ([t "A"], t "I")), ([t "A", t "B"], some ([t "A"], t "I")), ([t "A"], some ([t "A"], t "I")),
     ([t "D"], some ([], t "G"))] := by
  obtain ⟨s, hs, h⟩ : ∃ s, (after docsF).schemas[0]? = some s ∧ s.ifaces.all (fun e => decide (e.1.length ≤ 1)) = true := by
    have : (match (after docsF).schemas[0]? with
      | some s => s.ifaces.all (fun e => decide (e.1.length ≤ 1))
      | none => false) = true := by decide +kernel
    split at this
    · rename_i s hs; exact ⟨s, hs, this⟩
    · cases this
  exact ⟨after docsF, s, after_reachable _, by decide +kernel, hs, fun e he => of_decide_eq_true (List.all_eq_true.1 h e he), by decide +kernel⟩

/-- The hypotheses of `C125_forced` are met: the namespaces in `A` use the interface asked for, the others none. -/
example : ∃ p s f, Reachable fo0 p ∧ p.validated = true ∧ p.schemas[0]? = some s ∧ ([t "A"], f) ∈ s.ifaces ∧
    RefTextOf p.schemas (p.schemas.length - 1) 0 [t "A"] f.name (t "A.J") ∧ picks p.schemas "A.J" =
    [([], none), ([t "A", t "B", t "C"], some ([t "A"], t "J")), ([t "A", t "B"], some ([t "A"], t "J")), ([t "A"], some ([t "A"], t "J")), ([t "D"], none)] := by
  obtain ⟨s, hs, h⟩ : ∃ s, (after docsF).schemas[0]? = some s ∧ s.ifaces.any (fun e => decide (e.1 = [t "A"] ∧ e.2.name = t "J")) = true := by
    have : (match (after docsF).schemas[0]? with
      | some s => s.ifaces.any (fun e => decide (e.1 = [t "A"] ∧ e.2.name = t "J"))
      | none => false) = true := by decide +kernel
    split at this
    · rename_i s hs; exact ⟨s, hs, this⟩
    · cases this
  obtain ⟨e, he, h⟩ := List.any_eq_true.1 h
  obtain ⟨h1, h2⟩ := of_decide_eq_true h
  refine ⟨after docsF, s, e.2, after_reachable _, by decide +kernel, hs, by rw [← h1]; exact he, ⟨s, hs, .inr ⟨by decide +kernel, ?_⟩⟩, by decide +kernel⟩
  rw [h2]
  rfl

/-- C125: the messages of a nested namespace do not use the interface declared beside them. -/
theorem C125_nested_witness : ∃ p s u r, Reachable fo0 p ∧ p.validated = true ∧ p.schemas[0]? = some s ∧ prepareIfaces p.schemas [] = .ok u ∧
    ([t "A", t "B"], r) ∈ u.chosen 0 ∧ r.map (fun e => (e.1, e.2.name)) = some ([t "A"], t "IA") ∧ ∃ f ∈ s.ifaces, f.1 = [t "A", t "B"] := by
  obtain ⟨s, hs, h⟩ : ∃ s, (after docsN).schemas[0]? = some s ∧ s.ifaces.any (fun e => decide (e.1 = [t "A", t "B"])) = true := by
    have : (match (after docsN).schemas[0]? with
      | some s => s.ifaces.any (fun e => decide (e.1 = [t "A", t "B"]))
      | none => false) = true := by decide +kernel
    split at this
    · rename_i s hs; exact ⟨s, hs, this⟩
    · cases this
  obtain ⟨e, he, h⟩ := List.any_eq_true.1 h
  obtain ⟨u, hu, r, hr, hk⟩ := picks_ok (ss := (after docsN).schemas) (name := "") (q := [t "A", t "B"]) (o := some ([t "A"], t "IA")) (by decide +kernel)
  exact ⟨after docsN, s, u, r, after_reachable _, by decide +kernel, hs, hu, hr, hk, e, he, of_decide_eq_true h⟩

/-- C125: if the only interface is in a nested namespace, its messages have none, and no default interface is made. -/
theorem C125_only_nested_witness : ∃ p s u r, Reachable fo0 p ∧ p.validated = true ∧ p.schemas[0]? = some s ∧ prepareIfaces p.schemas [] = .ok u ∧
    ([t "A", t "B"], r) ∈ u.chosen 0 ∧ r.isNone = true ∧ ∃ f ∈ s.ifaces, f.1 = [t "A", t "B"] := by
  obtain ⟨s, hs, h⟩ : ∃ s, (after docsO).schemas[0]? = some s ∧ s.ifaces.any (fun e => decide (e.1 = [t "A", t "B"])) = true := by
    have : (match (after docsO).schemas[0]? with
      | some s => s.ifaces.any (fun e => decide (e.1 = [t "A", t "B"]))
      | none => false) = true := by decide +kernel
    split at this
    · rename_i s hs; exact ⟨s, hs, this⟩
    · cases this
  obtain ⟨e, he, h⟩ := List.any_eq_true.1 h
  obtain ⟨u, hu, r, hr, hk⟩ := picks_ok (ss := (after docsO).schemas) (name := "") (q := [t "A", t "B"]) (o := none) (by decide +kernel)
  exact ⟨after docsO, s, u, r, after_reachable _, by decide +kernel, hs, hu, hr, (by cases r with | none => rfl | some e => cases hk), e, he, of_decide_eq_true h⟩

end Commsdsl.Props
