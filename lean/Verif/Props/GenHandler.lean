import Verif.Model.GenHandler
import Verif.Props.GenSuitable
/-!
# The handlers of the C interface: C126
-/
namespace Commsdsl.Props
open Commsdsl Text Fld Msg Frm Proto Spec Gen ProtoProofs SuitProofs

namespace SuitProofs

/-- A schema with interfaces, or not the last one, is as it was created. -/
theorem prep_tops {ss : List Schema} (hall : ∀ s ∈ ss, SchemaInv s) {ref : Str} {u : IfaceUse} (h : prepareIfaces ss ref = .ok u) {i : Nat} {s : Schema}
    (hi : ss[i]? = some s) (hn : i + 1 = ss.length → s.ifaces ≠ []) : u.tops[i]? = some (buildSchema s) := by
  have key : ∀ u0 : IfaceUse, u0.tops = ss.map buildSchema → (prepareDefault u0).tops[i]? = some (buildSchema s) := by
    intro u0 h0
    rw [(default_cases hall h0 hi).2.2, if_neg fun hc => hn hc.2 hc.1]
  unfold prepareIfaces at h
  obtain ⟨u0, h0, h1⟩ := Res.bind_eq_ok.1 h
  have := Res.ok.inj h1
  subst this
  refine key u0 ?_
  unfold requestedIfaces at h0
  split at h0
  · have := Res.ok.inj h0; subst this; rfl
  · split at h0
    · cases h0
    · have := Res.ok.inj h0; subst this; rfl

theorem prep_length {ss : List Schema} {ref : Str} {u : IfaceUse} (h : prepareIfaces ss ref = .ok u) : u.tops.length = ss.length := by
  have key : ∀ u0 : IfaceUse, u0.tops = ss.map buildSchema → (prepareDefault u0).tops.length = ss.length := by
    intro u0 h0
    unfold prepareDefault
    split
    · rw [h0, List.length_map]
    · split
      · simp only; rw [List.length_set, h0, List.length_map]
      · rw [h0, List.length_map]
  unfold prepareIfaces at h
  obtain ⟨u0, h0, h1⟩ := Res.bind_eq_ok.1 h
  have := Res.ok.inj h1
  subst this
  refine key u0 ?_
  unfold requestedIfaces at h0
  split at h0
  · have := Res.ok.inj h0; subst this; rfl
  · split at h0
    · cases h0
    · have := Res.ok.inj h0; subst this; rfl

theorem handler_mem {u : IfaceUse} {i : Nat} {marked : List MsgKey} {t : List GNs} (ht : u.tops[i]? = some t) (h : CHandler) :
    h ∈ u.cHandlers i marked ↔ ∃ c ∈ chainsOf [] t, ∃ n f, c.head? = some n ∧ u.suitable i t c = some f ∧ f.1 = n.path ∧
      h = { ns := n.path, iface := f, types := (cHandlerMessages marked i t n).map fun e => (e, f) } := by
  unfold IfaceUse.cHandlers
  rw [ht]
  simp only [Option.getD_some, List.mem_filterMap]
  constructor
  · rintro ⟨c, hc, hx⟩
    split at hx
    · rename_i n f hn hf
      split at hx
      · rename_i hp
        exact ⟨c, hc, n, f, hn, hf, hp, (Option.some.inj hx).symm⟩
      · cases hx
    · cases hx
  · rintro ⟨c, hc, n, f, hn, hf, hp, rfl⟩
    refine ⟨c, hc, ?_⟩
    rw [hn, hf]
    simp only
    rw [if_pos hp]

theorem chain_head_node {s : Schema} {c : List GNs} (h : c ∈ chainsOf [] (buildSchema s)) {n : GNs} (hn : c.head? = some n) : n ∈ allNsOf (buildSchema s) := by
  have key : ∀ (up : List GNs) (l : List GNs), c ∈ chainsOf up l → n ∈ allNsOf l := by
    have : ∀ k, (∀ (m : GNs), sizeOf m ≤ k → ∀ up, c ∈ m.chains up → n ∈ m.allNs) := by
      intro k
      induction k with
      | zero => intro m hm; cases m; simp at hm
      | succ k ih =>
        intro m hm up hc
        cases m with
        | mk a b f ms is frs subs =>
          rw [GNs.chains, List.mem_append, chainsOf_mem] at hc
          rw [GNs.allNs, List.mem_append]
          rcases hc with ⟨x, hx, hc⟩ | hc
          · refine .inl ((allNsOf_mem _ _).2 ⟨x, hx, ih x ?_ _ hc⟩)
            have := List.sizeOf_lt_of_mem hx
            simp only [GNs.mk.sizeOf_spec] at hm
            omega
          · rw [List.mem_singleton] at hc
            subst hc
            simp only [List.head?_cons, Option.some.injEq] at hn
            exact .inr (by rw [hn]; simp)
    intro up l hc
    obtain ⟨m, hm, hc⟩ := (chainsOf_mem _ _ _).1 hc
    exact (allNsOf_mem _ _).2 ⟨m, hm, this _ m (Nat.le_refl _) up hc⟩
  exact key [] _ h

theorem handler_chosen {u : IfaceUse} {i : Nat} {marked : List MsgKey} {t : List GNs} (ht : u.tops[i]? = some t) {h : CHandler} (hh : h ∈ u.cHandlers i marked) :
    (h.ns, some h.iface) ∈ u.chosen i ∧ h.iface.1 = h.ns ∧ (∀ x ∈ h.types, x.2 = h.iface) := by
  obtain ⟨c, hc, n, f, hn, hf, hp, rfl⟩ := (handler_mem ht h).1 hh
  refine ⟨(chosen_mem ht _).2 ⟨c, hc, ?_⟩, hp, ?_⟩
  · rw [hn, hf]; rfl
  · intro x hx
    obtain ⟨e, _, rfl⟩ := List.mem_map.1 hx
    rfl

theorem listing_filter {P : Path × Message → Prop} {l : List (Path × Message)} (h : Listing P l) (q : Path × Message → Bool) :
    Listing (fun e => P e ∧ q e = true) (l.filter q) := by
  refine ⟨fun e => ?_, h.once.filter _, h.ascending.filter _⟩
  rw [List.mem_filter, h.exact]

end SuitProofs

/-! ## C126 -/

/-- C126: a handler has one function for each requested message of its namespace, each once, in ascending order of ids; the handler of a global namespace without
    messages has one for each requested message of the schema. -/
theorem C126_messages (fo : FloatOps) (p : Proto) (h : Reachable fo p) (ref : Str) (u : IfaceUse) (hu : prepareIfaces p.schemas ref = .ok u) (marked : List MsgKey)
    (i : Nat) (s : Schema) (hi : p.schemas[i]? = some s) (hif : i + 1 = p.schemas.length → s.ifaces ≠ []) (c : CHandler) (hc : c ∈ u.cHandlers i marked) :
    Listing (fun e => MessageFor s c.ns e ∧ (i, e.1, e.2.name) ∈ marked) (c.types.map Prod.fst) := by
  have hinv := reachable_inv h
  have hs := hinv.each s (List.mem_of_getElem? hi)
  have ht := prep_tops hinv.each hu hi hif
  obtain ⟨ch, hch, n, f, hn, hf, hp, rfl⟩ := (handler_mem ht c).1 hc
  have hnode := chain_head_node hch hn
  have hl := listing_filter (msgIdMessages_spec hs hnode) fun e => marked.contains (i, e.1, e.2.name)
  simp only [List.map_map]
  have : (cHandlerMessages marked i (buildSchema s) n).map (Prod.fst ∘ fun e => (e, f)) = cHandlerMessages marked i (buildSchema s) n := by
    exact (List.map_congr_left (g := id) fun e _ => rfl).trans (List.map_id _)
  rw [this]
  refine ⟨fun e => ?_, hl.once, hl.ascending⟩
  refine (hl.exact e).trans ?_
  simp only [List.contains_iff_mem]

/-- C126: there is a handler exactly for the namespaces that use an interface of their own. -/
theorem C126_handlers (fo : FloatOps) (p : Proto) (h : Reachable fo p) (ref : Str) (u : IfaceUse) (hu : prepareIfaces p.schemas ref = .ok u) (marked : List MsgKey)
    (i : Nat) (s : Schema) (hi : p.schemas[i]? = some s) (hif : i + 1 = p.schemas.length → s.ifaces ≠ []) (q : Path) (f : Path × Interface) :
    (∃ c ∈ u.cHandlers i marked, c.ns = q ∧ c.iface = f) ↔ (q, some f) ∈ u.chosen i ∧ f.1 = q := by
  have ht := prep_tops (reachable_inv h).each hu hi hif
  constructor
  · rintro ⟨c, hc, rfl, rfl⟩
    exact ⟨(handler_chosen ht hc).1, (handler_chosen ht hc).2.1⟩
  · rintro ⟨h1, rfl⟩
    obtain ⟨c, hc, hx⟩ := (chosen_mem ht _).1 h1
    obtain ⟨h2, h3⟩ := Prod.mk.inj hx
    cases c with
    | nil =>
      obtain ⟨q, hq, _⟩ := schema_chain hc
      cases hq
    | cons n c =>
      exact ⟨_, (handler_mem ht _).2 ⟨_, hc, n, f, rfl, h3.symm, h2, rfl⟩, h2.symm, rfl⟩

namespace SuitProofs

theorem type_of {u : IfaceUse} {i : Nat} {e : Path × Message} {f : Path × Interface} (h1 : ∃ r, (e.1, r) ∈ u.chosen i)
    (h2 : ∀ r, (e.1, r) ∈ u.chosen i → r = some f) : u.cMessageType i e = some (e, f) := by
  unfold IfaceUse.cMessageType
  cases hf : (u.chosen i).find? (fun x => x.1 == e.1) with
  | none =>
    obtain ⟨r, hr⟩ := h1
    have := List.find?_eq_none.1 hf _ hr
    simp at this
  | some x =>
    obtain ⟨q, r⟩ := x
    have h3 := List.find?_some hf
    simp only [beq_iff_eq] at h3
    subst h3
    have := h2 r (List.mem_of_find?_eq_some hf)
    subst this
    rfl

end SuitProofs

/-- C126: the functions of a handler take the classes that the handles of the messages stand for. What is missing: a handler of the global namespace, if that has no
    messages, takes the messages of all namespaces, which may have other interfaces (witness). -/
theorem C126_typed_partial (fo : FloatOps) (p : Proto) (h : Reachable fo p) (u : IfaceUse) (hu : prepareIfaces p.schemas [] = .ok u) (marked : List MsgKey)
    (i : Nat) (s : Schema) (hi : p.schemas[i]? = some s) (hif : s.ifaces ≠ []) (c : CHandler) (hc : c ∈ u.cHandlers i marked)
    (hns : c.ns = [] → ∃ e ∈ s.messages, e.1 = []) : ∀ x ∈ c.types, u.cMessageType i x.1 = some x := by
  have hinv := reachable_inv h
  have hs := hinv.each s (List.mem_of_getElem? hi)
  have ht := prep_tops hinv.each hu hi fun _ => hif
  obtain ⟨h1, h2⟩ := C125_top fo p h i s hi u hu
  obtain ⟨h3, h4, h5⟩ := handler_chosen ht hc
  obtain ⟨n1, n2, n3, n4⟩ := ((h2 _ _ h3).1 hif c.iface).1 rfl
  intro x hx
  have hm := ((C126_messages fo p h [] u hu marked i s hi (fun _ => hif) c hc).exact x.1).1 (List.mem_map.2 ⟨x, hx, rfl⟩)
  have hx2 := h5 x hx
  have hin : x.1 ∈ s.messages ∧ NsInside c.ns x.1.1 := by
    rcases hm.1 with hm | ⟨h0, hno, _⟩
    · exact hm
    · obtain ⟨e, he, he0⟩ := hns h0
      exact absurd he0 (hno e he)
  have hq : x.1.1 ∈ s.nss := (hs.messages.1 _ hin.1).1
  have hpre : c.iface.1 <+: x.1.1 := by
    rw [h4]
    have := hin.2
    unfold NsInside at this
    split at this
    · rename_i h0; rw [h0]; exact List.nil_prefix
    · obtain ⟨r, hr⟩ := this; exact ⟨r, hr.symm⟩
  have hnear : NearestTopIface s x.1.1 c.iface := by
    refine ⟨n1, hpre, n3, fun g hg hl hp => ?_⟩
    by_cases h0 : c.ns = []
    · have := hin.2
      unfold NsInside at this
      rw [if_pos h0] at this
      rw [this] at hp
      have : g.1 = [] := by simpa using hp
      rw [this]; simp
    · have : 0 < c.iface.1.length := by rw [h4]; exact List.length_pos_iff.2 h0
      omega
  have := type_of (e := x.1) (f := c.iface) (h1 _ hq) fun r hr => ((h2 _ _ hr).1 hif c.iface).2 hnear
  rw [this, ← hx2]

/-- C126: with an interface requested the functions always take the classes that the handles of the messages stand for. -/
theorem C126_typed_forced (fo : FloatOps) (p : Proto) (h : Reachable fo p) (j : Nat) (sj : Schema) (path : Path) (f : Interface) (ref : Str)
    (hj : p.schemas[j]? = some sj) (hf : (path, f) ∈ sj.ifaces) (hr : RefTextOf p.schemas (p.schemas.length - 1) j path f.name ref)
    (u : IfaceUse) (hu : prepareIfaces p.schemas ref = .ok u) (marked : List MsgKey) (i : Nat) (s : Schema) (hi : p.schemas[i]? = some s)
    (hif : i + 1 = p.schemas.length → s.ifaces ≠ []) (c : CHandler) (hc : c ∈ u.cHandlers i marked) :
    c.ns = path ∧ c.iface = (path, f) ∧ ∀ x ∈ c.types, u.cMessageType i x.1 = some x := by
  have hinv := reachable_inv h
  have hs := hinv.each s (List.mem_of_getElem? hi)
  have ht := prep_tops hinv.each hu hi hif
  obtain ⟨u', hu', hall⟩ := C125_forced fo p h j sj path f ref hj hf hr
  rw [hu] at hu'
  have := Res.ok.inj hu'
  subst this
  obtain ⟨h1, h2⟩ := hall i s hi hif
  obtain ⟨h3, h4, h5⟩ := handler_chosen ht hc
  obtain ⟨k1, k2, k3⟩ := (h2 _ _ h3 c.iface).1 rfl
  have hns : c.ns = path := by rw [← h4, k2]
  refine ⟨hns, k2, fun x hx => ?_⟩
  have hm := ((C126_messages fo p h ref u hu marked i s hi hif c hc).exact x.1).1 (List.mem_map.2 ⟨x, hx, rfl⟩)
  have hin : x.1 ∈ s.messages ∧ path <+: x.1.1 := by
    rcases hm.1 with ⟨hm1, hm2⟩ | ⟨h0, _, hm1⟩
    · refine ⟨hm1, ?_⟩
      unfold NsInside at hm2
      split at hm2
      · rename_i h0; rw [← hns, h0]; exact List.nil_prefix
      · obtain ⟨r, hr⟩ := hm2; exact ⟨r, by rw [← hns]; exact hr.symm⟩
    · exact ⟨hm1, by rw [← hns, h0]; exact List.nil_prefix⟩
  have := type_of (e := x.1) (f := c.iface) (h1 _ (hs.messages.1 _ hin.1).1) fun r hr => (h2 _ _ hr c.iface).2 ⟨k1, k2, hin.2⟩
  rw [this, ← h5 x hx]

/-! ## The list of source files -/

namespace SuitProofs

theorem listedOf_mem (u : IfaceUse) (i cur : Nat) (up : List GNs) (l : List GNs) (q : Path) : q ∈ cListedOf u i cur up l ↔ ∃ n ∈ l, q ∈ n.cListed u i cur up := by
  induction l with
  | nil => simp [cListedOf]
  | cons x l ih => rw [cListedOf, List.mem_append, ih]; simp

theorem listed_chain (u : IfaceUse) (i cur : Nat) : ∀ (k : Nat) (n : GNs), sizeOf n ≤ k → ∀ (up : List GNs) (q : Path), q ∈ n.cListed u i cur up →
    ∃ c ∈ n.chains up, ∃ m, c.head? = some m ∧ m.path = q ∧ m.ifaces ≠ [] ∧ u.hasIface i cur c = true := by
  intro k
  induction k with
  | zero => intro m hm; cases m; simp at hm
  | succ k ih =>
    intro n hn up q hq
    cases n with
    | mk a b f ms is frs subs =>
      rw [GNs.cListed] at hq
      split at hq
      · rename_i hh
        rw [List.mem_append, listedOf_mem] at hq
        rw [GNs.chains]
        rcases hq with ⟨x, hx, hq⟩ | hq
        · have hsz : sizeOf x ≤ k := by
            have := List.sizeOf_lt_of_mem hx
            simp only [GNs.mk.sizeOf_spec] at hn
            omega
          obtain ⟨c, hc, r⟩ := ih x hsz _ _ hq
          exact ⟨c, List.mem_append.2 (.inl ((chainsOf_mem _ _ _).2 ⟨x, hx, hc⟩)), r⟩
        · refine ⟨_, List.mem_append.2 (.inr (by simp)), _, rfl, ?_, ?_, hh⟩
          · split at hq
            · cases hq
            · rw [List.mem_singleton] at hq; exact hq.symm
          · intro h0
            have : is = [] := h0
            rw [this] at hq
            simp at hq
      · cases hq

theorem nearest_or (u : IfaceUse) (i : Nat) (t : List GNs) (c : List GNs) : u.nearest i t c = (u.nearest i [] c).or ((globalIfaces t).find? (u.isUsed i)) := by
  induction c with
  | nil =>
    rw [IfaceUse.nearest, IfaceUse.nearest]
    have : globalIfaces [] = [] := rfl
    rw [this, List.find?_nil, Option.none_or]
  | cons n c ih =>
    rw [IfaceUse.nearest, IfaceUse.nearest]
    cases u.ownIface i n with
    | none => exact ih
    | some f => rfl

theorem unforced_none {ss : List Schema} {u : IfaceUse} (hu : prepareIfaces ss [] = .ok u) : u.forced = none := by
  rw [unforced_prep hu]
  unfold prepareDefault
  split
  · rfl
  · split <;> rfl

end SuitProofs

/-- C126: the source files of exactly the handlers written are compiled. What is missing: interfaces in nested namespaces, and schemas before the last one: their handlers
    may be in the list of files although they are not written (witnesses), and the other way around if an interface is requested (witness). -/
theorem C126_sources_partial (fo : FloatOps) (p : Proto) (h : Reachable fo p) (u : IfaceUse) (hu : prepareIfaces p.schemas [] = .ok u) (marked : List MsgKey)
    (i : Nat) (s : Schema) (hi : p.schemas[i]? = some s) (hlast : i + 1 = p.schemas.length) (hif : s.ifaces ≠ []) (hflat : ∀ e ∈ s.ifaces, e.1.length ≤ 1) (q : Path) :
    q ∈ u.cHandlerSources i ↔ ∃ c ∈ u.cHandlers i marked, c.ns = q := by
  have hinv := reachable_inv h
  have hs := hinv.each s (List.mem_of_getElem? hi)
  have ht := prep_tops hinv.each hu hi fun _ => hif
  obtain ⟨h1, h2⟩ := C125_top fo p h i s hi u hu
  have hcur : u.tops.length - 1 = i := by rw [prep_length hu]; omega
  have hhas : ∀ c, u.hasIface i i c = (u.suitable i (buildSchema s) c).isSome := by
    intro c
    unfold IfaceUse.hasIface IfaceUse.suitable
    rw [unforced_none hu, ht]
    simp only [Option.getD_some]
    rw [nearest_or u i (buildSchema s) c]
    cases u.nearest i [] c <;> simp
  have hsrc : u.cHandlerSources i = cListedOf u i i [] (buildSchema s) := by
    unfold IfaceUse.cHandlerSources
    rw [hcur, ht]
    rfl
  rw [hsrc, listedOf_mem]
  constructor
  · rintro ⟨n, hn, hq⟩
    obtain ⟨c, hc, m, hm, rfl, hmi, hhc⟩ := listed_chain u i i _ n (Nat.le_refl _) [] q hq
    have hc : c ∈ chainsOf [] (buildSchema s) := (chainsOf_mem _ _ _).2 ⟨n, hn, hc⟩
    rw [hhas] at hhc
    obtain ⟨e, he⟩ := Option.isSome_iff_exists.1 hhc
    have hch : (m.path, some e) ∈ u.chosen i := (chosen_mem ht _).2 ⟨c, hc, by rw [hm, he]; rfl⟩
    obtain ⟨n1, n2, n3, n4⟩ := ((h2 _ _ hch).1 hif e).1 rfl
    have hown : ∃ g ∈ s.ifaces, g.1 = m.path := by
      obtain ⟨d, q, rfl, _⟩ := schema_nodes (chain_head_node hc hm)
      rw [buildNs_ifaces] at hmi
      obtain ⟨g, hg⟩ := List.exists_mem_of_ne_nil _ hmi
      rw [buildNs_path]
      exact ⟨(q, g), (elemsAt_mem _ _ _ _).1 hg, rfl⟩
    obtain ⟨g, hg, hgp⟩ := hown
    have hle := n4 g hg (hflat g hg) (by rw [hgp]; exact List.prefix_refl _)
    have hep : e.1 = m.path := n2.eq_of_length (by have := n2.length_le; rw [hgp] at hle; omega)
    exact ⟨_, (handler_mem ht _).2 ⟨c, hc, m, e, hm, he, hep, rfl⟩, rfl⟩
  · rintro ⟨c, hc, rfl⟩
    obtain ⟨ch, hch, n, f, hn, hf, hp, rfl⟩ := (handler_mem ht c).1 hc
    have hcho : (n.path, some f) ∈ u.chosen i := (chosen_mem ht _).2 ⟨ch, hch, by rw [hn, hf]; rfl⟩
    obtain ⟨n1, n2, n3, n4⟩ := ((h2 _ _ hcho).1 hif f).1 rfl
    have hnn := chain_head_node hch hn
    have hq : n.path ∈ s.nss := by
      obtain ⟨d, q, rfl, hq, _⟩ := schema_nodes hnn
      rw [buildNs_path]; exact hq
    obtain ⟨m, hm, hmp⟩ := short_top hs hq (by rw [← hp]; exact n1)
    refine ⟨m, hm, ?_⟩
    have hmi : m.ifaces ≠ [] := by
      obtain ⟨d, hd⟩ := (top_length hm).2
      intro h0
      rw [hd, buildNs_ifaces] at h0
      have : f.2 ∈ elemsAt Interface.name s.ifaces m.path := (elemsAt_mem _ _ _ _).2 (by rw [hmp, ← hp]; exact n3.1)
      rw [h0] at this
      cases this
    have hmc : [m] ∈ chainsOf [] (buildSchema s) := by
      refine (chainsOf_mem _ _ _).2 ⟨m, hm, ?_⟩
      cases m
      rw [GNs.chains]
      simp
    have hsm : u.hasIface i i [m] = true := by
      rw [hhas]
      have := (h2 m.path _ ((chosen_mem ht _).2 ⟨[m], hmc, rfl⟩)).1 hif f
      rw [this.2 ⟨n1, by rw [hmp]; exact n2, n3, fun g hg hl hp' => n4 g hg hl (by rw [← hmp]; exact hp')⟩]
      rfl
    cases m with
    | mk a b fs ms is frs subs =>
      rw [GNs.cListed, if_pos hsm]
      have h0 : is ≠ [] := hmi
      have h1 : a = n.path := hmp
      rw [if_neg (by simpa using h0), h1]
      simp

namespace SuitSample
open Sample MsgSample

/-- The handlers written for the first schema: namespace, interface and messages. -/
def written (ss : List Schema) (name : String) (marked : List MsgKey) : List (Path × (Path × Str) × List (Path × Str)) := match prepareIfaces ss name.toList with
  | .ok u => (u.cHandlers 0 marked).map fun c => (c.ns, (c.iface.1, c.iface.2.name), c.types.map fun x => (x.1.1, x.1.2.name))
  | _ => []
/-- The handlers in the list of source files. -/
def listedFiles (ss : List Schema) (name : String) : List Path := match prepareIfaces ss name.toList with
  | .ok u => u.cHandlerSources 0
  | _ => []
/-- The messages of handlers of the first schema with the interfaces of the class that the function takes and of the class that the handle stands for. -/
def typesOf (ss : List Schema) (name : String) (marked : List MsgKey) : List (Path × Str × Path × Option Path) := match prepareIfaces ss name.toList with
  | .ok u => (u.cHandlers 0 marked).flatMap fun c => c.types.map fun x => (c.ns, x.1.2.name, x.2.1, (u.cMessageType 0 x.1).map fun y => y.2.1)
  | _ => []

/-- A global interface without global messages. -/
def docsG : List Xml := [schemaEl "S" [ifaceEl "G", nsEl "A" [ifaceEl "IA", msgEl "M" "1", msgEl "M0" "0"]]]
def marksG : List MsgKey := [(0, [t "A"], t "M"), (0, [t "A"], t "M0")]
end SuitSample
open Sample MsgSample SuitSample

/-- The hypotheses of `C126_messages`, `C126_handlers` and `C126_sources_partial` are met. -/
example : ∃ p s, Reachable fo0 p ∧ p.validated = true ∧ p.schemas[0]? = some s ∧ s.ifaces ≠ [] ∧ (∀ e ∈ s.ifaces, e.1.length ≤ 1) ∧
    written p.schemas "" marksG = [([], ([], t "G"), [([t "A"], t "M0"), ([t "A"], t "M")]), ([t "A"], ([t "A"], t "IA"), [([t "A"], t "M0"), ([t "A"], t "M")])] ∧
    listedFiles p.schemas "" = [[], [t "A"]] := by
  obtain ⟨s, hs, h⟩ : ∃ s, (after docsG).schemas[0]? = some s ∧ (!s.ifaces.isEmpty && s.ifaces.all (fun e => decide (e.1.length ≤ 1))) = true := by
    have : (match (after docsG).schemas[0]? with
      | some s => (!s.ifaces.isEmpty && s.ifaces.all (fun e => decide (e.1.length ≤ 1)))
      | none => false) = true := by decide +kernel
    split at this
    · rename_i s hs; exact ⟨s, hs, this⟩
    · cases this
  rw [Bool.and_eq_true] at h
  exact ⟨after docsG, s, after_reachable _, by decide +kernel, hs, by simpa using h.1, fun e he => of_decide_eq_true (List.all_eq_true.1 h.2 e he),
    by decide +kernel, by decide +kernel⟩

/-- The hypotheses of `C126_typed_forced` are met: the handler of the namespace of the interface asked for is the only one, and its function takes the class of the handle. -/
example : ∃ p s f, Reachable fo0 p ∧ p.validated = true ∧ p.schemas[0]? = some s ∧ ([t "A", t "B"], f) ∈ s.ifaces ∧
    RefTextOf p.schemas (p.schemas.length - 1) 0 [t "A", t "B"] f.name (t "A.B.IB") ∧
    typesOf p.schemas "A.B.IB" [(0, [t "A", t "B"], t "M2")] = [([t "A", t "B"], t "M2", [t "A", t "B"], some [t "A", t "B"])] := by
  obtain ⟨s, hs, h⟩ : ∃ s, (after docsN).schemas[0]? = some s ∧ s.ifaces.any (fun e => decide (e.1 = [t "A", t "B"] ∧ e.2.name = t "IB")) = true := by
    have : (match (after docsN).schemas[0]? with
      | some s => s.ifaces.any (fun e => decide (e.1 = [t "A", t "B"] ∧ e.2.name = t "IB"))
      | none => false) = true := by decide +kernel
    split at this
    · rename_i s hs; exact ⟨s, hs, this⟩
    · cases this
  obtain ⟨e, he, h⟩ := List.any_eq_true.1 h
  obtain ⟨h1, h2⟩ := of_decide_eq_true h
  refine ⟨after docsN, s, e.2, after_reachable _, by decide +kernel, hs, by rw [← h1]; exact he, ⟨s, hs, .inr ⟨by decide +kernel, ?_⟩⟩, by decide +kernel⟩
  rw [h2]
  rfl

theorem typesOf_ok {ss : List Schema} {name : String} {marked : List MsgKey} {v : Path × Str × Path × Option Path} (h : v ∈ typesOf ss name marked) :
    ∃ u, prepareIfaces ss name.toList = .ok u ∧ ∃ c ∈ u.cHandlers 0 marked, ∃ x ∈ c.types,
      v = (c.ns, x.1.2.name, x.2.1, (u.cMessageType 0 x.1).map fun y => y.2.1) := by
  unfold typesOf at h
  split at h
  · rename_i u hu
    obtain ⟨c, hc, h⟩ := List.mem_flatMap.1 h
    obtain ⟨x, hx, rfl⟩ := List.mem_map.1 h
    exact ⟨u, hu, c, hc, x, hx, rfl⟩
  · cases h

/-- C126: a handler of the global namespace whose function takes a class that no handle stands for: the generated code doesn't compile. -/
theorem C126_typed_witness : ∃ p s u c x y, Reachable fo0 p ∧ p.validated = true ∧ p.schemas[0]? = some s ∧ s.ifaces ≠ [] ∧ prepareIfaces p.schemas [] = .ok u ∧
    c ∈ u.cHandlers 0 marksG ∧ c.ns = [] ∧ x ∈ c.types ∧ x.2.1 = [] ∧ u.cMessageType 0 x.1 = some y ∧ y.2.1 = [t "A"] := by
  obtain ⟨s, hs, h⟩ : ∃ s, (after docsG).schemas[0]? = some s ∧ (!s.ifaces.isEmpty) = true := by
    have : (match (after docsG).schemas[0]? with
      | some s => !s.ifaces.isEmpty
      | none => false) = true := by decide +kernel
    split at this
    · rename_i s hs; exact ⟨s, hs, this⟩
    · cases this
  obtain ⟨u, hu, c, hc, x, hx, hv⟩ := typesOf_ok (ss := (after docsG).schemas) (name := "") (marked := marksG) (v := ([], t "M", [], some [t "A"])) (by decide +kernel)
  simp only [Prod.mk.injEq] at hv
  obtain ⟨h1, h2, h3, h4⟩ := hv
  obtain ⟨y, hy, hy2⟩ := Option.map_eq_some_iff.1 h4.symm
  exact ⟨after docsG, s, u, c, x, y, after_reachable _, by decide +kernel, hs, by simpa using h, hu, hc, h1.symm, hx, h3.symm, hy, hy2⟩

theorem files_ok {ss : List Schema} {name : String} {marked : List MsgKey} {l : List Path} {m : List Path} (h : listedFiles ss name = l)
    (h2 : (written ss name marked).map (fun e => e.1) = m) (hl : l ≠ [] ∨ m ≠ []) : ∃ u, prepareIfaces ss name.toList = .ok u ∧ u.cHandlerSources 0 = l ∧
      (u.cHandlers 0 marked).map CHandler.ns = m := by
  unfold listedFiles at h
  unfold written at h2
  cases hu : prepareIfaces ss name.toList with
  | ok u =>
    rw [hu] at h h2
    refine ⟨u, rfl, h, ?_⟩
    rw [← h2]
    simp only [List.map_map]
    rfl
  | err => rw [hu] at h h2; subst h h2; simp at hl
  | ub => rw [hu] at h h2; subst h h2; simp at hl

/-- C126: the handler of a namespace with an interface that is nested is in the list of source files, but it is not written. -/
theorem C126_listed_witness : ∃ p u, Reachable fo0 p ∧ p.validated = true ∧ prepareIfaces p.schemas [] = .ok u ∧ [t "A", t "B"] ∈ u.cHandlerSources 0 ∧
    ¬∃ c ∈ u.cHandlers 0 [], c.ns = [t "A", t "B"] := by
  obtain ⟨u, hu, h1, h2⟩ := files_ok (ss := (after docsN).schemas) (name := "") (marked := []) (l := [[t "A", t "B"], [t "A"]]) (m := [[t "A"]])
    (by decide +kernel) (by decide +kernel) (.inl (by simp))
  refine ⟨after docsN, u, after_reachable _, by decide +kernel, hu, by rw [h1]; simp, ?_⟩
  rintro ⟨c, hc, hn⟩
  have : c.ns ∈ (u.cHandlers 0 []).map CHandler.ns := List.mem_map.2 ⟨c, hc, rfl⟩
  rw [h2, hn] at this
  revert this
  decide

/-- C126: with an interface of a nested namespace requested, its handler is written, but it is not in the list of source files. -/
theorem C126_unlisted_witness : ∃ p u, Reachable fo0 p ∧ p.validated = true ∧ prepareIfaces p.schemas (t "A.B.IB") = .ok u ∧ u.cHandlerSources 0 = [] ∧
    ∃ c ∈ u.cHandlers 0 [], c.ns = [t "A", t "B"] := by
  obtain ⟨u, hu, h1, h2⟩ := files_ok (ss := (after docsN).schemas) (name := "A.B.IB") (marked := []) (l := []) (m := [[t "A", t "B"]])
    (by decide +kernel) (by decide +kernel) (.inr (by simp))
  refine ⟨after docsN, u, after_reachable _, by decide +kernel, hu, h1, ?_⟩
  have : [t "A", t "B"] ∈ (u.cHandlers 0 []).map CHandler.ns := by rw [h2]; simp
  exact List.mem_map.1 this

end Commsdsl.Props
