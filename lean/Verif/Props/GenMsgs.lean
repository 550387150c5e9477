import Verif.Lemmas.GenMsgs
import Verif.Props.GenNum
import Verif.Props.GenTypes
import Verif.Props.GenScope
import Verif.Props.GenSchema
/-!
# Lists of messages, factories and dispatch functions of the generated code: C84, C85, C86
-/
namespace Commsdsl.Props
open Commsdsl Text Fld Msg Frm Proto Spec Gen

namespace MsgProofs

/-! ## Ids and labels -/

theorem castI64_eq {n : Nat} (h : n < 2 ^ 64) : castI64 n = asSigned n := by
  unfold castI64 asSigned
  split <;> omega

theorem asSigned_inj {a b : Nat} (ha : a < 2 ^ 64) (hb : b < 2 ^ 64) (h : asSigned a = asSigned b) : a = b := by
  unfold asSigned at h
  split at h <;> split at h <;> omega

theorem denotes_star {t : Str} {n : Nat} (h : DenotesU t n) : '*' ∉ t := by
  intro hm; have := denotes_chars h _ hm; revert this; decide

theorem idLabel_ok {id : Nat} (h : id < 2 ^ 64) (hne : id ≠ 2 ^ 63) : ∃ t, idLabel id = .ok t ∧ LabelIs t (asSigned id) := by
  have hr : -2 ^ 63 < asSigned id ∧ asSigned id < 2 ^ 63 := by unfold asSigned; split <;> omega
  obtain ⟨e, c, h1, h2, h3⟩ := C51_comment_partial (asSigned id) hr.1 hr.2
  refine ⟨e ++ c, by unfold idLabel; rw [castI64_eq h]; exact h1, e, c, rfl, h2, ?_⟩
  rcases h3 with rfl | ⟨t, rfl, h3⟩
  · exact .inl rfl
  · refine .inr ⟨t, rfl, ?_⟩
    rcases h3 with ⟨n, hd, _⟩ | ⟨t', n, rfl, hd, _⟩
    · exact denotes_star hd
    · intro hm
      rcases List.mem_cons.1 hm with h | h
      · revert h; decide
      · exact denotes_star hd h

theorem idLabel_undef : idLabel (2 ^ 63) = .ub := by decide +kernel

theorem idLabel_spec {id : Nat} (h : id < 2 ^ 64) {t : Str} (ht : idLabel id = .ok t) : id ≠ 2 ^ 63 ∧ LabelIs t (asSigned id) := by
  have hne : id ≠ 2 ^ 63 := by rintro rfl; rw [idLabel_undef] at ht; cases ht
  obtain ⟨t', ht', hl⟩ := idLabel_ok h hne
  rw [ht] at ht'
  exact ⟨hne, (Res.ok.inj ht') ▸ hl⟩

theorem labelled_ok {α : Type} {code : Nat × List (Path × Message) → Res α} {g : Nat × List (Path × Message)} {r : Str × α} :
    labelled code g = .ok r ↔ idLabel g.1 = .ok r.1 ∧ code g = .ok r.2 := by
  unfold labelled
  simp only [Res.bind_eq_ok, Res.pure_eq]
  constructor
  · rintro ⟨t, h1, c, h2, h3⟩
    have := Res.ok.inj h3
    subst this
    exact ⟨h1, h2⟩
  · rintro ⟨h1, h2⟩
    exact ⟨_, h1, _, h2, rfl⟩

/-- The case that is run for an id. -/
theorem runs_iff {α : Type} {code : Nat × List (Path × Message) → Res α} {m : List (Nat × List (Path × Message))} {cases : List (Str × α)}
    (hc : mapRes (labelled code) m = .ok cases) (hm : ∀ g ∈ m, g.1 < 2 ^ 64) {id : Nat} (hid : id < 2 ^ 64) (c : α) :
    Runs cases (asSigned id) c ↔ ∃ grp, (id, grp) ∈ m ∧ code (id, grp) = .ok c := by
  have hmem := (mapRes_ok hc).1
  constructor
  · rintro ⟨label, hl, hv⟩
    obtain ⟨⟨k, grp⟩, hg, he⟩ := (hmem _).1 hl
    obtain ⟨h1, h2⟩ := labelled_ok.1 he
    have hk := hm _ hg
    have := label_one hv (idLabel_spec hk h1).2
    have := asSigned_inj hid hk this
    subst this
    exact ⟨grp, hg, h2⟩
  · rintro ⟨grp, hg, h2⟩
    obtain ⟨b, hb⟩ : ∃ b ∈ cases, labelled code (id, grp) = .ok b := by
      have hlen := (mapRes_ok hc).2
      clear hlen hmem
      induction m generalizing cases with
      | nil => cases hg
      | cons a m ih =>
        unfold mapRes at hc
        simp only [Res.bind_eq_ok, Res.pure_eq] at hc
        obtain ⟨b, hb, r, hr, he⟩ := hc
        have := Res.ok.inj he
        subst this
        rcases List.mem_cons.1 hg with rfl | hg
        · exact ⟨b, by simp, hb⟩
        · obtain ⟨x, hx, he⟩ := ih hr (fun g h => hm g (by simp [h])) hg
          exact ⟨x, by simp [hx], he⟩
    obtain ⟨h1, h3⟩ := labelled_ok.1 hb.2
    have : b.2 = c := by rw [h2] at h3; exact (Res.ok.inj h3).symm
    subst this
    exact ⟨b.1, hb.1, (idLabel_spec hid h1).2⟩

/-! ## Ids of messages -/

theorem msg_id_lt {m : Message} (h : AcceptedMsg m) : m.id < 2 ^ 64 := by
  cases h with
  | parse _ _ hp =>
    obtain ⟨props, m0, m1, src, fs, al, hr⟩ := parseMessage_run hp
    have := (msgHead_ok hr.head).2.2.2.1
    rw [hr.id]
    unfold msgId at this
    split at this
    · cases this
    dsimp only at this
    split at this
    · have := Res.ok.inj this
      rw [← this]
      unfold castU64; omega
    · have := Res.ofOption_eq_ok.1 this
      obtain ⟨_, _, _, v, _, _, _, hv⟩ := C01_uintmax_sound _ _ this
      omega

/-! ## Types -/

theorem upperFirst_eq (n : Str) : className n = upperFirst n := by cases n <;> rfl

theorem msgType_eq (main : Str) (e : Path × Message) (hm : main ≠ []) (hp : ∀ x ∈ e.1, x ≠ []) (hn : e.2.name ≠ []) :
    msgType main e = typeText main e := by
  unfold msgType scopeFor chainOf
  rw [show leafTy (({ ty := .message, name := e.2.name } : GElem) :: _) = .message from rfl]
  rw [scopeInternal]
  have he : elemClass { ty := .message, name := e.2.name } = className e.2.name := by
    unfold elemClass; rw [if_neg]; rintro ⟨h, -⟩; exact class_ne hn (by simpa using h)
  have hj : joinWith scopeSep (main :: e.1) ≠ [] :=
    join_ne _ (by intro a ha; rcases List.mem_cons.1 ha with rfl | ha; exact hm; exact hp a ha) (by simp)
  rw [if_neg (by simp), if_neg (by simp), if_pos rfl, scope_up _ _ _ _ hm hp, parentTy_up, he, addSep_ne hj]
  simp only
  rw [if_neg (by rintro ⟨h, -⟩; cases h), show nonFieldScopeSuffix .message .message = [] by simp [nonFieldScopeSuffix], List.append_nil,
    sub_text (.inl rfl) _ _ _ _ (by simp) rfl, upperFirst_eq]
  simp [typeText, kindDir, scopeSep]

theorem msgHeader_eq (main : Str) (e : Path × Message) (hm : main ≠ []) (hp : ∀ x ∈ e.1, x ≠ []) (hn : e.2.name ≠ []) :
    relHeaderPath main (chainOf .message e.1 e.2.name) = headerText main e := by
  rw [header_eq (.inl rfl) main e.1 e.2.name hm hp hn, upperFirst_eq]
  simp [headerText, kindDir, pathSep]

theorem meant_names {s : Schema} (hs : SchemaInv s) {e : Path × Message} (he : e ∈ s.messages) :
    (∀ x ∈ e.1, x ≠ []) ∧ e.2.name ≠ [] ∧ e.2.id < 2 ^ 64 := by
  obtain ⟨h1, h2, h3⟩ := hs.messages.1 _ he
  exact ⟨fun x hx => name_ne (hs.nsNames _ h1 x hx), name_ne h2, msg_id_lt h3⟩

theorem inv_at {fo : FloatOps} {p : Proto} (h : Reachable fo p) {i : Nat} {s : Schema} (hs : p.schemas[i]? = some s) : SchemaInv s :=
  (reachable_inv h).each s (List.mem_of_getElem? hs)

theorem include_of {h : Str} (h0 : h ≠ []) (h1 : h.head? ≠ some '#') (h2 : h.head? ≠ some '<') : includeText h = "#include \"".toList ++ h ++ "\"".toList := by
  unfold includeText
  split
  · exact absurd rfl h0
  · exact absurd rfl h1
  · exact absurd rfl h2
  · simp

theorem mem_includes {l : List Str} {h : Str} (hm : h ∈ l) (h0 : h ≠ []) (h1 : h.head? ≠ some '#') (h2 : h.head? ≠ some '<') :
    "#include \"".toList ++ h ++ "\"".toList ∈ prepareIncludes l := by
  unfold prepareIncludes
  rw [← include_of h0 h1 h2]
  exact List.mem_map_of_mem (((raw_sorted l).2 h).2 hm)

theorem header_head (main : Str) (e : Path × Message) (hm : main ≠ []) : headerText main e ≠ [] ∧ (headerText main e).head? = main.head? := by
  obtain ⟨c, m, rfl⟩ : ∃ c m, main = c :: m := by
    cases main with
    | nil => exact absurd rfl hm
    | cons c m => exact ⟨c, m, rfl⟩
  unfold headerText
  have : ∃ r, joinWith "/".toList ((c :: m) :: e.1 ++ ["message".toList, upperFirst e.2.name]) = c :: r := by
    rw [List.cons_append]
    generalize hx : e.1 ++ ["message".toList, upperFirst e.2.name] = r
    cases r with
    | nil => simp at hx
    | cons a r => exact ⟨m ++ "/".toList ++ joinWith "/".toList (a :: r), by simp [joinWith]⟩
  obtain ⟨r, hr⟩ := this
  rw [hr]
  exact ⟨by simp, by simp⟩

end MsgProofs
open MsgProofs

/-! ## C84: lists of messages -/

/-- Every namespace of the schema gets its files, and nothing else does. -/
theorem C84_namespaces (fo : FloatOps) (p : Proto) (h : Reachable fo p) (i : Nat) (s : Schema) (hs : p.schemas[i]? = some s) (q : Path) :
    q ∈ s.nss ↔ ∃ n ∈ allNsOf (buildSchema s), n.path = q := by
  constructor
  · exact schema_reaches (inv_at h hs).nsUp
  · rintro ⟨n, hn, rfl⟩
    obtain ⟨d, q, rfl, hq, _⟩ := schema_nodes hn
    rw [buildNs_path]
    exact hq

/-- C84: the list has the types of exactly the messages of the namespace (and of the namespaces inside) that the side may receive, and that are of
    the platform or bundle, each once and in ascending order; there is an alias for each, and its header is included. -/
theorem C84_list (fo : FloatOps) (p : Proto) (h : Reachable fo p) (i : Nat) (s : Schema) (hs : p.schemas[i]? = some s) (n : GNs)
    (hn : n ∈ allNsOf (buildSchema s)) (main : Str) (hm : main ≠ [] ∧ main.head? ≠ some '#' ∧ main.head? ≠ some '<') (sel : Sel) (side : Side) :
    ∃ l, Listing (Meant s i n.path sel side) l ∧ (inputFile main i n sel side).types = l.map (typeText main) ∧
      (inputFile main i n sel side).aliases = l.map (fun e => (upperFirst e.2.name, typeText main e)) ∧
      ∀ e ∈ l, "#include \"".toList ++ headerText main e ++ "\"".toList ∈ (inputFile main i n sel side).includes := by
  have hinv := inv_at h hs
  have hl := listed_spec hinv hn i sel side
  have hnames : ∀ e ∈ listed i n sel side, (∀ x ∈ e.1, x ≠ []) ∧ e.2.name ≠ [] := fun e he =>
    have := meant_names hinv ((hl.exact e).1 he).1
    ⟨this.1, this.2.1⟩
  refine ⟨_, hl, ?_, ?_, ?_⟩
  · exact List.map_congr_left fun e he => msgType_eq main e hm.1 (hnames e he).1 (hnames e he).2
  · refine List.map_congr_left fun e he => ?_
    rw [msgType_eq main e hm.1 (hnames e he).1 (hnames e he).2, upperFirst_eq]
  · intro e he
    have hh := header_head main e hm.1
    refine mem_includes (List.mem_append.2 (.inr (List.mem_map.2 ⟨e, he, ?_⟩))) hh.1 (hh.2 ▸ hm.2.1) (hh.2 ▸ hm.2.2)
    exact msgHeader_eq main e hm.1 (hnames e he).1 (hnames e he).2

/-! ## C85: factories -/

namespace MsgProofs

/-- What is known about the messages of a file. -/
structure FileArgsM (s : Schema) (i : Nat) (n : GNs) (main : Str) : Prop where
  inv : SchemaInv s
  node : n ∈ allNsOf (buildSchema s)
  main : main ≠ []

variable {s : Schema} {i : Nat} {n : GNs} {main : Str}

theorem keys_lt (a : FileArgsM s i n main) (sel : Sel) (side : Side) : ∀ g ∈ mapById (listed i n sel side), g.1 < 2 ^ 64 := by
  rintro ⟨k, g⟩ hg
  obtain ⟨hne, rfl⟩ := ((mapById_spec _).2 k g).1 hg
  obtain ⟨e, he⟩ := List.exists_mem_of_ne_nil _ hne
  rw [List.mem_filter] at he
  have := meant_names a.inv (((listed_spec a.inv a.node i sel side).exact e).1 he.1).1
  have hk : e.2.id = k := by simpa using he.2
  simp only
  omega

/-- The messages with the id. -/
def grp (i : Nat) (n : GNs) (sel : Sel) (side : Side) (id : Nat) : List (Path × Message) := (listed i n sel side).filter fun e => decide (e.2.id = id)

theorem grp_types (a : FileArgsM s i n main) (sel : Sel) (side : Side) (id : Nat) {e : Path × Message} (he : e ∈ grp i n sel side id) :
    msgType main e = typeText main e := by
  rw [grp, List.mem_filter] at he
  have := meant_names a.inv (((listed_spec a.inv a.node i sel side).exact e).1 he.1).1
  exact msgType_eq main e a.main this.1 this.2.1

theorem allocs_ok {l : List (Path × Message)} (hl : l.length < 2 ^ 31) : ∃ r, allocs main l = .ok r ∧
    ∀ idx : Nat, ∀ ty, (∃ text, (text, ty) ∈ r ∧ CppExpr text idx) ↔ ∃ e, l[idx]? = some e ∧ ty = msgType main e := by
  have hnum : ∀ x ∈ indexed 0 l, ∃ t, numToStringS x.1 = .ok t ∧ CppExpr t x.1 := by
    rintro ⟨j, e⟩ hx
    obtain ⟨k, hk, he⟩ := (indexed_mem _ _ _ _).1 hx
    have := (List.getElem?_eq_some_iff.1 he).1
    exact C51_signed_partial j (by omega) (by omega)
  obtain ⟨r, hr⟩ : ∃ r, allocs main l = .ok r := by
    unfold allocs
    apply mapRes_total
    intro x hx
    obtain ⟨t, ht, _⟩ := hnum x hx
    exact ⟨_, by rw [ht, Res.bind_ok, Res.pure_eq]⟩
  refine ⟨r, hr, ?_⟩
  unfold allocs at hr
  have hmem := (mapRes_ok hr).1
  intro idx ty
  constructor
  · rintro ⟨text, ht, hv⟩
    obtain ⟨x, hx, he⟩ := (hmem _).1 ht
    obtain ⟨t, h1, h2⟩ := hnum x hx
    rw [h1, Res.bind_ok, Res.pure_eq] at he
    have he := Res.ok.inj he
    simp only [Prod.mk.injEq] at he
    obtain ⟨rfl, rfl⟩ := he
    have := expr_one hv h2
    obtain ⟨k, hk, he⟩ := (indexed_mem _ _ _ _).1 (show (x.1, x.2) ∈ indexed 0 l from hx)
    exact ⟨x.2, by rw [← he]; congr 1; omega, rfl⟩
  · rintro ⟨e, he, rfl⟩
    have hx : (idx, e) ∈ indexed 0 l := (indexed_mem _ _ _ _).2 ⟨idx, by omega, he⟩
    obtain ⟨t, h1, h2⟩ := hnum _ hx
    exact ⟨t, (hmem _).2 ⟨_, hx, by rw [h1, Res.bind_ok, Res.pure_eq]⟩, h2⟩

theorem factory_inv {sel : Sel} {side : Side} {f : Factory} (h : factory main i n sel side = .ok f) :
    f.unique = (mapById (listed i n sel side)).all (fun g => decide (g.2.length ≤ 1)) ∧
    mapRes (labelled fun g => .ok (numToStringU g.2.length 0)) (mapById (listed i n sel side)) = .ok f.counts ∧
    mapRes (labelled (factoryCode main f.unique)) (mapById (listed i n sel side)) = .ok f.cases := by
  unfold factory at h
  simp only [Res.bind_eq_ok, Res.pure_eq] at h
  obtain ⟨counts, h1, cases, h2, h3⟩ := h
  have := Res.ok.inj h3
  subst this
  exact ⟨rfl, h1, h2⟩

theorem grp_iff {sel : Sel} {side : Side} {id : Nat} {g : List (Path × Message)} :
    (id, g) ∈ mapById (listed i n sel side) ↔ g ≠ [] ∧ g = grp i n sel side id := (mapById_spec _).2 id g

theorem creates_iff (a : FileArgsM s i n main) {sel : Sel} {side : Side} {f : Factory} (h : factory main i n sel side = .ok f)
    {id : Nat} (hid : id < 2 ^ 64) (hlen : (grp i n sel side id).length < 2 ^ 31) (idx : Nat) (ty : Str) :
    Creates f id idx ty ↔ ∃ e, (grp i n sel side id)[idx]? = some e ∧ ty = typeText main e := by
  obtain ⟨hu, _, hc⟩ := factory_inv h
  unfold Creates
  simp only [runs_iff hc (keys_lt a sel side) hid, grp_iff]
  have ht : ∀ e, (grp i n sel side id)[idx]? = some e → msgType main e = typeText main e :=
    fun e he => grp_types a sel side id (List.mem_of_getElem? he)
  cases hfu : f.unique with
  | true =>
    rw [hfu] at hu
    have hone : (grp i n sel side id).length ≤ 1 := by
      by_cases hg : grp i n sel side id = []
      · simp [hg]
      · have := List.all_eq_true.1 hu.symm _ (grp_iff.2 ⟨hg, rfl⟩)
        simpa using this
    constructor
    · rintro ⟨h0, code, ⟨g, ⟨hne, rfl⟩, hco⟩, hy⟩
      have h0 := h0 rfl
      subst h0
      unfold factoryCode at hco
      rw [if_pos rfl] at hco
      simp only at hco
      split at hco
      · cases hco
      · rename_i e l hg
        have := Res.ok.inj hco
        subst this
        have he : (grp i n sel side id)[0]? = some e := by rw [hg]; rfl
        unfold Yields at hy
        exact ⟨e, he, by rw [hy]; exact ht e he⟩
    · rintro ⟨e, he, rfl⟩
      have hl := (List.getElem?_eq_some_iff.1 he).1
      have h0 : idx = 0 := by omega
      subst h0
      refine ⟨fun _ => rfl, .one (msgType main e), ⟨_, ⟨?_, rfl⟩, ?_⟩, ?_⟩
      · intro hg; rw [hg] at hl; simp at hl
      · unfold factoryCode
        rw [if_pos rfl]
        simp only
        split
        · rename_i hg; rw [hg] at he; cases he
        · rename_i e' l hg; rw [hg] at he; simp at he; rw [he]
      · unfold Yields
        exact (ht e he).symm
  | false =>
    obtain ⟨r, hr, hiff⟩ := allocs_ok (main := main) hlen
    have hcode : ∀ c, factoryCode main false (id, grp i n sel side id) = .ok c ↔ c = .byIdx r := by
      intro c
      unfold factoryCode
      rw [if_neg (by simp)]
      simp only
      rw [hr, Res.bind_ok, Res.pure_eq]
      exact ⟨fun h => (Res.ok.inj h).symm, fun h => by rw [h]⟩
    constructor
    · rintro ⟨_, code, ⟨g, ⟨hne, rfl⟩, hco⟩, hy⟩
      rw [hcode] at hco
      subst hco
      unfold Yields at hy
      obtain ⟨e, he, rfl⟩ := (hiff idx ty).1 hy
      exact ⟨e, he, ht e he⟩
    · rintro ⟨e, he, rfl⟩
      have hl := (List.getElem?_eq_some_iff.1 he).1
      refine ⟨by simp, .byIdx r, ⟨_, ⟨?_, rfl⟩, (hcode _).2 rfl⟩, ?_⟩
      · intro hg; rw [hg] at hl; simp at hl
      · unfold Yields
        exact (hiff idx _).2 ⟨e, he, (ht e he).symm⟩

theorem counts_iff (a : FileArgsM s i n main) {sel : Sel} {side : Side} {f : Factory} (h : factory main i n sel side = .ok f)
    {id : Nat} (hid : id < 2 ^ 64) (hlen : (grp i n sel side id).length < 2 ^ 31) (k : Nat) :
    Counts f id k ↔ k = (grp i n sel side id).length := by
  obtain ⟨_, hc, _⟩ := factory_inv h
  unfold Counts
  simp only [runs_iff hc (keys_lt a sel side) hid, grp_iff]
  obtain ⟨sg, hl⟩ := C51_unsigned (grp i n sel side id).length 0 (by omega)
  have hx : CppExpr (numToStringU (grp i n sel side id).length 0) (grp i n sel side id).length := .inl ⟨_, sg, hl, rfl⟩
  constructor
  · rintro (⟨t, ⟨g, ⟨hne, rfl⟩, hco⟩, hv⟩ | ⟨rfl, hno⟩)
    · have := Res.ok.inj hco
      subst this
      have := expr_one hv hx
      omega
    · false_or_by_contra
      rename_i hne
      refine hno _ ⟨_, ⟨?_, rfl⟩, rfl⟩
      intro hg; rw [hg] at hne; simp at hne
  · rintro rfl
    by_cases hg : grp i n sel side id = []
    · right
      refine ⟨by rw [hg]; rfl, ?_⟩
      rintro t ⟨g, ⟨hne, rfl⟩, _⟩
      exact hne hg
    · exact .inl ⟨_, ⟨_, ⟨hg, rfl⟩, rfl⟩, hx⟩

theorem grp_len (a : FileArgsM s i n main) (hlen : s.messages.length < 2 ^ 31) (sel : Sel) (side : Side) (id : Nat) :
    (grp i n sel side id).length < 2 ^ 31 := by
  have hl := listing_withId (listed_spec a.inv a.node i sel side) id
  have : (grp i n sel side id).length ≤ s.messages.length :=
    nodup_length_le hl.once fun e he => ((hl.exact e).1 he).1.1
  omega

theorem args {fo : FloatOps} {p : Proto} (h : Reachable fo p) (hs : p.schemas[i]? = some s) (hn : n ∈ allNsOf (buildSchema s)) (hm : main ≠ []) :
    FileArgsM s i n main := ⟨inv_at h hs, hn, hm⟩

end MsgProofs

/-- C85: `createMsg` creates an object of the type of the message with the id at the index, for every id and index, and nothing if there is none;
    `msgCount` tells how many messages have the id. -/
theorem C85_creates (fo : FloatOps) (p : Proto) (h : Reachable fo p) (i : Nat) (s : Schema) (hs : p.schemas[i]? = some s) (n : GNs)
    (hn : n ∈ allNsOf (buildSchema s)) (main : Str) (hm : main ≠ []) (hlen : s.messages.length < 2 ^ 31) (sel : Sel) (side : Side) (f : Factory)
    (hf : factory main i n sel side = .ok f) (id : Nat) (hid : id < 2 ^ 64) :
    ∃ l, Listing (fun e => Meant s i n.path sel side e ∧ e.2.id = id) l ∧
      (∀ (idx : Nat) (ty : Str), Creates f id idx ty ↔ ∃ e, l[idx]? = some e ∧ ty = typeText main e) ∧ ∀ k, Counts f id k ↔ k = l.length := by
  have a := args h hs hn hm
  exact ⟨grp i n sel side id, listing_withId (listed_spec a.inv a.node i sel side) id,
    creates_iff a hf hid (grp_len a hlen sel side id), counts_iff a hf hid (grp_len a hlen sel side id)⟩

/-- C85: `hasUniqueIds()` tells whether the messages have different ids. -/
theorem C85_unique (fo : FloatOps) (p : Proto) (h : Reachable fo p) (i : Nat) (s : Schema) (hs : p.schemas[i]? = some s) (n : GNs)
    (hn : n ∈ allNsOf (buildSchema s)) (main : Str) (sel : Sel) (side : Side) (f : Factory) (hf : factory main i n sel side = .ok f) :
    f.unique = true ↔ ∀ a b, Meant s i n.path sel side a → Meant s i n.path sel side b → a.2.id = b.2.id → a = b := by
  have hl := listed_spec (inv_at h hs) hn i sel side
  rw [(factory_inv hf).1, List.all_eq_true]
  constructor
  · intro hu a b ha hb hid
    have hg : ∀ e, Meant s i n.path sel side e → e.2.id = b.2.id → e ∈ grp i n sel side b.2.id :=
      fun e he hi => List.mem_filter.2 ⟨(hl.exact e).2 he, by simpa using hi⟩
    have h1 := hg a ha hid
    have h2 := hg b hb rfl
    have hne : grp i n sel side b.2.id ≠ [] := List.ne_nil_of_mem h1
    have := hu _ (grp_iff.2 ⟨hne, rfl⟩)
    simp only [decide_eq_true_eq] at this
    match hx : grp i n sel side b.2.id with
    | [] => exact absurd hx hne
    | [c] => rw [hx] at h1 h2; simp at h1 h2; rw [h1, h2]
    | _ :: _ :: _ => rw [hx] at this; simp at this
  · rintro hu ⟨k, g⟩ hg
    obtain ⟨hne, rfl⟩ := grp_iff.1 hg
    have hl' := listing_withId hl k
    simp only [decide_eq_true_eq]
    match hx : grp i n sel side k with
    | [] => simp
    | [c] => simp
    | c :: d :: r =>
      have hx' : (listed i n sel side).filter (fun e => decide (e.2.id = k)) = c :: d :: r := hx
      rw [hx'] at hl'
      have hc := (hl'.exact c).1 (by simp)
      have hd := (hl'.exact d).1 (by simp)
      have := hu c d hc.1 hd.1 (by rw [hc.2, hd.2])
      have hnd := hl'.once
      rw [this] at hnd
      simp at hnd

/-- C85: the factory can be written if no message has the id 2^63. Missing: this id. -/
theorem C85_written_partial (fo : FloatOps) (p : Proto) (h : Reachable fo p) (i : Nat) (s : Schema) (hs : p.schemas[i]? = some s) (n : GNs)
    (hn : n ∈ allNsOf (buildSchema s)) (main : Str) (hm : main ≠ []) (hlen : s.messages.length < 2 ^ 31) (sel : Sel) (side : Side)
    (hid : ∀ e, Meant s i n.path sel side e → e.2.id ≠ 2 ^ 63) : ∃ f, factory main i n sel side = .ok f := by
  have a := args h hs hn hm
  have hl := listed_spec a.inv a.node i sel side
  have hlab : ∀ g ∈ mapById (listed i n sel side), ∃ t, idLabel g.1 = .ok t := by
    rintro ⟨k, g⟩ hg
    obtain ⟨hne, rfl⟩ := grp_iff.1 hg
    obtain ⟨e, he⟩ := List.exists_mem_of_ne_nil _ hne
    obtain ⟨he, hk⟩ := List.mem_filter.1 he
    have hk : e.2.id = k := by simpa using hk
    obtain ⟨t, ht, _⟩ := idLabel_ok (keys_lt a sel side _ hg) (by simpa [← hk] using hid e ((hl.exact e).1 he))
    exact ⟨t, ht⟩
  obtain ⟨r1, h1⟩ := mapRes_total (f := labelled fun g => .ok (numToStringU g.2.length 0)) (l := mapById (listed i n sel side)) (by
    intro g hg
    obtain ⟨t, ht⟩ := hlab g hg
    exact ⟨_, labelled_ok (r := (t, _)).2 ⟨ht, rfl⟩⟩)
  obtain ⟨r2, h2⟩ := mapRes_total (f := labelled (factoryCode main ((mapById (listed i n sel side)).all fun g => decide (g.2.length ≤ 1))))
    (l := mapById (listed i n sel side)) (by
    rintro ⟨k, g⟩ hg
    obtain ⟨t, ht⟩ := hlab _ hg
    obtain ⟨hne, rfl⟩ := grp_iff.1 hg
    obtain ⟨c, hc⟩ : ∃ c, factoryCode main ((mapById (listed i n sel side)).all fun g => decide (g.2.length ≤ 1)) (k, grp i n sel side k) = .ok c := by
      unfold factoryCode
      split
      · simp only
        split
        · rename_i hx; exact absurd hx hne
        · exact ⟨_, rfl⟩
      · obtain ⟨r, hr, _⟩ := allocs_ok (main := main) (grp_len a hlen sel side k)
        exact ⟨_, by simp only; rw [hr, Res.bind_ok, Res.pure_eq]⟩
    exact ⟨_, labelled_ok (r := (t, c)).2 ⟨ht, hc⟩⟩)
  unfold factory
  dsimp only
  rw [h1, Res.bind_ok, h2, Res.bind_ok]
  exact ⟨_, rfl⟩

/-! ## C86: dispatch -/

namespace MsgProofs
variable {s : Schema} {i : Nat} {n : GNs} {main : Str}

theorem dispatch_inv {sel : Sel} {side : Side} {d : Dispatch} (h : dispatch main i n sel side = .ok d) :
    d.multi = (mapById (listed i n sel side)).any (fun g => decide (1 < g.2.length)) ∧
    mapRes (labelled fun g => .ok (dispatchCode main g)) (mapById (listed i n sel side)) = .ok d.cases := by
  unfold dispatch at h
  simp only [Res.bind_eq_ok, Res.pure_eq] at h
  obtain ⟨cases, h2, h3⟩ := h
  have := Res.ok.inj h3
  subst this
  exact ⟨rfl, h2⟩

theorem idxCases_iff {l : List (Path × Message)} (hl : l.length < 2 ^ 31) (idx : Nat) (hidx : idx < 2 ^ 64) (ty : Str) :
    (∃ text, (text, ty) ∈ idxCases main l ∧ CppExpr text idx) ↔ ∃ e, l[idx]? = some e ∧ ty = msgType main e := by
  have hnum : ∀ j : Nat, j < 2 ^ 64 → CppExpr (numToStringU j 0) j := fun j hj => by
    obtain ⟨sg, h⟩ := C51_unsigned j 0 hj
    exact .inl ⟨_, sg, h, rfl⟩
  unfold idxCases
  constructor
  · rintro ⟨text, ht, hv⟩
    obtain ⟨⟨j, e⟩, hx, he⟩ := List.mem_map.1 ht
    simp only [Prod.mk.injEq] at he
    obtain ⟨rfl, rfl⟩ := he
    obtain ⟨k, hk, he⟩ := (indexed_mem _ _ _ _).1 hx
    have := (List.getElem?_eq_some_iff.1 he).1
    have := expr_one hv (hnum j (by omega))
    exact ⟨e, by rw [← he]; congr 1; omega, rfl⟩
  · rintro ⟨e, he, rfl⟩
    exact ⟨_, List.mem_map.2 ⟨(idx, e), (indexed_mem _ _ _ _).2 ⟨idx, by omega, he⟩, rfl⟩, hnum idx hidx⟩

/-- What the dispatch function does, in full. -/
theorem casts_iff (a : FileArgsM s i n main) {sel : Sel} {side : Side} {d : Dispatch} (h : dispatch main i n sel side = .ok d)
    {id : Nat} (hid : id < 2 ^ 64) (hlen : (grp i n sel side id).length < 2 ^ 31) (idx : Nat) (hidx : idx < 2 ^ 64) (ty : Str) :
    CastsTo d id idx ty ↔ (∃ e, (grp i n sel side id)[idx]? = some e ∧ ty = typeText main e) ∨
      (d.multi = true ∧ ∃ e, grp i n sel side id = [e] ∧ ty = typeText main e) := by
  obtain ⟨hu, hc⟩ := dispatch_inv h
  unfold CastsTo
  simp only [runs_iff hc (keys_lt a sel side) hid, grp_iff]
  have ht : ∀ e ∈ grp i n sel side id, msgType main e = typeText main e := fun e he => grp_types a sel side id he
  have hcode : ∀ g, (∃ code, (∃ g', (g' ≠ [] ∧ g' = g) ∧ (Res.ok (dispatchCode main (id, g')) : Res Code) = .ok code) ∧ Yields code idx ty) ↔
      g ≠ [] ∧ Yields (dispatchCode main (id, g)) idx ty := by
    intro g
    constructor
    · rintro ⟨code, ⟨g', ⟨hne, rfl⟩, hco⟩, hy⟩
      exact ⟨hne, by rw [Res.ok.inj hco]; exact hy⟩
    · rintro ⟨hne, hy⟩
      exact ⟨_, ⟨g, ⟨hne, rfl⟩, rfl⟩, hy⟩
  rw [hcode]
  have hsmall : d.multi = false → (grp i n sel side id).length ≤ 1 := by
    intro hm
    rw [hm] at hu
    by_cases hg : grp i n sel side id = []
    · simp [hg]
    · have := List.any_eq_false.1 hu.symm _ (grp_iff.2 ⟨hg, rfl⟩)
      simp only [decide_eq_true_eq] at this
      omega
  generalize hgr : grp i n sel side id = l at *
  match l with
  | [] => simp
  | [e] =>
    have he := ht e (by simp)
    have : Yields (dispatchCode main (id, [e])) idx ty ↔ ty = typeText main e := by unfold dispatchCode Yields; simp only; rw [he]
    rw [this]
    constructor
    · rintro ⟨h0, _, h1⟩
      cases hmu : d.multi with
      | false => have := h0 hmu; subst this; exact .inl ⟨e, rfl, h1⟩
      | true => exact .inr ⟨rfl, e, rfl, h1⟩
    · rintro (⟨x, hx, h1⟩ | ⟨hmu, x, hx, h1⟩)
      · cases idx with
        | zero => simp at hx; subst hx; exact ⟨fun _ => rfl, by simp, h1⟩
        | succ k => simp at hx
      · simp only [List.cons.injEq, and_true] at hx
        subst hx
        exact ⟨fun hf => by rw [hmu] at hf; (cases hf), by simp, h1⟩
  | e :: e' :: r =>
    have : Yields (dispatchCode main (id, e :: e' :: r)) idx ty ↔ ∃ x, (e :: e' :: r)[idx]? = some x ∧ ty = msgType main x := by
      rw [← idxCases_iff hlen idx hidx]; unfold dispatchCode Yields; rfl
    rw [this]
    have hmu : d.multi = true := by
      cases hmu : d.multi with
      | false => have := hsmall hmu; simp at this
      | true => rfl
    constructor
    · rintro ⟨_, _, x, hx, rfl⟩
      exact .inl ⟨x, hx, ht x (List.mem_of_getElem? hx)⟩
    · rintro (⟨x, hx, rfl⟩ | ⟨_, x, hx, _⟩)
      · exact ⟨by rw [hmu]; simp, by simp, x, hx, (ht x (List.mem_of_getElem? hx)).symm⟩
      · simp at hx

end MsgProofs

/-- C86: a message with the id and the index is cast to its own type, and to no other. Not the full claim: for an index past the messages with the id
    see `C86_index_witness`. -/
theorem C86_casts_partial (fo : FloatOps) (p : Proto) (h : Reachable fo p) (i : Nat) (s : Schema) (hs : p.schemas[i]? = some s) (n : GNs)
    (hn : n ∈ allNsOf (buildSchema s)) (main : Str) (hm : main ≠ []) (hlen : s.messages.length < 2 ^ 31) (sel : Sel) (side : Side) (d : Dispatch)
    (hd : dispatch main i n sel side = .ok d) (id : Nat) (hid : id < 2 ^ 64) :
    ∃ l, Listing (fun e => Meant s i n.path sel side e ∧ e.2.id = id) l ∧
      (∀ (idx : Nat) (e : Path × Message), l[idx]? = some e → ∀ ty, CastsTo d id idx ty ↔ ty = typeText main e) ∧
      (l.length ≠ 1 → ∀ (idx : Nat) (ty : Str), idx < 2 ^ 64 → l.length ≤ idx → ¬ CastsTo d id idx ty) := by
  have a := args h hs hn hm
  have hl := grp_len a hlen sel side id
  refine ⟨grp i n sel side id, listing_withId (listed_spec a.inv a.node i sel side) id, ?_, ?_⟩
  · intro idx e he ty
    have hidx := (List.getElem?_eq_some_iff.1 he).1
    rw [casts_iff a hd hid hl idx (by omega), he]
    constructor
    · rintro (⟨x, hx, rfl⟩ | ⟨_, x, hx, rfl⟩)
      · rw [Option.some.inj hx]
      · rw [hx] at he
        cases idx with
        | zero => simp at he; rw [he]
        | succ k => simp at he
    · rintro rfl
      exact .inl ⟨e, rfl, rfl⟩
  · intro h1 idx ty hidx hge hc
    rw [casts_iff a hd hid hl idx hidx] at hc
    rcases hc with ⟨x, hx, _⟩ | ⟨_, x, hx, _⟩
    · have := (List.getElem?_eq_some_iff.1 hx).1
      omega
    · rw [hx] at h1; simp at h1

/-- C86: the factory and the dispatch function of the same selection agree: an object created for an id and an index is cast to the type that was
    created. -/
theorem C86_agrees (fo : FloatOps) (p : Proto) (h : Reachable fo p) (i : Nat) (s : Schema) (hs : p.schemas[i]? = some s) (n : GNs)
    (hn : n ∈ allNsOf (buildSchema s)) (main : Str) (hm : main ≠ []) (hlen : s.messages.length < 2 ^ 31) (sel : Sel) (side : Side) (f : Factory)
    (d : Dispatch) (hf : factory main i n sel side = .ok f) (hd : dispatch main i n sel side = .ok d) (id : Nat) (hid : id < 2 ^ 64) (idx : Nat)
    (ty : Str) (hc : Creates f id idx ty) : ∀ ty', CastsTo d id idx ty' ↔ ty' = ty := by
  have a := args h hs hn hm
  have hl := grp_len a hlen sel side id
  obtain ⟨e, he, rfl⟩ := (creates_iff a hf hid hl idx ty).1 hc
  have hidx := (List.getElem?_eq_some_iff.1 he).1
  intro ty'
  rw [casts_iff a hd hid hl idx (by omega), he]
  constructor
  · rintro (⟨x, hx, rfl⟩ | ⟨_, x, hx, rfl⟩)
    · rw [Option.some.inj hx]
    · rw [hx] at he
      cases idx with
      | zero => simp at he; rw [he]
      | succ k => simp at he
  · rintro rfl
    exact .inl ⟨e, rfl, rfl⟩

/-- C86: the dispatch function can be written if the factory can, that is if no message has the id 2^63. Missing: this id. -/
theorem C86_written_partial (fo : FloatOps) (p : Proto) (h : Reachable fo p) (i : Nat) (s : Schema) (hs : p.schemas[i]? = some s) (n : GNs)
    (hn : n ∈ allNsOf (buildSchema s)) (main : Str) (hm : main ≠ []) (sel : Sel) (side : Side)
    (hid : ∀ e, Meant s i n.path sel side e → e.2.id ≠ 2 ^ 63) : ∃ d, dispatch main i n sel side = .ok d := by
  have a := args h hs hn hm
  have hl := listed_spec a.inv a.node i sel side
  obtain ⟨r1, h1⟩ := mapRes_total (f := labelled fun g => .ok (dispatchCode main g)) (l := mapById (listed i n sel side)) (by
    rintro ⟨k, g⟩ hg
    have hlt := keys_lt a sel side _ hg
    obtain ⟨hne, rfl⟩ := grp_iff.1 hg
    obtain ⟨e, he⟩ := List.exists_mem_of_ne_nil _ hne
    obtain ⟨he, hk⟩ := List.mem_filter.1 he
    have hk : e.2.id = k := by simpa using hk
    obtain ⟨t, ht, _⟩ := idLabel_ok hlt (by simpa [← hk] using hid e ((hl.exact e).1 he))
    exact ⟨_, labelled_ok (r := (t, _)).2 ⟨ht, rfl⟩⟩)
  unfold dispatch
  dsimp only
  rw [h1, Res.bind_ok]
  exact ⟨_, rfl⟩

end Commsdsl.Props
