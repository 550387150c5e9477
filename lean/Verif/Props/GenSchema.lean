import Verif.Spec.GenSchema
import Verif.Lemmas.GenSchema
import Verif.Props.ProtocolCalls
/-!
# The generator's schemas: C57, C60, C68, C69
-/
namespace Commsdsl.Props
open Commsdsl Fld Msg Frm Spec Text Proto Gen ProtoProofs

/-! ## C57: which elements exist, and which are optional -/

/-- An element is generated iff some supported version contains it, if there is a supported version at all. -/
theorem C57_exists_partial (g : GVer) (since depr : Nat) (removed : Bool) (hv : g.minRemote ≤ g.version) (hd : since < depr) :
    doesExist g since depr removed = true ↔ ∃ v, Supported g v ∧ Present since depr removed v := by
  unfold doesExist Supported Present
  constructor
  · intro h
    split at h
    · cases h
    · split at h
      · cases h
      · rename_i h1 h2
        refine ⟨max since g.minRemote, ⟨by omega, by omega⟩, by omega, ?_⟩
        intro hr
        subst hr
        simp at h2
        omega
  · rintro ⟨v, ⟨h1, h2⟩, h3, h4⟩
    rw [if_neg (by omega)]
    split
    · rename_i hc
      simp only [Bool.and_eq_true, decide_eq_true_eq] at hc
      have := h4 hc.1
      omega
    · rfl

/-- The minimal remote version is compared with nothing: above the version of the schema, no version is supported, and everything is generated. -/
theorem C57_min_remote_witness : ∃ g : GVer, g.prepareOk = true ∧ doesExist g 0 Versions.notYet false = true ∧ ¬ ∃ v, Supported g v := by
  refine ⟨{ parsed := 3, minRemote := 5 }, by decide, by decide, ?_⟩
  rintro ⟨v, h1, h2⟩
  have : v ≤ 3 := h2
  have : 5 ≤ v := h1
  omega

example : doesExist { parsed := 5, minRemote := 3 } 4 Versions.notYet false = true ∧ doesExist { parsed := 5, minRemote := 3 } 1 3 true = false ∧
    doesExist { parsed := 5, minRemote := 3 } 1 4 true = true ∧ doesExist { parsed := 5, minRemote := 3 } 6 Versions.notYet true = false := by decide

/-- An element that some supported version lacks is optional. -/
theorem C57_optional_complete (g : GVer) (since depr : Nat) (removed : Bool) (hv : g.version < Versions.notYet)
    (h : ∃ v, Supported g v ∧ ¬ Present since depr removed v) : isOptional g since depr removed = true := by
  obtain ⟨v, ⟨h1, h2⟩, h3⟩ := h
  unfold isOptional Present at *
  split
  · rfl
  · rename_i h4
    rw [if_pos]
    cases removed with
    | false => exact absurd ⟨by omega, by simp⟩ h3
    | true =>
      have : ¬ v < depr := fun h => h3 ⟨by omega, fun _ => h⟩
      simp only [Bool.true_and, decide_eq_true_eq]
      omega

/-- And, unless a smaller version is forced, no others are: the deprecation, if any, is in the schema by now. -/
theorem C57_optional_iff (g : GVer) (since depr : Nat) (removed : Bool) (hv : g.version < Versions.notYet) (hm : g.minRemote ≤ g.version)
    (hd : depr ≤ g.version ∨ depr = Versions.notYet) :
    isOptional g since depr removed = true ↔ ∃ v, Supported g v ∧ ¬ Present since depr removed v := by
  constructor
  · intro h
    unfold isOptional at h
    unfold Supported Present
    split at h
    · rename_i h1
      exact ⟨g.minRemote, ⟨by omega, hm⟩, by omega⟩
    · split at h
      · rename_i h2
        simp only [Bool.and_eq_true, decide_eq_true_eq] at h2
        refine ⟨g.version, ⟨hm, by omega⟩, ?_⟩
        rintro ⟨_, h3⟩
        have := h3 h2.1
        rcases hd with hd | hd <;> omega
      · cases h
  · exact C57_optional_complete g since depr removed hv

/-- A field gets the optional mode for versions iff the code depends on versions, and some supported version has what the field is in but not
    the field. `parent.since` is the largest of the versions in which the message and the fields around it were added. -/
theorem C57_version_optional_iff (g : GVer) (parent : Place) (since depr : Nat) (removed : Bool) (hv : g.version < Versions.notYet)
    (hm : g.minRemote ≤ g.version) (hs : since ≤ g.version) (hp : parent.since ≤ since) (hd : depr ≤ g.version ∨ depr = Versions.notYet) :
    isVersionOptional g parent since depr removed = true ↔
      g.versionDependent = true ∧ ∃ v, Supported g v ∧ parent.since ≤ v ∧ ¬ Present since depr removed v := by
  unfold isVersionOptional
  cases hg : g.versionDependent with
  | false => simp
  | true =>
    simp only [Bool.not_true, Bool.false_eq_true, if_false, true_and]
    constructor
    · intro h
      split at h
      · cases h
      · rename_i ho
        rw [Bool.not_eq_true, Bool.not_eq_false'] at ho
        unfold Supported Present
        have key : ∀ (_ : removed = true) (_ : depr < Versions.notYet),
            ∃ v, (g.minRemote ≤ v ∧ v ≤ g.version) ∧ parent.since ≤ v ∧ ¬ (since ≤ v ∧ (removed = true → v < depr)) := by
          intro h1 h2
          refine ⟨g.version, ⟨hm, by omega⟩, by omega, ?_⟩
          rintro ⟨_, h3⟩
          have := h3 h1
          rcases hd with hd | hd <;> omega
        split at h
        · rename_i hlt
          unfold isOptional at ho
          split at ho
          · refine ⟨since - 1, ⟨by omega, by omega⟩, by omega, by omega⟩
          · split at ho
            · rename_i h2
              simp only [Bool.and_eq_true, decide_eq_true_eq] at h2
              exact key h2.1 h2.2
            · cases ho
        · split at h
          · rename_i h2
            simp only [Bool.and_eq_true, decide_eq_true_eq] at h2
            exact key h2.2 h2.1
          · cases h
    · rintro ⟨v, hsup, hpv, hnp⟩
      have ho := C57_optional_complete g since depr removed hv ⟨v, hsup, hnp⟩
      rw [ho]
      simp only [Bool.not_true, Bool.false_eq_true, if_false]
      unfold Supported at hsup
      unfold Present at hnp
      split
      · rfl
      · rw [if_pos]
        cases removed with
        | false => exact absurd ⟨by omega, by simp⟩ hnp
        | true =>
          have : ¬ v < depr := fun h => hnp ⟨by omega, fun _ => h⟩
          simp only [Bool.and_true, decide_eq_true_eq]
          omega

/-- `parent.since` is the largest version on the way out: up to the message and no further. -/
theorem C57_place (p : Place) (n : Nat) : (Place.field n p).since = max p.since n ∧ (Place.message n).since = n ∧ Place.other.since = 0 := ⟨rfl, rfl, rfl⟩

example : isVersionOptional { parsed := 5, versionDependent := true } (.field 2 (.message 3)) 4 Versions.notYet false = true ∧
    isVersionOptional { parsed := 5, versionDependent := true } (.field 2 (.message 3)) 3 Versions.notYet false = false ∧
    isVersionOptional { parsed := 5, versionDependent := true } (.message 3) 3 5 true = true := by decide

/-- Forcing a version below the one of the removal leaves an element optional that all supported versions have. -/
theorem C57_forced_witness : ∃ g : GVer, g.prepareOk = true ∧ g.version = 3 ∧ isOptional g 0 4 true = true ∧
    ∀ v, Supported g v → Present 0 4 true v := by
  refine ⟨forceVersion { parsed := 5 } 3, by decide, by decide, by decide, ?_⟩
  rintro v ⟨_, h⟩
  exact ⟨Nat.zero_le _, fun _ => Nat.lt_of_le_of_lt h (by decide)⟩

/-- A forced version is used, unless it is greater than the one of the schema, and unless it does not fit into `int`. -/
theorem C57_forced (parsed value : Nat) (hv : value < 2147483648) :
    (forceVersion { parsed := parsed } value).version = value ∧ ((forceVersion { parsed := parsed } value).prepareOk = true ↔ value ≤ parsed) := by
  have hc : castI32 value = value := by unfold castI32; omega
  unfold forceVersion
  rw [hc, if_pos (by omega)]
  unfold GVer.version GVer.prepareOk
  simp

/-! ## C69: marking as deprecated -/

/-- Elements deprecated before the version of the schema are marked. -/
theorem C69_deprecated_partial (g : GVer) (depr : Nat) : isDeprecated g depr = true ↔ depr + 1 ≤ g.version := by
  simp [isDeprecated, Nat.succ_le_iff]

/-- Those deprecated in the version of the schema itself are not. -/
theorem C69_same_version_witness : ∃ (g : GVer) (depr : Nat), depr ≤ g.version ∧ isDeprecated g depr = false := ⟨{ parsed := 3 }, 3, by decide, by decide⟩

/-! ## C68: references of the generator -/

namespace GenProofs

theorem join_ne (q : Path) (n : Str) (hn : n ≠ []) : joinDots (q ++ [n]) ≠ [] := by
  cases q with
  | nil => simpa [joinDots] using hn
  | cons x q => rw [List.cons_append, join_cons (by simp)]; simp

theorem join_head (q : Path) (n : Str) (hq : ∀ x ∈ q, isValidName x = true) (hn : isValidName n = true) : (joinDots (q ++ [n])).head? ≠ some '@' := by
  cases q with
  | nil => simpa [joinDots] using (name_facts hn).2.2
  | cons x q =>
    rw [List.cons_append, join_cons (by simp)]
    have := name_facts (hq x (by simp))
    cases x with
    | nil => exact absurd rfl this.2.1
    | cons c cs => simpa using this.2.2

theorem find_schema {ss : List Schema} (hn : (ss.map Schema.name).Nodup) {i : Nat} {s : Schema} (h : ss[i]? = some s) :
    ss.find? (fun t => t.name == s.name) = some s := by
  have := schemaIdx_of hn h
  unfold schemaIdx at this
  rw [List.findIdx?_eq_some_iff_getElem] at this
  obtain ⟨hi, h1, h2⟩ := this
  obtain ⟨hi', rfl⟩ := List.getElem?_eq_some_iff.1 h
  rw [List.find?_eq_some_iff_getElem]
  exact ⟨by simp, i, hi, rfl, fun j hj => by simpa using h2 j hj⟩

/-- The reference of an element leads back to its schema. -/
theorem externalRef_of {p : Proto} (hi : ProtoInv p) {c i : Nat} {s : Schema} (hs : p.schemas[i]? = some s) {path : Path} {n ref : Str}
    (hp : ∀ x ∈ path, isValidName x = true) (hn : isValidName n = true) (hr : RefTextOf p.schemas c i path n ref) :
    ref ≠ [] ∧ (Gen.mk p.schemas c).externalRef ref = (some s, joinDots (path ++ [n])) := by
  obtain ⟨s', hs', hr⟩ := hr
  rw [hs] at hs'
  cases hs'
  unfold externalRefOf at hr
  rcases hr with hr | ⟨rfl, hr⟩
  · rw [if_pos rfl, dotJoin_eq] at hr
    have hr' : ref = '@' :: (s.name ++ '.' :: joinDots (path ++ [n])) := by
      rw [hr, List.cons_append, join_cons (by simp)]; rfl
    subst hr'
    refine ⟨by simp, ?_⟩
    have hdot := (name_facts (hi.valid s (List.mem_of_getElem? hs))).1
    unfold Gen.externalRef
    simp only
    rw [if_pos (by simp), (takeWhile_nodot hdot _).1, (takeWhile_nodot hdot _).2, find_schema hi.names hs]
    rfl
  · rw [if_neg (by simp), dotJoin_eq] at hr
    subst hr
    refine ⟨join_ne _ _ (name_facts hn).2.1, ?_⟩
    have hh := join_head path n hp hn
    unfold Gen.externalRef
    split
    · rename_i r hr
      rw [hr] at hh
      simp at hh
    · simp only [hs]

theorem find_of {α : Type} {p : Proto} (hi : ProtoInv p) {c i : Nat} {s : Schema} (hs : p.schemas[i]? = some s) {nameOf : α → Str}
    {collG : GNs → List α} {coll : List (Path × α)} (K : Kind s nameOf collG coll) {adj : Str → Str} (hadj : ∀ n, n ≠ [] → adj n = n)
    {path : Path} {a : α} {ref : Str} (hm : (path, a) ∈ coll) (hr : RefTextOf p.schemas c i path (nameOf a) ref) :
    (Gen.mk p.schemas c).find nameOf collG adj ref = some a := by
  obtain ⟨_, he⟩ := externalRef_of hi hs (K.nsNames _ (K.inNs _ hm)) (K.valid _ hm) hr
  have hn := name_facts (K.valid _ hm)
  unfold Gen.find
  rw [he]
  simp only
  rw [if_neg (by simpa using join_ne path _ hn.2.1)]
  exact (findIn_iff K hadj _ _).2 ⟨path, nameOf a, hm, hn.1, hadj _ hn.2.1, .inl rfl⟩

end GenProofs
open GenProofs

/-- Whatever the current schema, a reference to a field of any schema, in the form the parser gives, finds this field. -/
theorem C68_field (fo : FloatOps) (p : Proto) (h : Reachable fo p) (c i : Nat) (s : Schema) (path : Path) (f : Field) (ref : Str)
    (hs : p.schemas[i]? = some s) (hf : (path, f) ∈ s.fields) (hr : RefTextOf p.schemas c i path f.name ref) :
    (Gen.mk p.schemas c).findField ref = some f ∧ (Gen.mk p.schemas c).useField ref = .ok f := by
  have hi := reachable_inv h
  have hsi := hi.each s (List.mem_of_getElem? hs)
  have := find_of hi (c := c) hs (kind_of (collG := GNs.fields) hsi hsi.fields (buildNs_fields s)) (adj := id) (fun _ _ => rfl) hf hr
  refine ⟨this, ?_⟩
  unfold Gen.useField Gen.findField
  rw [this]

/-- C68 for messages. -/
theorem C68_message (fo : FloatOps) (p : Proto) (h : Reachable fo p) (c i : Nat) (s : Schema) (path : Path) (f : Message) (ref : Str)
    (hs : p.schemas[i]? = some s) (hf : (path, f) ∈ s.messages) (hr : RefTextOf p.schemas c i path f.name ref) :
    (Gen.mk p.schemas c).findMessage ref = some f := by
  have hi := reachable_inv h
  have hsi := hi.each s (List.mem_of_getElem? hs)
  exact find_of hi (c := c) hs (kind_of (collG := GNs.msgs) hsi hsi.messages (buildNs_msgs s)) (adj := id) (fun _ _ => rfl) hf hr

/-- C68 for frames. -/
theorem C68_frame (fo : FloatOps) (p : Proto) (h : Reachable fo p) (c i : Nat) (s : Schema) (path : Path) (f : Frame) (ref : Str)
    (hs : p.schemas[i]? = some s) (hf : (path, f) ∈ s.frames) (hr : RefTextOf p.schemas c i path f.name ref) :
    (Gen.mk p.schemas c).findFrame ref = some f := by
  have hi := reachable_inv h
  have hsi := hi.each s (List.mem_of_getElem? hs)
  exact find_of hi (c := c) hs (kind_of (collG := GNs.frames) hsi hsi.frames (buildNs_frames s)) (adj := id) (fun _ _ => rfl) hf hr

namespace GenProofs

theorem orMessage_ne {n : Str} (h : n ≠ []) : orMessage n = n := by
  unfold orMessage
  rw [if_neg (by simpa using h)]

theorem sortBy_congr {α : Type} {f g : α → α → Bool} (l : List α) (h : ∀ a ∈ l, ∀ b ∈ l, f a b = g a b) : sortBy f l = sortBy g l := by
  have hins : ∀ (x : α) (m : List α), (∀ b ∈ m, f x b = g x b ∧ f b x = g b x) → insertBy f x m = insertBy g x m := by
    intro x m
    induction m with
    | nil => intro _; rfl
    | cons y m ih =>
      intro hm
      simp only [insertBy]
      rw [(hm y (by simp)).1, ih fun b hb => hm b (by simp [hb])]
  induction l with
  | nil => rfl
  | cons x l ih =>
    have hl := ih fun a ha b hb => h a (by simp [ha]) b (by simp [hb])
    rw [sortBy, sortBy, hl]
    refine hins x _ ?_
    intro b hb
    rw [mem_sortBy] at hb
    exact ⟨h x (by simp) b (by simp [hb]), h b (by simp [hb]) x (by simp)⟩

theorem iface_kind {s : Schema} (hs : SchemaInv s) : Kind s (fun i : Interface => orMessage i.name) GNs.ifaces s.ifaces := by
  have hv : ∀ e ∈ s.ifaces, orMessage e.2.name = e.2.name := fun e he => orMessage_ne (name_facts (hs.ifaces.1 e he).2.1).2.1
  refine ⟨?_, fun e he => (hs.ifaces.1 e he).1, ?_, ?_, hs.nsNames, hs.nsUp⟩
  · intro d path
    rw [buildNs_ifaces]
    unfold elemsAt
    refine sortBy_congr _ ?_
    intro a ha b hb
    obtain ⟨e, he, rfl⟩ := List.mem_map.1 ha
    obtain ⟨e', he', rfl⟩ := List.mem_map.1 hb
    simp only
    rw [hv e (List.mem_filter.1 he).1, hv e' (List.mem_filter.1 he').1]
  · intro e he
    rw [hv e he]
    exact (hs.ifaces.1 e he).2.1
  · rw [List.map_congr_left (g := fun e => (e.1, e.2.name)) fun e he => by rw [hv e he]]
    exact hs.ifaces.2

end GenProofs

/-- C68 for interfaces. -/
theorem C68_interface (fo : FloatOps) (p : Proto) (h : Reachable fo p) (c i : Nat) (s : Schema) (path : Path) (f : Interface) (ref : Str)
    (hs : p.schemas[i]? = some s) (hf : (path, f) ∈ s.ifaces) (hr : RefTextOf p.schemas c i path f.name ref) :
    (Gen.mk p.schemas c).findInterface ref = some f := by
  have hi := reachable_inv h
  have hsi := hi.each s (List.mem_of_getElem? hs)
  have hname : orMessage f.name = f.name := orMessage_ne (name_facts (hsi.ifaces.1 _ hf).2.1).2.1
  have hne := (externalRef_of hi (c := c) hs (hsi.nsNames _ (hsi.ifaces.1 _ hf).1) (hsi.ifaces.1 _ hf).2.1 hr).1
  unfold Gen.findInterface
  rw [if_neg (by simpa using hne)]
  exact find_of hi (c := c) hs (iface_kind hsi) (fun _ => orMessage_ne) hf (by simpa only [hname] using hr)

/-- Nothing else is found: a message that is found is in the schema meant by the reference, under the path and the name in it; only in front of
    the name of a message of the global namespace a dot does not matter. -/
theorem C68_message_only (fo : FloatOps) (p : Proto) (h : Reachable fo p) (c : Nat) (ref : Str) (m : Message)
    (hm : (Gen.mk p.schemas c).findMessage ref = some m) :
    ∃ (i : Nat) (s : Schema) (path : Path) (rest : Str), p.schemas[i]? = some s ∧ (path, m) ∈ s.messages ∧
      (rest = dotJoin (path ++ [m.name]) ∨ (path = [] ∧ rest = '.' :: m.name)) ∧ (ref = '@' :: s.name ++ '.' :: rest ∨ (i = c ∧ ref = rest)) := by
  have hi := reachable_inv h
  unfold Gen.findMessage Gen.find at hm
  split at hm
  · cases hm
  · rename_i s rest he
    split at hm
    · cases hm
    · rename_i hne
      have hsm : ∃ i : Nat, p.schemas[i]? = some s ∧ (ref = '@' :: s.name ++ '.' :: rest ∨ (i = c ∧ ref = rest)) := by
        unfold Gen.externalRef at he
        split at he
        · rename_i r
          split at he
          · rename_i hdot
            obtain ⟨w, r', rfl, hw⟩ := first_dot (by simpa using hdot : '.' ∈ r)
            rw [(takeWhile_nodot hw r').1, (takeWhile_nodot hw r').2] at he
            simp only [Prod.mk.injEq, List.drop_succ_cons, List.drop_zero] at he
            obtain ⟨h1, rfl⟩ := he
            obtain ⟨h2, i, hi', h3, _⟩ := List.find?_eq_some_iff_getElem.1 h1
            simp only [beq_iff_eq] at h2
            exact ⟨i, by rw [List.getElem?_eq_getElem hi', h3], .inl (by rw [h2]; rfl)⟩
          · simp only [Prod.mk.injEq] at he
            obtain ⟨_, rfl⟩ := he
            simp at hne
        · simp only [Prod.mk.injEq] at he
          obtain ⟨h1, rfl⟩ := he
          exact ⟨c, h1, .inr ⟨rfl, rfl⟩⟩
      obtain ⟨i, hs, hr⟩ := hsm
      have hsi := hi.each s (List.mem_of_getElem? hs)
      obtain ⟨path, n, hmem, _, hn, hj⟩ := (findIn_iff (kind_of (collG := GNs.msgs) hsi hsi.messages (buildNs_msgs s)) (adj := id)
        (fun _ _ => rfl) _ _).1 hm
      simp only [id_eq] at hn
      subst hn
      exact ⟨i, s, path, rest, hs, hmem, by rw [dotJoin_eq]; exact hj, hr⟩

/-! ## C60: the messages that are generated -/

namespace GenProofs

theorem referenceAll_mem {ss : List Schema} (hs : ∀ s ∈ ss, SchemaInv s) (i k : Nat) (path : Path) (n : Str) :
    (i, path, n) ∈ referenceAll k ss ↔ ∃ (j : Nat) (s : Schema) (m : Message), i = k + j ∧ ss[j]? = some s ∧ (path, m) ∈ s.messages ∧ m.name = n ∧ path.length ≤ 1 := by
  induction ss generalizing k with
  | nil => simp [referenceAll]
  | cons s ss ih =>
    rw [referenceAll, List.mem_append, ih (fun t ht => hs t (by simp [ht]))]
    have htop := top_messages (hs s (by simp)) path n
    have h1 : (i, path, n) ∈ (buildSchema s).flatMap (fun b => b.msgs.map fun m => (k, b.path, m.name)) ↔
        i = k ∧ ∃ b ∈ buildSchema s, ∃ m ∈ b.msgs, b.path = path ∧ m.name = n := by
      simp only [List.mem_flatMap, List.mem_map, Prod.mk.injEq]
      constructor
      · rintro ⟨b, hb, m, hm, rfl, rfl, rfl⟩; exact ⟨rfl, b, hb, m, hm, rfl, rfl⟩
      · rintro ⟨rfl, b, hb, m, hm, rfl, rfl⟩; exact ⟨b, hb, m, hm, rfl, rfl, rfl⟩
    rw [h1, htop]
    constructor
    · rintro (⟨rfl, m, hm, hn, hl⟩ | ⟨j, t, m, rfl, ht, hm, hn, hl⟩)
      · exact ⟨0, s, m, by omega, by simp, hm, hn, hl⟩
      · exact ⟨j + 1, t, m, by omega, by simpa using ht, hm, hn, hl⟩
    · rintro ⟨j, t, m, rfl, ht, hm, hn, hl⟩
      cases j with
      | zero =>
        simp only [List.length_cons, Nat.zero_lt_succ, List.getElem?_eq_getElem, List.getElem_cons_zero, Option.some.injEq] at ht
        subst ht
        exact .inl ⟨by omega, m, hm, hn, hl⟩
      | succ j => exact .inr ⟨j, t, m, by omega, by simpa using ht, hm, hn, hl⟩

theorem platformLoop_spec {ss : List Schema} (hs : ∀ s ∈ ss, SchemaInv s) (plat : Str) (i k : Nat) (path : Path) (n : Str) :
    ((i, path, n) ∈ (platformLoop plat k ss).2 ↔ ∃ (j : Nat) (s : Schema) (m : Message), i = k + j ∧ ss[j]? = some s ∧ (path, m) ∈ s.messages ∧ m.name = n ∧
      plat ∈ s.platforms ∧ (m.platforms = [] ∨ plat ∈ m.platforms)) ∧
    ((platformLoop plat k ss).1 = true ↔ ∃ s ∈ ss, plat ∈ s.platforms ∧ s.messages ≠ []) := by
  induction ss generalizing k with
  | nil => simp [platformLoop]
  | cons s ss ih =>
    obtain ⟨ih1, ih2⟩ := ih (fun t ht => hs t (by simp [ht])) (k + 1)
    have hsup : ∀ m : Message, supports plat m = true ↔ m.platforms = [] ∨ plat ∈ m.platforms := by
      intro m; unfold supports; simp
    have hall := schema_messages (hs s (by simp))
    have hemp : allMessagesOf (buildSchema s) = [] ↔ s.messages = [] := by
      constructor
      · intro h
        cases hc : s.messages with
        | nil => rfl
        | cons e es =>
          have := (hall e.1 e.2).2 (by rw [hc]; simp)
          rw [h] at this
          cases this
      · intro h
        cases hc : allMessagesOf (buildSchema s) with
        | nil => rfl
        | cons e es =>
          have := (hall e.1 e.2).1 (by rw [hc]; simp)
          rw [h] at this
          cases this
    have hsplit : ∀ (Q : Nat → Schema → Message → Prop),
        (∃ (j : Nat) (t : Schema) (m : Message), i = k + j ∧ (s :: ss)[j]? = some t ∧ Q j t m) ↔
        (∃ m, i = k ∧ Q 0 s m) ∨ ∃ (j : Nat) (t : Schema) (m : Message), i = k + 1 + j ∧ ss[j]? = some t ∧ Q (j + 1) t m := by
      intro Q
      constructor
      · rintro ⟨j, t, m, rfl, ht, hq⟩
        cases j with
        | zero =>
          simp only [List.length_cons, Nat.zero_lt_succ, List.getElem?_eq_getElem, List.getElem_cons_zero, Option.some.injEq] at ht
          subst ht
          exact .inl ⟨m, by omega, hq⟩
        | succ j => exact .inr ⟨j, t, m, by omega, by simpa using ht, hq⟩
      · rintro (⟨m, rfl, hq⟩ | ⟨j, t, m, rfl, ht, hq⟩)
        · exact ⟨0, s, m, by omega, by simp, hq⟩
        · exact ⟨j + 1, t, m, by omega, by simpa using ht, hq⟩
    rw [hsplit fun _ t m => (path, m) ∈ t.messages ∧ m.name = n ∧ plat ∈ t.platforms ∧ (m.platforms = [] ∨ plat ∈ m.platforms), ← ih1]
    rw [platformLoop.eq_2]
    by_cases hc : plat ∈ s.platforms
    · simp only [List.contains_iff_mem, hc, if_true, List.mem_append, List.mem_map, Prod.mk.injEq, List.mem_filter, hsup, Bool.or_eq_true,
        Bool.not_eq_true', List.isEmpty_eq_false_iff, ne_eq, hemp, ih2]
      constructor
      · constructor
        · rintro (⟨e, ⟨he, hp⟩, rfl, rfl, rfl⟩ | h)
          · exact .inl ⟨e.2, rfl, (hall _ _).1 he, rfl, trivial, hp⟩
          · exact .inr h
        · rintro (⟨m, rfl, hm, hn, _, hp⟩ | h)
          · exact .inl ⟨(path, m), ⟨(hall _ _).2 hm, hp⟩, rfl, rfl, hn⟩
          · exact .inr h
      · constructor
        · rintro (h | ⟨t, ht, h⟩)
          · exact ⟨s, by simp, hc, h⟩
          · exact ⟨t, by simp [ht], h⟩
        · rintro ⟨t, ht, h1, h2⟩
          rcases List.mem_cons.1 ht with rfl | ht
          · exact .inl h2
          · exact .inr ⟨t, ht, h1, h2⟩
    · have hcc : s.platforms.contains plat = false := by simpa using hc
      simp only [hcc, Bool.false_eq_true, if_false, ih2]
      constructor
      · constructor
        · exact .inr
        · rintro (⟨m, _, _, _, hp, _⟩ | h)
          · exact absurd hp hc
          · exact h
      · constructor
        · rintro ⟨t, ht, h⟩; exact ⟨t, by simp [ht], h⟩
        · rintro ⟨t, ht, h1, h2⟩
          rcases List.mem_cons.1 ht with rfl | ht
          · exact absurd h1 hc
          · exact ⟨t, ht, h1, h2⟩

end GenProofs

/-- A forced platform marks exactly the messages that support it (those that name it, and those that name none) in the schemas that declare it. It is
    refused iff no schema with messages declares it. -/
theorem C60_platform (fo : FloatOps) (p : Proto) (h : Reachable fo p) (plat : Str) (hp : plat ≠ []) :
    (∀ marked, referenceRequested p.schemas none plat = .ok marked → ∀ (i : Nat) (path : Path) (n : Str), (i, path, n) ∈ marked ↔
      ∃ s m, p.schemas[i]? = some s ∧ (path, m) ∈ s.messages ∧ m.name = n ∧ plat ∈ s.platforms ∧ (m.platforms = [] ∨ plat ∈ m.platforms)) ∧
    ((∃ marked, referenceRequested p.schemas none plat = .ok marked) ↔ ∃ s ∈ p.schemas, plat ∈ s.platforms ∧ s.messages ≠ []) ∧
    referenceRequested p.schemas none plat ≠ .ub := by
  have hi := (reachable_inv h).each
  have hpe : plat.isEmpty = false := by simpa using hp
  have hflag := fun i path n => platformLoop_spec hi plat i 0 path n
  unfold referenceRequested processPlatform
  simp only [hpe, Bool.false_eq_true, if_false]
  refine ⟨?_, ?_, ?_⟩
  · intro marked hm i path n
    split at hm
    · have := Res.ok.inj hm
      subst this
      rw [(hflag i path n).1]
      constructor
      · rintro ⟨j, s, m, hj, hrest⟩
        have : i = j := by omega
        subst this
        exact ⟨s, m, hrest⟩
      · rintro ⟨s, m, hrest⟩
        exact ⟨i, s, m, by omega, hrest⟩
    · cases hm
  · rw [← (hflag 0 [] []).2]
    constructor
    · rintro ⟨marked, hm⟩
      split at hm
      · assumption
      · cases hm
    · intro hx
      exact ⟨_, by rw [if_pos hx]⟩
  · split <;> simp

/-- Without a request all messages of the global namespace and of the namespaces at the top are marked, in all schemas. -/
theorem C60_all_partial (fo : FloatOps) (p : Proto) (h : Reachable fo p) : ∃ marked, referenceRequested p.schemas none [] = .ok marked ∧
    ∀ (i : Nat) (path : Path) (n : Str), (i, path, n) ∈ marked ↔
      ∃ s m, p.schemas[i]? = some s ∧ (path, m) ∈ s.messages ∧ m.name = n ∧ path.length ≤ 1 := by
  refine ⟨_, rfl, ?_⟩
  intro i path n
  rw [referenceAll_mem (reachable_inv h).each]
  constructor
  · rintro ⟨j, s, m, hj, hrest⟩
    have : i = j := by omega
    subst this
    exact ⟨s, m, hrest⟩
  · rintro ⟨s, m, hrest⟩
    exact ⟨i, s, m, by omega, hrest⟩

/-- Messages deeper inside are not: no code is generated for them. -/
theorem C60_nested_witness : ∃ p s m, Reachable fo0 p ∧ p.validated = true ∧ p.schemas[0]? = some s ∧ (["A".toList, "B".toList], m) ∈ s.messages ∧
    ∀ marked, referenceRequested p.schemas none [] = .ok marked → (0, ["A".toList, "B".toList], m.name) ∉ marked := by
  obtain ⟨p, s, h1, h2, h3, h4⟩ := schemaIs_spec (docs := [schemaEl "S" [nsEl "A" [nsEl "B" [msgEl "M" "1"]]]]) (n := 0)
    (P := fun s => s.messages.any fun e => e.1 == ["A".toList, "B".toList]) (by decide +kernel)
  obtain ⟨e, he, hp⟩ := List.any_eq_true.1 h4
  have hp' : e.1 = ["A".toList, "B".toList] := by simpa using hp
  refine ⟨p, s, e.2, h1, h2, h3, by rw [← hp']; exact he, ?_⟩
  intro marked hm hmem
  obtain ⟨mk, hmk, hiff⟩ := C60_all_partial fo0 p h1
  rw [hm] at hmk
  have := Res.ok.inj hmk
  subst this
  obtain ⟨_, _, _, _, _, hl⟩ := (hiff _ _ _).1 hmem
  simp at hl

/-- The hypotheses of `C60_platform` are met: two platforms, messages for one, for the other and for all of them, one of them nested. -/
example : (referenceRequested (after [schemaEl "S" [Sample.el "platform" [("name", "P1")], Sample.el "platform" [("name", "P2")],
      Sample.el "message" [("name", "M1"), ("id", "1"), ("platforms", "+P1")], Sample.el "message" [("name", "M2"), ("id", "2"), ("platforms", "+P2")],
      nsEl "A" [nsEl "B" [msgEl "M3" "3"]]]]).schemas none "P1".toList) =
    .ok [(0, [], "M1".toList), (0, ["A".toList, "B".toList], "M3".toList)] := by decide +kernel

namespace GenProofs

theorem list_sound {g : Gen} (ls : List Str) : ∀ marked, listLoop g ls = .ok marked → marked.map some = ls.map g.findMessageKey := by
  induction ls with
  | nil => intro marked h; have := Res.ok.inj h; subst this; rfl
  | cons l ls ih =>
    intro marked h
    rw [listLoop] at h
    cases hk : g.findMessageKey l with
    | none =>
      rw [hk] at h
      simp only at h
      split at h <;> cases h
    | some k =>
      rw [hk] at h
      obtain ⟨r, hr, h'⟩ := Res.bind_eq_ok.1 h
      have := Res.ok.inj h'
      subst this
      rw [List.map_cons, List.map_cons, hk, ih r hr]

theorem list_complete {g : Gen} (ls : List Str) (h : ∀ l ∈ ls, g.findMessageKey l ≠ none) : ∃ marked, listLoop g ls = .ok marked := by
  induction ls with
  | nil => exact ⟨[], rfl⟩
  | cons l ls ih =>
    obtain ⟨r, hr⟩ := ih fun x hx => h x (by simp [hx])
    cases hk : g.findMessageKey l with
    | none => exact absurd hk (h l (by simp))
    | some k => exact ⟨k :: r, by rw [listLoop, hk]; simp only; rw [hr]; rfl⟩

theorem key_of {p : Proto} (hi : ProtoInv p) {c i : Nat} {s : Schema} (hs : p.schemas[i]? = some s) {path : Path} {m : Message} {ref : Str}
    (hm : (path, m) ∈ s.messages) (hr : RefTextOf p.schemas c i path m.name ref) :
    (Gen.mk p.schemas c).findMessageKey ref = some (i, path, m.name) := by
  have hsi := hi.each s (List.mem_of_getElem? hs)
  have hval := (hsi.messages.1 _ hm).2.1
  have hpath := hsi.nsNames _ (hsi.messages.1 _ hm).1
  have hfind := find_of hi (c := c) hs (kind_of (collG := GNs.msgs) hsi hsi.messages (buildNs_msgs s)) (adj := id) (fun _ _ => rfl) hm hr
  obtain ⟨_, he⟩ := externalRef_of hi (c := c) hs hpath hval hr
  unfold Gen.findMessageKey Gen.findMessage
  rw [hfind, he]
  simp only [Option.map_some, Option.some.injEq, Prod.mk.injEq, and_true]
  have hsplit : (dotSplit (joinDots (path ++ [m.name]))).dropLast = path := by
    rw [split_join (by simp)]
    · simp
    · intro w hw
      rcases List.mem_append.1 hw with hw | hw
      · exact (name_facts (hpath w hw)).1
      · simp only [List.mem_singleton] at hw; subst hw; exact (name_facts hval).1
  refine ⟨?_, hsplit⟩
  obtain ⟨s', hs', hr⟩ := hr
  rw [hs] at hs'
  cases hs'
  unfold externalRefOf at hr
  rcases hr with hr | ⟨rfl, hr⟩
  · rw [if_pos rfl, dotJoin_eq] at hr
    have hr' : ref = '@' :: (s.name ++ '.' :: joinDots (path ++ [m.name])) := by
      rw [hr, List.cons_append, join_cons (by simp)]; rfl
    subst hr'
    have hdot := (name_facts (hi.valid s (List.mem_of_getElem? hs))).1
    simp only
    rw [(takeWhile_nodot hdot _).1]
    have := schemaIdx_of hi.names hs
    unfold schemaIdx at this
    rw [this]
    rfl
  · rw [if_neg (by simp), dotJoin_eq] at hr
    subst hr
    have hh := join_head path m.name hpath hval
    split
    · rename_i r hr
      rw [hr] at hh
      simp at hh
    · rfl

end GenProofs

/-- A list of messages marks the messages it names, if every line is a reference to one: with the name of the schema, or, for the last schema, without. -/
theorem C60_list_partial (fo : FloatOps) (p : Proto) (h : Reachable fo p) (contents : Str) (lines : List (Str × MsgKey))
    (hl : listLines contents = lines.map Prod.fst)
    (hk : ∀ e ∈ lines, ∃ s m, p.schemas[e.2.1]? = some s ∧ (e.2.2.1, m) ∈ s.messages ∧ m.name = e.2.2.2 ∧
      RefTextOf p.schemas (p.schemas.length - 1) e.2.1 e.2.2.1 m.name e.1) :
    referenceRequested p.schemas (some contents) [] = .ok (lines.map Prod.snd) := by
  have hi := reachable_inv h
  have hmap : ∀ e ∈ lines, (Gen.mk p.schemas (p.schemas.length - 1)).findMessageKey e.1 = some e.2 := by
    intro e he
    obtain ⟨s, m, hs, hm, hn, hr⟩ := hk e he
    rw [key_of hi hs hm hr, hn]
  obtain ⟨marked, hm⟩ := list_complete (g := Gen.mk p.schemas (p.schemas.length - 1)) (listLines contents) (by
    intro l hl' hne
    rw [hl] at hl'
    obtain ⟨e, he, rfl⟩ := List.mem_map.1 hl'
    rw [hmap e he] at hne
    cases hne)
  have hs := list_sound _ _ hm
  have hcongr : lines.map ((Gen.mk p.schemas (p.schemas.length - 1)).findMessageKey ∘ Prod.fst) = lines.map fun e => some e.2 :=
    List.map_congr_left fun e he => hmap e he
  rw [hl, List.map_map, hcongr] at hs
  unfold referenceRequested
  simp only [List.isEmpty_nil, if_true]
  rw [hm]
  have hinj : marked = lines.map Prod.snd := by
    have := congrArg (List.filterMap id) hs
    simpa [List.filterMap_map, List.filterMap_eq_map] using this
  rw [hinj]

/-- A line that names no message makes the program use a null pointer. -/
theorem C60_list_witness : ∃ p, Reachable fo0 p ∧ p.validated = true ∧ referenceRequested p.schemas (some "M2\n".toList) [] = .ub := by
  refine ⟨after [schemaEl "S" [msgEl "M1" "1"]], after_reachable _, by decide +kernel, by decide +kernel⟩

/-- A list together with a platform is refused. -/
theorem C60_both (ss : List Schema) (contents plat : Str) (h : plat ≠ []) : referenceRequested ss (some contents) plat = .err := by
  unfold referenceRequested
  have hpe : plat.isEmpty = false := by simpa using h
  simp [hpe]

/-- The hypotheses of `C60_list_partial` and of `C68_message` are met: references into a nested namespace and into another schema. -/
example : referenceRequested (after [schemaEl "S" [nsEl "A" [nsEl "B" [msgEl "M3" "3"]]], schemaEl "T" [msgEl "M" "1", nsEl "A" [msgEl "M2" "2"]]]).schemas
    (some "@S.A.B.M3\r\nM\nA.M2\n".toList) [] =
    .ok [(0, ["A".toList, "B".toList], "M3".toList), (1, [], "M".toList), (1, ["A".toList], "M2".toList)] := by decide +kernel

end Commsdsl.Props
