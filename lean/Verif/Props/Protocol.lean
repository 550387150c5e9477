import Verif.Lemmas.Protocol
import Verif.Lemmas.SampleMsg
import Verif.Props.Text
/-!
# The protocol object: C30 – C35, C47
-/
namespace Commsdsl.Props
open Commsdsl Fld Msg Frm Spec Text Proto

namespace ProtoProofs

theorem dotJoin_eq (l : List Str) : dotJoin l = joinDots l := by
  induction l using dotJoin.induct with
  | case1 => rfl
  | case2 => rfl
  | case3 a b r ih => rw [dotJoin, joinDots, ih]

theorem dotSplit_ne (s : Str) : dotSplit s ≠ [] := by
  cases s with
  | nil => simp [dotSplit]
  | cons c cs =>
    rw [dotSplit]
    split
    · simp
    · split <;> simp

theorem join_split (s : Str) : joinDots (dotSplit s) = s := by
  induction s with
  | nil => rfl
  | cons c cs ih =>
    rw [dotSplit]
    cases h : dotSplit cs with
    | nil => exact absurd h (dotSplit_ne cs)
    | cons t ts =>
      rw [h] at ih
      split
      · rename_i e; subst e; rw [joinDots, ih]; rfl
      · simp only
        cases ts with
        | nil => simp only [joinDots] at ih ⊢; rw [ih]
        | cons u us => simp only [joinDots, List.cons_append] at ih ⊢; rw [ih]

theorem split_nodot {w : Str} (h : '.' ∉ w) : dotSplit w = [w] := by
  induction w with
  | nil => rfl
  | cons c cs ih =>
    simp only [List.mem_cons, not_or] at h
    rw [dotSplit, if_neg (fun e => h.1 e.symm), ih h.2]

theorem split_append {w : Str} (h : '.' ∉ w) (r : Str) : dotSplit (w ++ '.' :: r) = w :: dotSplit r := by
  induction w with
  | nil => simp [dotSplit]
  | cons c cs ih =>
    simp only [List.mem_cons, not_or] at h
    rw [List.cons_append, dotSplit, if_neg (fun e => h.1 e.symm), ih h.2]

theorem split_join {l : List Str} (hne : l ≠ []) (h : ∀ w ∈ l, '.' ∉ w) : dotSplit (joinDots l) = l := by
  induction l using joinDots.induct with
  | case1 => exact absurd rfl hne
  | case2 a => exact split_nodot (h a (by simp))
  | case3 a b r ih =>
    rw [joinDots, split_append (h a (by simp)), ih (by simp) (fun w hw => h w (by simp [hw]))]

theorem name_facts {n : Str} (h : isValidName n = true) : '.' ∉ n ∧ n ≠ [] ∧ n.head? ≠ some '@' := by
  obtain ⟨c, cs, rfl, h1, h2⟩ := (C02_name_iff n).1 h
  have hd : ¬ NameRest '.' := by unfold NameRest; decide
  have hd' : ¬ NameStart '.' := by unfold NameStart; decide
  have ha : ¬ NameStart '@' := by unfold NameStart; decide
  refine ⟨?_, by simp, ?_⟩
  · intro hm
    rcases List.mem_cons.1 hm with rfl | hm
    · exact hd' h1
    · exact hd (h2 _ hm)
  · simp only [List.head?_cons, ne_eq, Option.some.injEq]
    rintro rfl; exact ha h1

theorem takeWhile_nodot {w : Str} (h : '.' ∉ w) (r : Str) :
    (w ++ '.' :: r).takeWhile (· != '.') = w ∧ (w ++ '.' :: r).dropWhile (· != '.') = '.' :: r := by
  induction w with
  | nil => simp
  | cons c cs ih =>
    simp only [List.mem_cons, not_or] at h
    have : (c != '.') = true := by simpa using fun e => h.1 e.symm
    obtain ⟨h1, h2⟩ := ih h.2
    simp only [List.cons_append, List.takeWhile_cons, List.dropWhile_cons, this, if_true]
    exact ⟨by rw [h1], h2⟩

theorem schemaIdx_of {ss : List Schema} (hn : (ss.map Schema.name).Nodup) {i : Nat} {s : Schema} (h : ss[i]? = some s) :
    schemaIdx ss s.name = some i := by
  unfold schemaIdx
  have hi : i < ss.length := by
    by_cases hl : i < ss.length
    · exact hl
    · rw [List.getElem?_eq_none (by omega)] at h; cases h
  rw [List.getElem?_eq_getElem hi] at h
  cases h
  rw [List.findIdx?_eq_some_iff_getElem]
  refine ⟨hi, by simp, ?_⟩
  intro j hj
  have hne : ss[j].name ≠ ss[i].name := by
    have := List.pairwise_iff_getElem.1 hn j i (by simpa using (by omega : j < ss.length)) (by simpa using hi) hj
    simpa using this
  simpa using hne

/-- How a reference is resolved, in terms of the recorded elements. -/
theorem find_iff {α : Type} {p : Proto} (hi : ProtoInv p) {nameOf : α → Str} {coll : Schema → List (Path × α)} {acc : α → Prop}
    (hc : ∀ s ∈ p.schemas, CollInv s.nss nameOf acc (coll s)) (check : Bool) (ref : Str) (a : α) :
    p.find nameOf coll check ref = some a ↔ ∃ (i c : Nat) (s : Schema) (path : Path), p.curr = some c ∧ i ≤ c ∧ p.schemas[i]? = some s ∧
      (path, a) ∈ coll s ∧ ((ref = joinDots (path ++ [nameOf a]) ∧ i = c) ∨ ref = '@' :: joinDots (s.name :: (path ++ [nameOf a]))) := by
  constructor
  · intro h
    obtain ⟨i, c, s, rest, he, hcur, hic, hs, hm, hn⟩ := find_mem h
    have hrest : joinDots ((dotSplit rest).dropLast ++ [nameOf a]) = rest := by
      rw [hn]
      have hne := dotSplit_ne rest
      rw [List.getLast?_eq_some_getLast hne, Option.getD_some, List.dropLast_concat_getLast hne, join_split]
    refine ⟨i, c, s, _, hcur, hic, hs, hm, ?_⟩
    unfold Proto.externalRef at he
    split at he
    · rename_i r
      split at he
      · cases he
      · rename_i hdot0
        obtain ⟨j, hj, e⟩ := Option.map_eq_some_iff.1 he
        simp only [Prod.mk.injEq] at e
        obtain ⟨rfl, e2⟩ := e
        obtain ⟨s', hs', hname⟩ := schemaIdx_spec hj
        rw [hs] at hs'
        cases hs'
        right
        have hdot : '.' ∈ r := by simpa using hdot0
        have hsplit : r = s.name ++ '.' :: rest := by
          rw [← e2, hname]
          clear hj he hs hm hn hrest e2 hname h hdot0
          induction r with
          | nil => simp at hdot
          | cons c r ih =>
            by_cases hc : c = '.'
            · subst hc; simp
            · have : (c != '.') = true := by simpa using hc
              simp only [List.takeWhile_cons, List.dropWhile_cons, this, if_true, List.cons_append]
              congr 1
              exact ih (by simpa [Ne.symm hc] using hdot)
        rw [hsplit]
        congr 1
        rw [show joinDots (s.name :: ((dotSplit rest).dropLast ++ [nameOf a])) =
          s.name ++ '.' :: joinDots ((dotSplit rest).dropLast ++ [nameOf a]) by
            cases (dotSplit rest).dropLast <;> rfl, hrest]
    · rw [hcur] at he
      simp only [Option.map_some, Option.some.injEq, Prod.mk.injEq] at he
      obtain ⟨rfl, rfl⟩ := he
      exact .inl ⟨hrest.symm, rfl⟩
  · rintro ⟨i, c, s, path, hcur, hic, hs, hm, href⟩
    have hsm := List.mem_of_getElem? hs
    have hcoll := hc s hsm
    obtain ⟨hp, hv, _⟩ := hcoll.1 _ hm
    have hpath := (hi.each s hsm).nsNames _ hp
    have hall : ∀ w ∈ path ++ [nameOf a], isValidName w = true := by
      intro w hw
      rcases List.mem_append.1 hw with hw | hw
      · exact hpath w hw
      · simp only [List.mem_singleton] at hw; subst hw; exact hv
    have hne : path ++ [nameOf a] ≠ [] := by simp
    have hsp : dotSplit (joinDots (path ++ [nameOf a])) = path ++ [nameOf a] :=
      split_join hne (fun w hw => (name_facts (hall w hw)).1)
    have hhead : ∃ w ws, path ++ [nameOf a] = w :: ws := by cases path <;> simp
    obtain ⟨w, ws, hw⟩ := hhead
    have hval : isValidRefName (joinDots (path ++ [nameOf a])) = true := by
      rw [hw]
      exact (C03_paths_accepted_partial w ws (fun x hx => (C02_name_iff x).1 (hall x (by rw [hw]; exact hx)))).1
    have hjne : joinDots (path ++ [nameOf a]) ≠ [] ∧ (joinDots (path ++ [nameOf a])).head? ≠ some '@' := by
      rw [hw]
      obtain ⟨_, h2, h3⟩ := name_facts (hall w (by rw [hw]; simp))
      cases hw0 : w with
      | nil => exact absurd hw0 h2
      | cons x xs =>
        rw [hw0] at h3
        cases ws <;> simp only [joinDots] <;> exact ⟨by simp, h3⟩
    have hext : p.externalRef ref = some (i, joinDots (path ++ [nameOf a])) := by
      rcases href with ⟨rfl, rfl⟩ | rfl
      · unfold Proto.externalRef
        split
        · rename_i r e
          rw [e] at hjne
          exact absurd rfl hjne.2
        · rw [hcur]; rfl
      · have hj : joinDots (s.name :: (path ++ [nameOf a])) = s.name ++ '.' :: joinDots (path ++ [nameOf a]) := by
          cases path <;> rfl
        obtain ⟨h1, _, _⟩ := name_facts (hi.valid s hsm)
        obtain ⟨h2, h3⟩ := takeWhile_nodot h1 (joinDots (path ++ [nameOf a]))
        unfold Proto.externalRef
        simp only [hj]
        rw [h2, h3, schemaIdx_of hi.names hs]
        simp
    unfold Proto.find
    rw [hext]
    simp only
    have hcond : ((joinDots (path ++ [nameOf a])).isEmpty || !p.canRef i || (check && !isValidRefName (joinDots (path ++ [nameOf a])))) = false := by
      rw [hval]
      unfold Proto.canRef
      rw [hcur]
      simp [hjne.1, hic]
    rw [hcond]
    simp only [Bool.false_eq_true, if_false, hs]
    unfold Schema.find
    simp only [hsp]
    rw [List.dropLast_concat, List.getLast?_concat]
    simp only [Option.getD_some]
    rw [if_pos (by simpa using hp)]
    exact lookup_of_mem hcoll.2 hm

end ProtoProofs
open ProtoProofs

/-! ## C32, C33 -/

/-- Where an element is: schema number `i` (of those up to the current one, number `c`), namespaces, and the two forms of reference to it. -/
def RefersTo {α : Type} (p : Proto) (coll : Schema → List (Path × α)) (nameOf : α → Str) (ref : Str) (a : α) : Prop :=
  ∃ (i c : Nat) (s : Schema) (path : Path), p.curr = some c ∧ i ≤ c ∧ p.schemas[i]? = some s ∧ (path, a) ∈ coll s ∧
    ((ref = joinDots (path ++ [nameOf a]) ∧ i = c) ∨ ref = '@' :: joinDots (s.name :: (path ++ [nameOf a])))

/-- C32, C33: while documents are processed and afterwards, a reference to a field finds exactly the field of that name in that namespace: of the
    current schema without schema name, and of a schema that is not later than the current one with `@schema.`. -/
theorem C33_field_iff (fo : FloatOps) (p : Proto) (h : During fo p) (ref : Str) (f : Field) :
    p.findField ref = some f ↔ RefersTo p Schema.fields Field.name ref f :=
  find_iff (during_inv h) (fun s hs => ((during_inv h).each s hs).fields) true ref f

/-- The same for messages. -/
theorem C33_message_iff (fo : FloatOps) (p : Proto) (h : During fo p) (ref : Str) (f : Message) :
    p.findMessage ref = some f ↔ RefersTo p Schema.messages Message.name ref f :=
  find_iff (during_inv h) (fun s hs => ((during_inv h).each s hs).messages) true ref f

/-- The same for interfaces. -/
theorem C33_interface_iff (fo : FloatOps) (p : Proto) (h : During fo p) (ref : Str) (f : Interface) :
    p.findInterface ref = some f ↔ RefersTo p Schema.ifaces Interface.name ref f :=
  find_iff (during_inv h) (fun s hs => ((during_inv h).each s hs).ifaces) true ref f

/-- C32 for fields: looking up the external reference of a field (with the name of the schema, or without it if the schema is the current one)
    gives that very field. -/
theorem C32_field (fo : FloatOps) (p : Proto) (h : During fo p) (i c : Nat) (s : Schema) (path : Path) (f : Field) (hc : p.curr = some c)
    (hic : i ≤ c) (hs : p.schemas[i]? = some s) (hf : (path, f) ∈ s.fields) :
    p.findField (externalRefOf true s.name path f.name) = some f ∧
    (i = c → p.findField (externalRefOf false s.name path f.name) = some f) := by
  constructor
  · refine (C33_field_iff fo p h _ f).2 ⟨i, c, s, path, hc, hic, hs, hf, .inr ?_⟩
    unfold externalRefOf
    rw [if_pos rfl, dotJoin_eq]
    cases path <;> rfl
  · intro e
    refine (C33_field_iff fo p h _ f).2 ⟨i, c, s, path, hc, hic, hs, hf, .inl ⟨?_, e⟩⟩
    unfold externalRefOf
    rw [if_neg (by simp), dotJoin_eq]

/-- C32 for messages. -/
theorem C32_message (fo : FloatOps) (p : Proto) (h : During fo p) (i c : Nat) (s : Schema) (path : Path) (f : Message) (hc : p.curr = some c)
    (hic : i ≤ c) (hs : p.schemas[i]? = some s) (hf : (path, f) ∈ s.messages) :
    p.findMessage (externalRefOf true s.name path f.name) = some f ∧
    (i = c → p.findMessage (externalRefOf false s.name path f.name) = some f) := by
  constructor
  · refine (C33_message_iff fo p h _ f).2 ⟨i, c, s, path, hc, hic, hs, hf, .inr ?_⟩
    unfold externalRefOf
    rw [if_pos rfl, dotJoin_eq]
    cases path <;> rfl
  · intro e
    refine (C33_message_iff fo p h _ f).2 ⟨i, c, s, path, hc, hic, hs, hf, .inl ⟨?_, e⟩⟩
    unfold externalRefOf
    rw [if_neg (by simp), dotJoin_eq]

/-- C32 for interfaces. -/
theorem C32_interface (fo : FloatOps) (p : Proto) (h : During fo p) (i c : Nat) (s : Schema) (path : Path) (f : Interface) (hc : p.curr = some c)
    (hic : i ≤ c) (hs : p.schemas[i]? = some s) (hf : (path, f) ∈ s.ifaces) :
    p.findInterface (externalRefOf true s.name path f.name) = some f ∧
    (i = c → p.findInterface (externalRefOf false s.name path f.name) = some f) := by
  constructor
  · refine (C33_interface_iff fo p h _ f).2 ⟨i, c, s, path, hc, hic, hs, hf, .inr ?_⟩
    unfold externalRefOf
    rw [if_pos rfl, dotJoin_eq]
    cases path <;> rfl
  · intro e
    refine (C33_interface_iff fo p h _ f).2 ⟨i, c, s, path, hc, hic, hs, hf, .inl ⟨?_, e⟩⟩
    unfold externalRefOf
    rw [if_neg (by simp), dotJoin_eq]

/-! ## C34 -/

/-- C34: every recorded field has a bound on the length of chains of references: whatever a reference could find while the field was parsed has a
    smaller bound. So following references always ends. -/
theorem C34_references_end (fo : FloatOps) (p : Proto) (h : During fo p) (s : Schema) (hs : s ∈ p.schemas) (path : Path) (f : Field)
    (hf : (path, f) ∈ s.fields) : ∃ n, Rank n f :=
  (((during_inv h).each s hs).fields.1 _ hf).2.2

/-- All recorded elements have been accepted by the parser, so that everything proved of accepted fields, messages, interfaces and frames holds
    of what the protocol object offers. -/
theorem C34_recorded_accepted (fo : FloatOps) (p : Proto) (h : During fo p) (s : Schema) (hs : s ∈ p.schemas) :
    (∀ e ∈ s.fields, Accepted e.2) ∧ (∀ e ∈ s.messages, AcceptedMsg e.2) ∧ (∀ e ∈ s.ifaces, AcceptedIface e.2) ∧
    ∀ e ∈ s.frames, ∃ env node, parseFrame env node = .ok e.2 := by
  have hi := (during_inv h).each s hs
  refine ⟨fun e he => ?_, fun e he => (hi.messages.1 e he).2.2, fun e he => (hi.ifaces.1 e he).2.2, fun e he => (hi.frames.1 e he).2.2⟩
  obtain ⟨n, hn⟩ := (hi.fields.1 e he).2.2
  exact hn.accepted

/-- C47: the declared platforms of every schema are strictly sorted. -/
theorem C47_declared_sorted (fo : FloatOps) (p : Proto) (h : During fo p) (s : Schema) (hs : s ∈ p.schemas) :
    s.platforms.Pairwise (· < ·) := ((during_inv h).each s hs).platforms

end Commsdsl.Props
