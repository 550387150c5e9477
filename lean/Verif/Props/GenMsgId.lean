import Verif.Lemmas.GenMsgId
import Verif.Props.GenMsgNames
import Verif.Props.GenEnumNames
/-!
# The enum of message ids: C87
-/
namespace Commsdsl.Props
open Commsdsl Text Fld Msg Frm Proto Spec Gen

namespace MsgProofs

theorem fullName_eq (path : Path) (name : Str) (hp : ∀ x ∈ path, x ≠ []) :
    fullName path name = joinWith "_".toList (path ++ [upperFirst name]) := by
  have key : ∀ (l : Path) (pre : Path), (∀ x ∈ pre ++ l, x ≠ []) →
      l.foldl (fun r x => (if r.isEmpty then r else r ++ ['_']) ++ x) (joinWith ['_'] pre) = joinWith ['_'] (pre ++ l) := by
    intro l
    induction l with
    | nil => intro pre _; simp
    | cons x l ih =>
      intro pre hne
      have he : (if (joinWith ['_'] pre).isEmpty then joinWith ['_'] pre else joinWith ['_'] pre ++ ['_']) ++ x = joinWith ['_'] (pre ++ [x]) := by
        by_cases h0 : pre = []
        · subst h0; simp [joinWith]
        · have : joinWith ['_'] pre ≠ [] := join_ne _ (fun a ha => hne a (by simp [ha])) h0
          rw [if_neg (by simpa using this), joinWith_append _ _ _ h0]
      rw [List.foldl_cons, he, ih _ (by simpa using hne)]
      simp
  have hk := key path [] (by simpa using hp)
  rw [show joinWith ['_'] [] = [] from rfl, List.nil_append] at hk
  unfold fullName
  simp only
  rw [hk, upperFirst_eq]
  by_cases h0 : path = []
  · subst h0; simp [joinWith]
  · have : joinWith ['_'] path ≠ [] := join_ne _ hp h0
    rw [if_neg (by simpa using this), show "_".toList = ['_'] from rfl, joinWith_append _ _ _ h0]

theorem maxId_ge (l : List (Path × Message)) : ∀ e ∈ l, e.2.id ≤ maxId l := by
  induction l with
  | nil => simp
  | cons a l ih =>
    intro e he
    unfold maxId
    rcases List.mem_cons.1 he with rfl | he
    · omega
    · have := ih e he; omega

theorem maxId_lt {b : Nat} (hb : 0 < b) (l : List (Path × Message)) (h : ∀ e ∈ l, e.2.id < b) : maxId l < b := by
  induction l with
  | nil => simpa [maxId] using hb
  | cons a l ih =>
    unfold maxId
    have h1 := h a (by simp)
    have h2 := ih fun e he => h e (by simp [he])
    omega

theorem not_one {α : Type} {l : List α} (hn : l.Nodup) (h : ¬ ∃ a, ∀ b, b ∈ l ↔ b = a) : l.length ≠ 1 := by
  intro hl
  obtain ⟨a, rfl⟩ := List.length_eq_one_iff.1 hl
  exact h ⟨a, fun b => by simp⟩

theorem is_one {α : Type} {l : List α} (hn : l.Nodup) {a : α} (h : ∀ b, b ∈ l ↔ b = a) : l = [a] := by
  match l with
  | [] => have := (h a).2 rfl; cases this
  | [b] => have := (h b).1 (by simp); rw [this]
  | b :: c :: r =>
    have h1 := (h b).1 (by simp)
    have h2 := (h c).1 (by simp)
    rw [h1, h2] at hn
    simp at hn

variable {s : Schema} {n : GNs}

theorem own_not_one (hs : SchemaInv s) (hn : n ∈ allNsOf (buildSchema s)) (h : ¬ ∃ a, ∀ b, IdFieldFor s n.path b ↔ b = a) : n.idFields.length ≠ 1 := by
  have hm := node_idFields hs hn
  intro hl
  obtain ⟨a, ha⟩ := List.length_eq_one_iff.1 hl
  refine h ⟨a, fun b => ?_⟩
  have h1 : ∀ b, IdField s n.path b ↔ b = a := fun b => by rw [← hm, ha]; simp
  unfold IdFieldFor
  rw [h1]
  refine ⟨fun hx => hx.elim id ?_, .inl⟩
  rintro ⟨h2, hno, _⟩
  exact absurd (h2 ▸ (h1 a).2 rfl) (hno a)

theorem idEnum_messages (hs : SchemaInv s) (hn : n ∈ allNsOf (buildSchema s)) (g : GVer) (h : ¬ ∃ a, ∀ b, IdFieldFor s n.path b ↔ b = a) :
    msgIdEnum g (buildSchema s) n = .ok { type := (false, if maxId n.allMessages ≤ 4294967295 then 32 else 64), values := (msgIdMessages (buildSchema s) n).map fun e => ("MsgId_".toList ++ fullName e.1 e.2.name, numToStringU e.2.id 0) } := by
  have h1 := own_not_one hs hn h
  obtain ⟨hnd, hmem⟩ := msgIdFields_spec hs hn
  have h2 : (msgIdFields (buildSchema s) n).length ≠ 1 := not_one hnd (by simpa only [hmem] using h)
  have e1 : msgIdType n = .ok (false, if maxId n.allMessages ≤ 4294967295 then 32 else 64) := by
    unfold msgIdType
    split
    · rename_i hx; rw [hx] at h1; simp at h1
    · rfl
  have e2 : msgIdValues g (buildSchema s) n = .ok ((msgIdMessages (buildSchema s) n).map fun e => ("MsgId_".toList ++ fullName e.1 e.2.name, numToStringU e.2.id 0)) := by
    unfold msgIdValues
    split
    · rename_i hx; rw [hx] at h2; simp at h2
    · rfl
  unfold msgIdEnum
  rw [e1, Res.bind_ok, e2, Res.bind_ok, Res.pure_eq]

theorem msgFor_mem {q : Path} {e : Path × Message} (h : MessageFor s q e) : e ∈ s.messages := by
  rcases h with ⟨h, _⟩ | ⟨_, _, h⟩ <;> exact h

end MsgProofs
open MsgProofs

/-- C87: without exactly one field for the message ids, the enum has one enumerator for each message of the namespace (and of those inside; for a global
    namespace without messages: for each message of the schema), in ascending order; its value is the id of the message. -/
theorem C87_messages (fo : FloatOps) (p : Proto) (h : Reachable fo p) (i : Nat) (s : Schema) (hs : p.schemas[i]? = some s) (n : GNs)
    (hn : n ∈ allNsOf (buildSchema s)) (g : GVer) (hno : ¬ ∃ a, ∀ b, IdFieldFor s n.path b ↔ b = a) :
    ∃ (r : MsgIdEnum) (l : List (Path × Message)) (text : Path × Message → Str), msgIdEnum g (buildSchema s) n = .ok r ∧ Listing (MessageFor s n.path) l ∧ r.values = l.map (fun e => (idName e, text e)) ∧
      ∀ e ∈ l, CppExpr (text e) e.2.id := by
  have hi := inv_at h hs
  have hl := msgIdMessages_spec hi hn
  refine ⟨_, _, fun e => numToStringU e.2.id 0, idEnum_messages hi hn g hno, hl, ?_, ?_⟩
  · refine List.map_congr_left fun e he => ?_
    have := meant_names hi (msgFor_mem ((hl.exact e).1 he))
    unfold idName
    rw [fullName_eq _ _ this.1]
  · intro e he
    have := (meant_names hi (msgFor_mem ((hl.exact e).1 he))).2.2
    obtain ⟨sg, hx⟩ := C51_unsigned e.2.id 0 this
    exact .inl ⟨_, sg, hx, rfl⟩

/-- C87: the type of the enum holds the ids of the messages in the namespace and in those inside. Missing: a global namespace without messages, which has
    enumerators for all the messages of the schema, see `C87_global_type_witness`. -/
theorem C87_type_partial (fo : FloatOps) (p : Proto) (h : Reachable fo p) (i : Nat) (s : Schema) (hs : p.schemas[i]? = some s) (n : GNs)
    (hn : n ∈ allNsOf (buildSchema s)) (g : GVer) (hno : ¬ ∃ a, ∀ b, IdFieldFor s n.path b ↔ b = a) (r : MsgIdEnum)
    (hr : msgIdEnum g (buildSchema s) n = .ok r) : ∀ e ∈ s.messages, NsInside n.path e.1 → CppHolds r.type e.2.id := by
  have hi := inv_at h hs
  rw [idEnum_messages hi hn g hno] at hr
  have := Res.ok.inj hr
  rw [← this]
  intro e he hin
  have hm := (node_messages hi hn e).2 ⟨he, hin⟩
  have hge := maxId_ge _ e hm
  have hlt := (meant_names hi he).2.2
  unfold CppHolds
  simp only [Bool.false_eq_true, if_false]
  split
  · omega
  · omega

/-- C87: the enumerators have different names, if no name of a message or namespace contains an underscore, and names of messages of the same namespace
    differ in more than the case of the first letter. Missing: other names, see the witnesses. -/
theorem C87_names_partial (fo : FloatOps) (p : Proto) (h : Reachable fo p) (i : Nat) (s : Schema) (hs : p.schemas[i]? = some s) (n : GNs)
    (hn : n ∈ allNsOf (buildSchema s)) (g : GVer) (hno : ¬ ∃ a, ∀ b, IdFieldFor s n.path b ↔ b = a) (r : MsgIdEnum)
    (hr : msgIdEnum g (buildSchema s) n = .ok r) (hu : ∀ e ∈ s.messages, '_' ∉ e.2.name ∧ ∀ x ∈ e.1, '_' ∉ x)
    (hc : ∀ a ∈ s.messages, ∀ b ∈ s.messages, a.1 = b.1 → upperFirst a.2.name = upperFirst b.2.name → a = b) : (r.values.map Prod.fst).Nodup := by
  have hi := inv_at h hs
  have hl := msgIdMessages_spec hi hn
  rw [idEnum_messages hi hn g hno] at hr
  have := Res.ok.inj hr
  rw [← this]
  simp only [List.map_map]
  unfold List.Nodup
  rw [List.pairwise_map]
  refine hl.once.imp_of_mem ?_
  intro a b ha hb hne he
  have ha := msgFor_mem ((hl.exact a).1 ha)
  have hb := msgFor_mem ((hl.exact b).1 hb)
  have na := meant_names hi ha
  have nb := meant_names hi hb
  simp only [Function.comp] at he
  have he := List.append_cancel_left he
  rw [fullName_eq _ _ na.1, fullName_eq _ _ nb.1] at he
  have hup : ∀ e ∈ s.messages, ∀ x ∈ e.1 ++ [upperFirst e.2.name], '_' ∉ x := by
    intro e he x hx
    obtain ⟨h1, h2⟩ := hu e he
    rcases List.mem_append.1 hx with hx | hx
    · exact h2 x hx
    · simp only [List.mem_singleton] at hx
      subst hx
      cases hnm : e.2.name with
      | nil => simp [upperFirst]
      | cons c cs =>
        rw [hnm] at h1
        simp only [List.mem_cons, not_or] at h1
        simp only [upperFirst, List.mem_cons, not_or]
        refine ⟨?_, h1.2⟩
        intro hcu
        apply h1.1
        unfold Char.toUpper at hcu
        split at hcu
        · rename_i hr
          exfalso
          have h3 := congrArg Char.val hcu
          have h4 : (95 : UInt32) = '_'.val := rfl
          rw [← h4] at h3
          have h5 : c.val + ('A'.val - 'a'.val) = 95 := h3.symm
          have h6 := hr.1
          have h7 := hr.2
          rw [UInt32.le_iff_toNat_le] at h6 h7
          have h8 := congrArg UInt32.toNat h5
          rw [UInt32.toNat_add] at h8
          have a1 : 'a'.val.toNat = 97 := rfl
          have a2 : 'z'.val.toNat = 122 := rfl
          have a3 : ('A'.val - 'a'.val).toNat = 4294967264 := rfl
          have a4 : (95 : UInt32).toNat = 95 := rfl
          rw [a3, a4] at h8
          rw [a1] at h6
          rw [a2] at h7
          omega
        · exact hcu
  have := join_inj (c := '_') (by simp) (by simp) (hup a ha) (hup b hb) he
  have := List.append_inj' this rfl
  exact hne (hc a ha b hb this.1 (by simpa using this.2))

/-- C87: with exactly one field for the message ids, the enumerators are those of the field (C79) with a prefix: one for every value the schema version has, with
    the declared number, and no name occurs twice. Missing: as in C79. -/
theorem C87_field_partial (fo : FloatOps) (p : Proto) (h : Reachable fo p) (i : Nat) (s : Schema) (hs : p.schemas[i]? = some s) (n : GNs)
    (hn : n ∈ allNsOf (buildSchema s)) (g : GVer) (a : Path × Field) (hone : ∀ b, IdFieldFor s n.path b ↔ b = a) :
    ∃ (c : Common) (st : EnumF.State) (t : IntF.IntType), a.2 = .enum c st ∧ st.num.type = some t ∧
      ((∀ p ∈ st.values, i64Min < p.2.value ∧ p.2.value ≤ i64Max) → (t = .uint64 ∨ t = .uintvar → ∀ p ∈ st.values, p.2.value ≠ i64Max) →
        ∃ r, msgIdEnum g (buildSchema s) n = .ok r ∧ (r.values.map Prod.fst).Nodup ∧
          (∀ p ∈ st.values, p.2.since ≤ g.version → ∃ text, ("MsgId_".toList ++ p.1, text) ∈ r.values ∧ CppExpr text (interp t p.2.value)) ∧
          (IdField s n.path a → ¬ VarLen t → ∀ p ∈ st.values, CppHolds r.type (interp t p.2.value))) := by
  have hi := inv_at h hs
  obtain ⟨hnd, hmem⟩ := msgIdFields_spec hi hn
  have hf : msgIdFields (buildSchema s) n = [a] := is_one hnd (fun b => by rw [hmem, hone])
  have hfor := (hone a).2 rfl
  have hfa : a ∈ s.fields ∧ a.2.kind = .enum := by
    rcases hfor with hx | ⟨_, _, hx⟩
    · exact ⟨hx.1, hx.2.2.2⟩
    · exact ⟨hx.1, hx.2.2⟩
  obtain ⟨k, hr⟩ := (hi.fields.1 _ hfa.1).2.2
  obtain ⟨c, st, hst⟩ : ∃ c st, a.2 = .enum c st := by
    cases ha : a.2 <;> simp only [ha, Field.kind] at hfa <;> first | exact ⟨_, _, rfl⟩ | exact absurd hfa.2 (by decide)
  have hleaf : Leaf a.2 := (obj_leaf (.acc hr.accepted)).self
  rw [hst] at hleaf
  obtain ⟨b, hacc⟩ := hleaf
  obtain ⟨t, ht, _⟩ := C16_values_of_type_partial b st hacc
  refine ⟨c, st, t, hst, ht, ?_⟩
  intro h64 hlim
  obtain ⟨ps, text, lo, hi', f, l, u, x, z, y, hes⟩ := C79_enumerators_partial g t b st hacc ht h64 hlim
  obtain ⟨he, hperm, _, htext, _, _, _, _, _, _, _, hnodup⟩ := hes
  have hasE : asEnum a.2 = .ok (t, st) := by rw [hst]; unfold asEnum; simp only [ht]
  obtain ⟨ty, hty⟩ : ∃ ty, msgIdType n = .ok ty ∧ (IdField s n.path a → ty = cppIntType t st.num.length) := by
    have hown := node_idFields hi hn
    unfold msgIdType
    by_cases hx : IdField s n.path a
    · have : n.idFields = [a] := by
        refine is_one ?_ fun b => ?_
        · obtain ⟨d, q, rfl, _⟩ := schema_nodes hn
          exact ns_idFields_nodup hi d q
        · rw [hown]
          exact ⟨fun hb => (hone b).1 (.inl hb), fun hb => hb ▸ hx⟩
      rw [this]
      simp only
      rw [hasE, Res.bind_ok, Res.pure_eq]
      exact ⟨_, rfl, fun _ => rfl⟩
    · have : n.idFields = [] := List.eq_nil_iff_forall_not_mem.2 fun b hb => by
        have hb := (hown b).1 hb
        have := (hone b).1 (.inl hb)
        exact hx (this ▸ hb)
      rw [this]
      exact ⟨_, rfl, fun hh => absurd hh hx⟩
  refine ⟨{ type := ty, values := (ps.map (fun p => (p.1, text p)) ++ ([(f, x), (l, z)] ++ if hi' < typeHi t then [(u, y)] else [])).map fun x => ("MsgId_".toList ++ x.1, x.2) }, ?_, ?_, ?_, ?_⟩
  · unfold msgIdEnum msgIdValues
    rw [hty.1, Res.bind_ok, hf]
    simp only
    rw [hasE, Res.bind_ok]
    simp only
    rw [he, Res.bind_ok, Res.pure_eq, Res.bind_ok, Res.pure_eq]
  · have : ∀ l : List (Str × Str), (l.map Prod.fst).Nodup → ((l.map fun x => ("MsgId_".toList ++ x.1, x.2)).map Prod.fst).Nodup := by
      intro l hl
      rw [List.map_map]
      unfold List.Nodup at hl ⊢
      rw [List.pairwise_map] at hl ⊢
      exact hl.imp fun hne he => hne (List.append_cancel_left he)
    exact this _ hnodup
  · intro p hp hv
    have hp' : p ∈ ps := hperm.mem_iff.2 (List.mem_filter.2 ⟨hp, by simpa using hv⟩)
    exact ⟨text p, List.mem_map.2 ⟨(p.1, text p), List.mem_append.2 (.inl (List.mem_map.2 ⟨p, hp', rfl⟩)), rfl⟩, htext p hp'⟩
  · intro hx hv p hp
    rw [hty.2 hx]
    exact C58_enum_values b st hacc t ht hv p hp

/-! ## Examples and witnesses -/

section
open MsgSample Sample

/-- An interface. -/
def MsgSample.ifEl : Xml := el "interface" [("name", "I")]

/-- Without any field for message ids nothing is exactly one. -/
theorem MsgSample.no_id {s : Schema} (h : s.fields = []) (q : Path) : ¬ ∃ a, ∀ b, IdFieldFor s q b ↔ b = a := by
  rintro ⟨a, ha⟩
  have := (ha a).2 rfl
  unfold IdFieldFor IdField at this
  rw [h] at this
  rcases this with ⟨h, _⟩ | ⟨_, _, h, _⟩ <;> cases h

/-- The hypotheses of C87_messages are met, and what comes out. -/
example : ∃ p s n, Reachable fo0 p ∧ p.validated = true ∧ p.schemas[0]? = some s ∧ n ∈ allNsOf (buildSchema s) ∧
    (¬ ∃ a, ∀ b, IdFieldFor s n.path b ↔ b = a) ∧ ∃ r, msgIdEnum { parsed := 3 } (buildSchema s) n = .ok r ∧ r.type = (false, 32) ∧
    r.values = [(t "MsgId_A_M1", t "1"), (t "MsgId_A_B_M2", t "2"), (t "MsgId_A_M3", t "300")] := by
  obtain ⟨p, s, n, h1, h2, h3, h4, h5⟩ := nsIs_spec (docs := [schemaEl "S" [nsEl "A" [MsgSample.ifEl, msgEl "m3" "300", msgEl "m1" "1", nsEl "B" [msgEl "m2" "2"]]]])
    (P := fun s n => s.fields.isEmpty && okIs (msgIdEnum { parsed := 3 } (buildSchema s) n) fun r => decide (r.type = (false, 32) ∧
      r.values = [(t "MsgId_A_M1", t "1"), (t "MsgId_A_B_M2", t "2"), (t "MsgId_A_M3", t "300")])) (by decide +kernel)
  obtain ⟨h5, h6⟩ := Bool.and_eq_true_iff.1 h5
  obtain ⟨r, hr, h7⟩ := okIs_spec h6
  exact ⟨p, s, n, h1, h2, h3, h4, MsgSample.no_id (by simpa using h5) _, r, hr, of_decide_eq_true h7⟩

/-- C87: the enum of a global namespace without messages has the messages of the whole schema, but its type is chosen without them: an id of 33 bits in an
    enum based on `unsigned`. -/
theorem C87_global_type_witness : ∃ p s n r, Reachable fo0 p ∧ p.validated = true ∧ p.schemas[0]? = some s ∧ n ∈ allNsOf (buildSchema s) ∧
    n.ifaces ≠ [] ∧ msgIdEnum { parsed := 3 } (buildSchema s) n = .ok r ∧
    r.values = [(t "MsgId_A_M", t "0x100000000ULL")] ∧ ¬ CppHolds r.type 4294967296 := by
  obtain ⟨p, s, n, h1, h2, h3, h4, h5⟩ := nsIs_spec (docs := [schemaEl "S" [MsgSample.ifEl, nsEl "A" [msgEl "M" "0x100000000"]]])
    (P := fun s n => !n.ifaces.isEmpty && okIs (msgIdEnum { parsed := 3 } (buildSchema s) n) fun r => decide (r.type = (false, 32) ∧
      r.values = [(t "MsgId_A_M", t "0x100000000ULL")])) (by decide +kernel)
  obtain ⟨h5, h6⟩ := Bool.and_eq_true_iff.1 h5
  obtain ⟨r, hr, h7⟩ := okIs_spec h6
  obtain ⟨h7, h8⟩ := of_decide_eq_true h7
  refine ⟨p, s, n, r, h1, h2, h3, h4, by simpa using h5, hr, h8, ?_⟩
  rw [h7]
  unfold CppHolds
  decide

/-- C87: names with an underscore make enumerators of the same name, with different values. -/
theorem C87_underscore_witness : ∃ p s n r, Reachable fo0 p ∧ p.validated = true ∧ p.schemas[0]? = some s ∧ n ∈ allNsOf (buildSchema s) ∧
    n.ifaces ≠ [] ∧ msgIdEnum { parsed := 3 } (buildSchema s) n = .ok r ∧ r.values = [(t "MsgId_A_B_M", t "1"), (t "MsgId_A_B_M", t "2")] := by
  obtain ⟨p, s, n, h1, h2, h3, h4, h5⟩ := nsIs_spec (docs := [schemaEl "S" [nsEl "A" [MsgSample.ifEl, msgEl "B_M" "1", nsEl "B" [msgEl "M" "2"]]]])
    (P := fun s n => !n.ifaces.isEmpty && okIs (msgIdEnum { parsed := 3 } (buildSchema s) n) fun r => decide (
      r.values = [(t "MsgId_A_B_M", t "1"), (t "MsgId_A_B_M", t "2")])) (by decide +kernel)
  obtain ⟨h5, h6⟩ := Bool.and_eq_true_iff.1 h5
  obtain ⟨r, hr, h7⟩ := okIs_spec h6
  exact ⟨p, s, n, r, h1, h2, h3, h4, by simpa using h5, hr, of_decide_eq_true h7⟩

/-- C87: so do names of messages that differ only in the case of the first letter. -/
theorem C87_case_witness : ∃ p s n r, Reachable fo0 p ∧ p.validated = true ∧ p.schemas[0]? = some s ∧ n ∈ allNsOf (buildSchema s) ∧
    n.ifaces ≠ [] ∧ msgIdEnum { parsed := 3 } (buildSchema s) n = .ok r ∧ r.values = [(t "MsgId_M", t "1"), (t "MsgId_M", t "2")] := by
  obtain ⟨p, s, n, h1, h2, h3, h4, h5⟩ := nsIs_spec (docs := [schemaEl "S" [MsgSample.ifEl, msgEl "m" "1", msgEl "M" "2"]])
    (P := fun s n => !n.ifaces.isEmpty && okIs (msgIdEnum { parsed := 3 } (buildSchema s) n) fun r => decide (
      r.values = [(t "MsgId_M", t "1"), (t "MsgId_M", t "2")])) (by decide +kernel)
  obtain ⟨h5, h6⟩ := Bool.and_eq_true_iff.1 h5
  obtain ⟨r, hr, h7⟩ := okIs_spec h6
  exact ⟨p, s, n, r, h1, h2, h3, h4, by simpa using h5, hr, of_decide_eq_true h7⟩

/-- C87: the type does not fit either when the field of the ids is in another namespace: it is used for the enumerators, not for the type. -/
theorem C87_global_field_witness : ∃ p s n r, Reachable fo0 p ∧ p.validated = true ∧ p.schemas[0]? = some s ∧ n ∈ allNsOf (buildSchema s) ∧
    n.ifaces ≠ [] ∧ msgIdEnum { parsed := 3 } (buildSchema s) n = .ok r ∧ (t "MsgId_M", t "-1") ∈ r.values ∧ ¬ CppHolds r.type (-1) := by
  obtain ⟨p, s, n, h1, h2, h3, h4, h5⟩ := nsIs_spec (docs := [schemaEl "S" [MsgSample.ifEl, nsEl "A" [el "fields" [] [
      el "enum" [("name", "Id"), ("type", "int8"), ("semanticType", "messageId")] [el "validValue" [("name", "M"), ("val", "-1")]]]]]])
    (P := fun s n => !n.ifaces.isEmpty && okIs (msgIdEnum { parsed := 3 } (buildSchema s) n) fun r => decide (r.type = (false, 32) ∧ (t "MsgId_M", t "-1") ∈ r.values))
      (by decide +kernel)
  obtain ⟨h5, h6⟩ := Bool.and_eq_true_iff.1 h5
  obtain ⟨r, hr, h7⟩ := okIs_spec h6
  obtain ⟨h7, h8⟩ := of_decide_eq_true h7
  refine ⟨p, s, n, r, h1, h2, h3, h4, by simpa using h5, hr, h8, ?_⟩
  rw [h7]
  unfold CppHolds
  decide

/-- The hypotheses of C87_field_partial are met: one field for the ids in the namespace of the interface. -/
example : ∃ p s n a, Reachable fo0 p ∧ p.validated = true ∧ p.schemas[0]? = some s ∧ n ∈ allNsOf (buildSchema s) ∧
    (∀ b, IdFieldFor s n.path b ↔ b = a) ∧ ∃ r, msgIdEnum { parsed := 3 } (buildSchema s) n = .ok r ∧ r.type = (false, 8) ∧
    r.values = [(t "MsgId_M1", t "1"), (t "MsgId_M2", t "2"), (t "MsgId_FirstValue", t "1"), (t "MsgId_LastValue", t "2"), (t "MsgId_ValuesLimit", t "3")] := by
  obtain ⟨p, s, n, h1, h2, h3, h4, h5⟩ := nsIs_spec (docs := [schemaEl "S" [nsEl "A" [MsgSample.ifEl, el "fields" [] [
      el "enum" [("name", "Id"), ("type", "uint8"), ("semanticType", "messageId")] [el "validValue" [("name", "M1"), ("val", "1")],
        el "validValue" [("name", "M2"), ("val", "2")]]]]]])
    (P := fun s n => decide ((msgIdFields (buildSchema s) n).length = 1) && okIs (msgIdEnum { parsed := 3 } (buildSchema s) n) fun r => decide (r.type = (false, 8) ∧
      r.values = [(t "MsgId_M1", t "1"), (t "MsgId_M2", t "2"), (t "MsgId_FirstValue", t "1"), (t "MsgId_LastValue", t "2"), (t "MsgId_ValuesLimit", t "3")]))
      (by decide +kernel)
  obtain ⟨h5, h6⟩ := Bool.and_eq_true_iff.1 h5
  obtain ⟨r, hr, h7⟩ := okIs_spec h6
  obtain ⟨a, ha⟩ := List.length_eq_one_iff.1 (of_decide_eq_true h5)
  refine ⟨p, s, n, a, h1, h2, h3, h4, fun b => ?_, r, hr, of_decide_eq_true h7⟩
  rw [← (msgIdFields_spec (inv_at h1 h3) h4).2, ha]
  simp

end

end Commsdsl.Props
