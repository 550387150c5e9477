import Verif.Model.GenCIds
import Verif.Props.GenMsgId
import Verif.Props.GenCEnum
/-!
# C132: message ids in the C interface
-/
namespace Commsdsl.Props
open Commsdsl Text Fld Msg Frm Proto Spec Gen
open MsgProofs

namespace CIdsProofs

theorem ids_messages {s : Schema} {n : GNs} (hs : SchemaInv s) (hn : n ∈ allNsOf (buildSchema s)) (g : GVer) (pfx : Str) (h : ¬ ∃ a, ∀ b, IdFieldFor s n.path b ↔ b = a) :
    cMsgIds g (buildSchema s) n pfx =
      .ok ((msgIdMessages (buildSchema s) n).map fun e => (pfx ++ "_".toList ++ "MsgId".toList ++ "_".toList ++ fullName e.1 e.2.name, numToStringU e.2.id 0)) := by
  obtain ⟨hnd, hmem⟩ := msgIdFields_spec hs hn
  have h2 : (msgIdFields (buildSchema s) n).length ≠ 1 := not_one hnd (by simpa only [hmem] using h)
  unfold cMsgIds
  split
  · rename_i hx; rw [hx] at h2; simp at h2
  · rfl

end CIdsProofs
open CIdsProofs

/-- C132: without exactly one field for the message ids, the C enumeration has the enumerators of the C++ one (C87), each with the C name of the namespace in
    front: one for each message, in ascending order, with its id. -/
theorem C132_messages (fo : FloatOps) (p : Proto) (h : Reachable fo p) (i : Nat) (s : Schema) (hs : p.schemas[i]? = some s) (n : GNs)
    (hn : n ∈ allNsOf (buildSchema s)) (g : GVer) (pfx : Str) (hno : ¬ ∃ a, ∀ b, IdFieldFor s n.path b ↔ b = a) :
    ∃ (r : MsgIdEnum) (l : List (Path × Message)) (text : Path × Message → Str), msgIdEnum g (buildSchema s) n = .ok r ∧
      cMsgIds g (buildSchema s) n pfx = .ok (r.values.map fun x => (pfx ++ "_".toList ++ x.1, x.2)) ∧
      r.values = l.map (fun e => (idName e, text e)) ∧ Listing (MessageFor s n.path) l ∧ ∀ e ∈ l, CppExpr (text e) e.2.id := by
  obtain ⟨r, l, text, hr, hl, hv, ht⟩ := C87_messages fo p h i s hs n hn g hno
  refine ⟨r, l, text, hr, ?_, hv, hl, ht⟩
  rw [ids_messages (inv_at h hs) hn g pfx hno]
  rw [idEnum_messages (inv_at h hs) hn g hno] at hr
  rw [← Res.ok.inj hr, List.map_map]
  congr 1
  refine List.map_congr_left fun e _ => ?_
  simp only [Function.comp, List.append_assoc]
  rfl

/-- C132: the enumerators for messages have different names, if no name of a message or namespace contains an underscore, and names of messages of the same
    namespace differ in more than the case of the first letter. Missing: other names, as in C87. -/
theorem C132_names_partial (fo : FloatOps) (p : Proto) (h : Reachable fo p) (i : Nat) (s : Schema) (hs : p.schemas[i]? = some s) (n : GNs)
    (hn : n ∈ allNsOf (buildSchema s)) (g : GVer) (pfx : Str) (hno : ¬ ∃ a, ∀ b, IdFieldFor s n.path b ↔ b = a) (l : List (Str × Str))
    (hl : cMsgIds g (buildSchema s) n pfx = .ok l) (hu : ∀ e ∈ s.messages, '_' ∉ e.2.name ∧ ∀ x ∈ e.1, '_' ∉ x)
    (hc : ∀ a ∈ s.messages, ∀ b ∈ s.messages, a.1 = b.1 → upperFirst a.2.name = upperFirst b.2.name → a = b) : (l.map Prod.fst).Nodup := by
  obtain ⟨r, _, _, hr, he, _⟩ := C132_messages fo p h i s hs n hn g pfx hno
  have hd := C87_names_partial fo p h i s hs n hn g hno r hr hu hc
  rw [he] at hl
  rw [← Res.ok.inj hl, List.map_map]
  unfold List.Nodup at hd ⊢
  rw [List.pairwise_map] at hd ⊢
  exact hd.imp fun hne he => hne (List.append_cancel_left he)

/-- C132: with exactly one field for the message ids the enumerators are those of the field (C131): one for every value the schema version has, with the
    declared number, and no name occurs twice. Missing: as in C131. -/
theorem C132_field_partial (fo : FloatOps) (p : Proto) (h : Reachable fo p) (i : Nat) (s : Schema) (hs : p.schemas[i]? = some s) (n : GNs)
    (hn : n ∈ allNsOf (buildSchema s)) (g : GVer) (pfx : Str) (a : Path × Field) (hone : ∀ b, IdFieldFor s n.path b ↔ b = a) :
    ∃ (c : Common) (st : EnumF.State) (t : IntF.IntType), a.2 = .enum c st ∧ st.num.type = some t ∧
      ((∀ p ∈ st.values, i64Min < p.2.value ∧ p.2.value ≤ i64Max) → (t = .uint64 ∨ t = .uintvar → ∀ p ∈ st.values, p.2.value ≠ i64Max) →
        ∃ l, cMsgIds g (buildSchema s) n pfx = .ok l ∧
          ((∀ p ∈ st.values, p.1 ≠ "TypeValuesLimit".toList) → (l.map Prod.fst).Nodup) ∧
          (∀ p ∈ st.values, p.2.since ≤ g.version → ∃ text, (pfx ++ "_MsgId_".toList ++ p.1, text) ∈ l ∧ CppExpr text (interp t p.2.value))) := by
  have hi := inv_at h hs
  obtain ⟨hnd, hmem⟩ := msgIdFields_spec hi hn
  have hf : msgIdFields (buildSchema s) n = [a] := is_one hnd (fun b => by rw [hmem, hone])
  have hfor := (hone a).2 rfl
  have hfa : a ∈ s.fields ∧ a.2.kind = .enum := by
    rcases hfor with hx | ⟨_, _, hx⟩
    · exact ⟨hx.1, hx.2.2.2⟩
    · exact ⟨hx.1, hx.2.2⟩
  obtain ⟨k, hr⟩ := (hi.fields.1 _ hfa.1).2.2
  obtain ⟨c, st, hst⟩ : ∃ c st, a.2 = .enum c st := by
    cases ha : a.2 <;> simp only [ha, Field.kind] at hfa <;> first | exact ⟨_, _, rfl⟩ | exact absurd hfa.2 (by decide)
  have hleaf : Leaf a.2 := (obj_leaf (.acc hr.accepted)).self
  rw [hst] at hleaf
  obtain ⟨b, hacc⟩ := hleaf
  obtain ⟨t, ht, _⟩ := C16_values_of_type_partial b st hacc
  refine ⟨c, st, t, hst, ht, ?_⟩
  intro h64 hlim
  obtain ⟨px, ps, text, lo, hi', x, f, l, u, a', z, y, d, hes⟩ := C131_partial g t b st [] (pfx ++ "_".toList ++ "MsgId".toList ++ "_".toList) hacc ht h64 hlim
  obtain ⟨he, hpx, hperm, _, htext, _, _, _, _, _, _, _, _, _, hnodup⟩ := hes
  have hpx : px = pfx ++ "_MsgId_".toList := by
    rw [hpx.1 (by simp)]
    simp only [List.append_assoc]
    rfl
  have hasE : asEnum a.2 = .ok (t, st) := by rw [hst]; unfold asEnum; simp only [ht]
  refine ⟨_, ?_, hnodup, ?_⟩
  · unfold cMsgIds
    rw [hf]
    simp only
    rw [hasE, Res.bind_ok]
    exact he
  · intro p hp hv
    have hp' : p ∈ ps := hperm.mem_iff.2 (List.mem_filter.2 ⟨hp, by simpa using hv⟩)
    rw [← hpx]
    exact ⟨text p, List.mem_append.2 (.inl (List.mem_map.2 ⟨p, hp', rfl⟩)), htext p hp'⟩

section
open MsgSample Sample

/-- The hypotheses of C132_messages are met, and what comes out. -/
example : ∃ p s n, Reachable fo0 p ∧ p.validated = true ∧ p.schemas[0]? = some s ∧ n ∈ allNsOf (buildSchema s) ∧
    (¬ ∃ a, ∀ b, IdFieldFor s n.path b ↔ b = a) ∧
    cMsgIds { parsed := 3 } (buildSchema s) n (t "S_A") = .ok [(t "S_A_MsgId_A_M1", t "1"), (t "S_A_MsgId_A_B_M2", t "2"), (t "S_A_MsgId_A_M3", t "300")] := by
  obtain ⟨p, s, n, h1, h2, h3, h4, h5⟩ := nsIs_spec (docs := [schemaEl "S" [nsEl "A" [MsgSample.ifEl, msgEl "m3" "300", msgEl "m1" "1", nsEl "B" [msgEl "m2" "2"]]]])
    (P := fun s n => s.fields.isEmpty && decide (cMsgIds { parsed := 3 } (buildSchema s) n (t "S_A") =
      .ok [(t "S_A_MsgId_A_M1", t "1"), (t "S_A_MsgId_A_B_M2", t "2"), (t "S_A_MsgId_A_M3", t "300")])) (by decide +kernel)
  obtain ⟨h5, h6⟩ := Bool.and_eq_true_iff.1 h5
  exact ⟨p, s, n, h1, h2, h3, h4, MsgSample.no_id (by simpa using h5) _, of_decide_eq_true h6⟩

/-- The hypotheses of C132_field_partial are met: one field for the ids in the namespace of the interface. -/
example : ∃ p s n a, Reachable fo0 p ∧ p.validated = true ∧ p.schemas[0]? = some s ∧ n ∈ allNsOf (buildSchema s) ∧
    (∀ b, IdFieldFor s n.path b ↔ b = a) ∧
    cMsgIds { parsed := 3 } (buildSchema s) n (t "S_A") = .ok [(t "S_A_MsgId_M1", t "1"), (t "S_A_MsgId_M2", t "2"), (t "S_A_MsgId_FirstValue", t "1"),
      (t "S_A_MsgId_LastValue", t "2"), (t "S_A_MsgId_ValuesLimit", t "3"), (t "S_A_MsgId_TypeValuesLimit", t "255")] := by
  obtain ⟨p, s, n, h1, h2, h3, h4, h5⟩ := nsIs_spec (docs := [schemaEl "S" [nsEl "A" [MsgSample.ifEl, el "fields" [] [
      el "enum" [("name", "Id"), ("type", "uint8"), ("semanticType", "messageId")] [el "validValue" [("name", "M1"), ("val", "1")],
        el "validValue" [("name", "M2"), ("val", "2")]]]]]])
    (P := fun s n => decide ((msgIdFields (buildSchema s) n).length = 1) && decide (cMsgIds { parsed := 3 } (buildSchema s) n (t "S_A") =
      .ok [(t "S_A_MsgId_M1", t "1"), (t "S_A_MsgId_M2", t "2"), (t "S_A_MsgId_FirstValue", t "1"),
      (t "S_A_MsgId_LastValue", t "2"), (t "S_A_MsgId_ValuesLimit", t "3"), (t "S_A_MsgId_TypeValuesLimit", t "255")]))
      (by decide +kernel)
  obtain ⟨h5, h6⟩ := Bool.and_eq_true_iff.1 h5
  obtain ⟨a, ha⟩ := List.length_eq_one_iff.1 (of_decide_eq_true h5)
  refine ⟨p, s, n, a, h1, h2, h3, h4, fun b => ?_, of_decide_eq_true h6⟩
  rw [← (msgIdFields_spec (inv_at h1 h3) h4).2, ha]
  simp

end

end Commsdsl.Props
