import Verif.Lemmas.GenLengthMax
import Verif.Lemmas.Message
import Verif.Lemmas.SampleMsg
/-!
# C110: the lengths asserted in generated messages
-/
namespace Commsdsl.Props
open Commsdsl Fld Spec Text Gen Msg LengthProofs SerProofs LenProofs

/-- The bytes of values of a generated message class, all fields one after the other. -/
def msgBytes (g : GVer) (m : Message) (n : Nat) : Prop := genAll g (.message m.w.since) m.fields n

/-- The assertions generated for the message. -/
def msgCheck (g : GVer) (m : Message) : Res (Option LengthCheck) := lengthCheck g m.w.since m.fields

namespace LenProofs

theorem check_inv {g : GVer} {m : Message} {k : LengthCheck} (h : msgCheck g m = .ok (some k)) :
    commsMinSum g (.message m.w.since) m.fields 0 = .ok k.least ∧ ∃ b, commsMaxSum m.fields 0 = .ok b ∧ b ≤ 2 ^ 64 - 1 ∧
      k.most = if b = 2 ^ 64 - 1 then none else some b := by
  unfold msgCheck lengthCheck at h
  split at h
  · cases h
  · simp only [Res.bind_eq_ok, Res.pure_eq, Res.ok.injEq, Option.some.injEq] at h
    obtain ⟨a, ha, b, hb, rfl⟩ := h
    refine ⟨ha, b, hb, maxSum_le m.fields 0 b (by decide) hb, ?_⟩
    dsimp only
    unfold maxPossible
    by_cases hm : b = 18446744073709551615
    · simp [hm]
    · rw [if_pos hm, if_neg (by omega)]

theorem most_inv {g : GVer} {m : Message} {k : LengthCheck} {b : Nat} (h : msgCheck g m = .ok (some k)) (hb : k.most = some b) :
    commsMaxSum m.fields 0 = .ok b ∧ b < 2 ^ 64 - 1 := by
  obtain ⟨_, b', h1, h2, h3⟩ := check_inv h
  rw [hb] at h3
  split at h3
  · cases h3
  · cases h3; exact ⟨h1, by omega⟩

mutual
theorem variant_iff : (f : Field) → (hasCustomLength f = true ↔ HasVariant f)
  | .int .. => by simp only [hasCustomLength]; exact ⟨fun h => (nomatch h), fun h => nomatch h⟩
  | .enum .. => by simp only [hasCustomLength]; exact ⟨fun h => (nomatch h), fun h => nomatch h⟩
  | .set .. => by simp only [hasCustomLength]; exact ⟨fun h => (nomatch h), fun h => nomatch h⟩
  | .float .. => by simp only [hasCustomLength]; exact ⟨fun h => (nomatch h), fun h => nomatch h⟩
  | .string .. => by simp only [hasCustomLength]; exact ⟨fun h => (nomatch h), fun h => nomatch h⟩
  | .data .. => by simp only [hasCustomLength]; exact ⟨fun h => (nomatch h), fun h => nomatch h⟩
  | .list .. => by simp only [hasCustomLength]; exact ⟨fun h => (nomatch h), fun h => nomatch h⟩
  | .ref .. => by simp only [hasCustomLength]; exact ⟨fun h => (nomatch h), fun h => nomatch h⟩
  | .optional .. => by simp only [hasCustomLength]; exact ⟨fun h => (nomatch h), fun h => nomatch h⟩
  | .variant .. => by simp only [hasCustomLength]; exact ⟨fun _ => .here, fun _ => trivial⟩
  | .bundle _ ms _ _ => by
    simp only [hasCustomLength]
    rw [any_variant ms]
    exact ⟨fun ⟨m, h1, h2⟩ => .bundle h1 h2, fun h => match h with | .bundle h1 h2 => ⟨_, h1, h2⟩⟩
  | .bitfield _ _ ms _ => by
    simp only [hasCustomLength]
    rw [any_variant ms]
    exact ⟨fun ⟨m, h1, h2⟩ => .bitfield h1 h2, fun h => match h with | .bitfield h1 h2 => ⟨_, h1, h2⟩⟩
theorem any_variant : (ms : List Field) → (anyCustomLength ms = true ↔ ∃ m ∈ ms, HasVariant m)
  | [] => by simp [anyCustomLength]
  | m :: ms => by
    simp only [anyCustomLength, Bool.or_eq_true, variant_iff m, any_variant ms]
    simp
end

theorem leaves {m : Message} (h : AcceptedMsg m) : ∀ f ∈ m.fields, Hered Leaf f := fun f hf => obj_leaf (msg_fields_obj h f hf)

end LenProofs

/-- C110, minimum, partial: no value of the generated message class takes fewer bytes than the asserted minimum. Missing from the full claim: messages with
    pseudo fields, or with prefixes or list elements that may be missing in a version or limited by what is available; for these it is false, see below. -/
theorem C110_least_partial (g : GVer) (m : Message) (hm : AcceptedMsg m) (hc : CountableAll g (.message m.w.since) m.fields) (k : LengthCheck)
    (h : msgCheck g m = .ok (some k)) (n : Nat) (hn : msgBytes g m n) : k.least ≤ n := by
  have := sum_lower m.fields hc (fun x hx pl h a n => lowerC x (leaves hm x hx) h a n) 0 k.least n (check_inv h).1 hn
  omega

/-- C110, minimum, partial: some value takes exactly that many bytes (or, if the sizes exceed 64 bits, 2^64-1 or more). Missing: as above, prefixes that cannot
    announce an empty sequence, and bitfields whose bits add up to 2^64 or more. -/
theorem C110_least_reached_partial (g : GVer) (m : Message) (hm : AcceptedMsg m) (hc : CountableAll g (.message m.w.since) m.fields)
    (hb : ∀ f ∈ m.fields, Hered BitsFit f) (he : ∀ f ∈ m.fields, Hered EmptyOk f) (k : LengthCheck) (h : msgCheck g m = .ok (some k)) :
    ∃ n, msgBytes g m n ∧ (n = k.least ∨ 2 ^ 64 - 1 ≤ n) := by
  obtain ⟨n, h1, h2⟩ := sum_attain m.fields hc (fun x hx pl h a h1 => by
    exact attainC x (leaves hm x hx) (hb x hx) (he x hx) h a h1) 0 k.least (check_inv h).1
  exact ⟨n, h1, by omega⟩

/-- C110, maximum, partial: no value takes more bytes than the asserted maximum, if there is one. Missing: bitfields whose bits add up to 2^64 or more. -/
theorem C110_most_partial (g : GVer) (m : Message) (hm : AcceptedMsg m) (hb : ∀ f ∈ m.fields, Hered BitsFit f) (k : LengthCheck)
    (h : msgCheck g m = .ok (some k)) (b : Nat) (hk : k.most = some b) (n : Nat) (hn : msgBytes g m n) : n ≤ b := by
  obtain ⟨h1, h2⟩ := most_inv h hk
  have := sum_upper m.fields (fun x hx pl b n => upperC x (leaves hm x hx) (obj_zero (msg_fields_obj hm x hx)) (hb x hx) b n) 0 b n h1 h2 hn
  omega

/-- C110, maximum, partial: some value takes exactly that many bytes. Missing: messages with pseudo fields, and as above. -/
theorem C110_most_reached_partial (g : GVer) (m : Message) (hm : AcceptedMsg m) (hr : ∀ f ∈ m.fields, Hered Real f) (hb : ∀ f ∈ m.fields, Hered BitsFit f)
    (he : ∀ f ∈ m.fields, Hered EmptyOk f) (k : LengthCheck) (h : msgCheck g m = .ok (some k)) (b : Nat) (hk : k.most = some b) : msgBytes g m b := by
  obtain ⟨h1, h2⟩ := most_inv h hk
  obtain ⟨n, h3, h4⟩ := sum_reach (gv := g) (pl := .message m.w.since) m.fields (fun x hx pl b h5 h6 =>
    attainMaxC x (leaves hm x hx) (obj_zero (msg_fields_obj hm x hx)) (hb x hx) (he x hx) (hr x hx) b h5 h6) 0 b h1 h2
  unfold msgBytes
  rw [h4, Nat.zero_add]
  exact h3

/-- C110: there are no assertions exactly if some field is a variant or a bundle that contains one, at any depth. -/
theorem C110_none (g : GVer) (m : Message) : msgCheck g m = .ok none ↔ ∃ f ∈ m.fields, HasVariant f := by
  rw [← any_variant]
  unfold msgCheck lengthCheck
  constructor
  · intro h
    by_cases hv : anyCustomLength m.fields = true
    · exact hv
    · rw [if_neg hv] at h
      simp only [Res.bind_eq_ok, Res.pure_eq, Res.ok.injEq] at h
      obtain ⟨a, _, b, _, h⟩ := h
      cases h
  · intro h
    rw [if_pos h]

/-! ## Concrete cases -/

namespace LenProofs
open Sample

/-- Versions of a schema whose messages carry a version, of version 3. -/
def gv3 : GVer := { parsed := 3, versionDependent := true }

/-- Test of the result of the check. -/
def isCheck (r : Res (Option LengthCheck)) (a : Nat) (b : Option Nat) : Bool := decide (r = .ok (some ⟨a, b⟩))

end LenProofs

open Sample in
/-- A message of a number, a number added in version 2 and a string of fixed length: between 6 and 10 bytes. All hypotheses above are met. -/
example : ∃ m, AcceptedMsg m ∧ msgCheck gv3 m = .ok (some ⟨6, some 10⟩) ∧ CountableAll gv3 (.message m.w.since) m.fields ∧ (∀ f ∈ m.fields, Hered Real f) ∧
    (∀ f ∈ m.fields, Hered BitsFit f) ∧ (∀ f ∈ m.fields, Hered EmptyOk f) := by
  obtain ⟨m, _, h1, h2⟩ := acceptedMsg menv0_ok
    (x := el "message" [("name", "M"), ("id", "1")] [el "fields" [] [el "int" [("name", "a"), ("type", "uint8")],
      el "int" [("name", "b"), ("type", "uint32"), ("sinceVersion", "2")], el "string" [("name", "s"), ("length", "5")]]])
    (p := fun m => isCheck (msgCheck gv3 m) 6 (some 10) && match m.fields with
      | [.int c1 _, .int c2 _, .string c3 _ .none] => !c1.pseudo && !c2.pseudo && !c3.pseudo
      | _ => false) (by decide +kernel)
  simp only [Bool.and_eq_true] at h2
  obtain ⟨h2, h3⟩ := h2
  refine ⟨m, h1, of_decide_eq_true h2, ?_⟩
  split at h3
  · rename_i c1 st1 c2 st2 c3 st3 e
    simp only [Bool.and_eq_true, Bool.not_eq_true'] at h3
    rw [e]
    have key : ∀ (P : Field → Prop), P (.int c1 st1) → P (.int c2 st2) → P (.string c3 st3 .none) →
        ∀ f ∈ [Field.int c1 st1, .int c2 st2, .string c3 st3 .none], Hered P f := by
      intro P p1 p2 p3 f hf
      simp only [List.mem_cons, List.not_mem_nil, or_false] at hf
      rcases hf with rfl | rfl | rfl
      · exact .mk p1 (by simp [Field.subs])
      · exact .mk p2 (by simp [Field.subs])
      · exact .mk p3 (by simp [Field.subs, Slot.toList])
    refine ⟨?_, key _ h3.1.1 h3.1.2 h3.2, key _ trivial trivial trivial, key _ trivial trivial trivial⟩
    simp [CountableAll, Countable, FirmSlot, Field.common, h3]
  · cases h3

open Sample in
/-- A variant in a bundle: no check. -/
example : ∃ m, AcceptedMsg m ∧ msgCheck gv3 m = .ok none := by
  obtain ⟨m, _, h1, h2⟩ := acceptedMsg menv0_ok
    (x := el "message" [("name", "M"), ("id", "1")] [el "fields" [] [el "bundle" [("name", "a")] [el "variant" [("name", "v")] [
      el "int" [("name", "b"), ("type", "uint32")]]]]])
    (p := fun m => decide (msgCheck gv3 m = .ok none)) (by decide +kernel)
  exact ⟨m, h1, of_decide_eq_true h2⟩

open Sample in
/-- Refutation of the full claim: a pseudo field is not serialised, but its bytes are counted; the generated code does not compile. -/
theorem C110_pseudo_witness : ∃ m, AcceptedMsg m ∧ msgCheck gv3 m = .ok (some ⟨3, some 3⟩) ∧ (∀ n, msgBytes gv3 m n ↔ n = 1) := by
  obtain ⟨m, _, h1, h2⟩ := acceptedMsg menv0_ok
    (x := el "message" [("name", "M"), ("id", "1")] [el "fields" [] [el "int" [("name", "a"), ("type", "uint8")],
      el "int" [("name", "b"), ("type", "uint16"), ("pseudo", "true")]]])
    (p := fun m => isCheck (msgCheck gv3 m) 3 (some 3) && match m.fields with
      | [.int c1 st1, .int c2 st2] => !c1.pseudo && c2.pseudo && decide (st1.length = 1) && decide (st1.type = some .uint8) && !st1.availableLengthLimit &&
          decide (versionOpt gv3 (.message m.w.since) (.int c1 st1) = false) && decide (versionOpt gv3 (.message m.w.since) (.int c2 st2) = false)
      | _ => false) (by decide +kernel)
  simp only [Bool.and_eq_true] at h2
  obtain ⟨h2, h3⟩ := h2
  refine ⟨m, h1, of_decide_eq_true h2, ?_⟩
  split at h3
  · rename_i c1 st1 c2 st2 e
    simp only [Bool.and_eq_true, Bool.not_eq_true', decide_eq_true_eq] at h3
    obtain ⟨⟨⟨⟨⟨⟨h4, h5⟩, h6⟩, h7⟩, h8⟩, h9⟩, h10⟩ := h3
    intro n
    unfold msgBytes
    rw [e]
    simp [genAll, genBody, h4, h5, h6, h7, h8, h9, h10, limitedLen, numLen]
  · cases h3

open Sample in
/-- The other one: in a list of two bundles the generator counts a member that is there since version 2 only, the class (with the member in a wrapper) need not
    have it. -/
theorem C110_list_witness : ∃ m, AcceptedMsg m ∧ msgCheck gv3 m = .ok (some ⟨4, some 4⟩) ∧ msgBytes gv3 m 2 := by
  obtain ⟨m, _, h1, h2⟩ := acceptedMsg menv0_ok
    (x := el "message" [("name", "M"), ("id", "1")] [el "fields" [] [el "list" [("name", "l"), ("count", "2")] [el "element" [] [el "bundle" [("name", "e")] [
      el "int" [("name", "a"), ("type", "uint8")], el "int" [("name", "b"), ("type", "uint8"), ("sinceVersion", "2")]]]]]])
    (p := fun m => isCheck (msgCheck gv3 m) 4 (some 4) && match m.fields with
      | [.list c st (.own (.bundle bc [.int c1 st1, .int c2 st2] ba bd)) .none .none .none .none] =>
          !c.pseudo && decide (st.count = 2) && !bc.pseudo && !c1.pseudo && decide (st1.length = 1) && decide (st1.type = some .uint8) &&
          !st1.availableLengthLimit && !st.elemFixedLength &&
          decide (versionOpt gv3 (.field bc.w.since (.field c.w.since (.message m.w.since))) (.int c2 st2) = true)
      | _ => false) (by decide +kernel)
  simp only [Bool.and_eq_true] at h2
  obtain ⟨h2, h3⟩ := h2
  refine ⟨m, h1, of_decide_eq_true h2, ?_⟩
  split at h3
  · rename_i c st bc c1 st1 c2 st2 ba bd e
    simp only [Bool.and_eq_true, Bool.not_eq_true', decide_eq_true_eq] at h3
    obtain ⟨⟨⟨⟨⟨⟨⟨⟨h4, h5⟩, h6⟩, h7⟩, h8⟩, h9⟩, h10⟩, h11⟩, h12⟩ := h3
    unfold msgBytes
    rw [e]
    have one : genSlot gv3 (.field c.w.since (.message m.w.since)) (.own (.bundle bc [.int c1 st1, .int c2 st2] ba bd)) 1 := by
      refine Or.inr ?_
      simp only [genBody, h6]
      refine ⟨1, 0, Or.inr ?_, ⟨0, 0, Or.inl ⟨h12, rfl⟩, rfl, rfl⟩, rfl⟩
      simp [genBody, h7, limitedLen, h10, numLen, h9, h8]
    refine ⟨2, 0, Or.inr ?_, rfl, rfl⟩
    simp only [genBody, h4, h5, listBody, h11]
    exact ⟨1, 0, 1, one, rfl, ⟨1, 0, 0, one, rfl, rfl, rfl⟩, rfl⟩
  · cases h3

open Sample in
/-- The same for a length prefix that takes as many bytes as are available: its full length is counted. -/
theorem C110_limit_witness : ∃ m, AcceptedMsg m ∧ msgCheck gv3 m = .ok (some ⟨4, none⟩) ∧ msgBytes gv3 m 1 := by
  obtain ⟨m, _, h1, h2⟩ := acceptedMsg menv0_ok
    (x := el "message" [("name", "M"), ("id", "1")] [el "fields" [] [el "string" [("name", "s")] [el "lengthPrefix" [] [
      el "int" [("name", "l"), ("type", "uint32"), ("availableLengthLimit", "true")]]]]])
    (p := fun m => isCheck (msgCheck gv3 m) 4 none && match m.fields with
      | [.string c st (.own (.int c1 st1))] => !c.pseudo && decide (st.length = 0) && !st.zeroSuffix && !c1.pseudo && decide (st1.length = 4) &&
          st1.availableLengthLimit && decide (st1.type = some .uint32) && decide (0 ≤ st1.max)
      | _ => false) (by decide +kernel)
  simp only [Bool.and_eq_true] at h2
  obtain ⟨h2, h3⟩ := h2
  refine ⟨m, h1, of_decide_eq_true h2, ?_⟩
  split at h3
  · rename_i c st c1 st1 e
    simp only [Bool.and_eq_true, Bool.not_eq_true', decide_eq_true_eq] at h3
    obtain ⟨⟨⟨⟨⟨⟨⟨h4, h5⟩, h6⟩, h7⟩, h8⟩, h9⟩, h10⟩, h11⟩ := h3
    unfold msgBytes
    rw [e]
    refine ⟨1, 0, Or.inr ?_, rfl, rfl⟩
    simp only [genBody, h4, h5, h6]
    refine ⟨1, 0, Or.inr ?_, ⟨.uint32, h10, ?_⟩, rfl⟩
    · simp [genBody, h7, limitedLen, h9, h8]
    · simpa [Spec.interp] using h11
  · cases h3

end Commsdsl.Props
