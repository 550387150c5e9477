import Verif.Lemmas.Message
import Verif.Lemmas.SampleMsg
import Verif.Props.FieldSer
import Verif.Props.FieldVersions
/-!
# Fields of messages and interfaces: C24, C25, C27, C29, C46, C48
-/
namespace Commsdsl.Props
open Commsdsl Fld Msg Spec Text

/-! ## C48 -/

/-- C48 for messages: the fields have different names, however they were defined, copied, reused or replaced. -/
theorem C48_message_fields_unique (m : Message) (h : AcceptedMsg m) : (m.fields.map Field.name).Nodup := by
  induction h with
  | @parse env node m he hm hp ih =>
    obtain ⟨props, m0, m1, src, fs, al, r⟩ := parseMessage_run hp
    have h0 : (m0.fields.map Field.name).Nodup := by
      rcases msgReuse_ok r.reuse with ⟨rfl, _⟩ | ⟨s, x, y, _, _, hx, _, rfl⟩
      · simp
      · simp only [cloneAll_names]; exact ih s x hx
    have h1 : ((msgCopied m.w.since src m0.fields).map Field.name).Nodup := by
      have hs := source_names r.from_ he (by
        intro s x hx
        obtain ⟨y, hy, rfl⟩ := Option.map_eq_some_iff.1 hx
        exact ih s y hy)
      cases src with
      | none => exact h0
      | some x =>
        refine (List.Nodup.sublist (keepMembers_names _ _)) ?_
        rw [cloneAll_names]; exact hs x rfl
    have h2 : (fs.map Field.name).Nodup := by
      rcases msgReplace_ok r.repl with rfl | ⟨_, n, g, _, _, hg, hr⟩
      · exact h1
      · rw [(replaceFirst_names hr).1]; exact h1
    rcases msgFields_ok r.flds with ⟨e, _⟩ | ⟨ns, new, _, _, _, _, hv, _⟩
    · rw [e]; exact h2
    · exact (validateNames_spec hv).1

/-- C48 for interfaces. -/
theorem C48_interface_fields_unique (m : Interface) (h : AcceptedIface m) : (m.fields.map Field.name).Nodup := by
  induction h with
  | @parse env node m he hm hp ih =>
    obtain ⟨props, m0, src, al, r⟩ := parseInterface_run hp
    have h0 : (m0.fields.map Field.name).Nodup := by
      rcases ifaceReuse_ok r.reuse with ⟨rfl, _⟩ | ⟨s, x, y, _, _, hx, _, rfl⟩
      · simp
      · simp only [cloneAll_names]; exact ih s x hx
    have h1 : ((ifaceCopied src m0.fields).map Field.name).Nodup := by
      have hs := source_names r.from_ he (by
        intro s x hx
        obtain ⟨y, hy, rfl⟩ := Option.map_eq_some_iff.1 hx
        exact ih s y hy)
      cases src with
      | none => exact h0
      | some x => simp only [ifaceCopied, cloneAll_names]; exact hs x rfl
    rcases ifaceFields_ok r.flds with ⟨e, _⟩ | ⟨ns, new, _, _, _, _, hv⟩
    · rw [e]; exact h1
    · exact (validateNames_spec hv).1

open Sample in
/-- A message with two fields, another one copies them and adds one; an interface with two fields. -/
example : (∃ m, AcceptedMsg m ∧ m.fields.map Field.name = ["a".toList, "b".toList, "c".toList]) ∧
    ∃ i, AcceptedIface i ∧ i.fields.map Field.name = ["a".toList, "b".toList] := by
  constructor
  · obtain ⟨m, _, h1, h2⟩ := acceptedMsg (withMsg_ok menv0_ok "M" (el "message" [("name", "M"), ("id", "1")]
        [el "int" [("name", "a"), ("type", "uint8")], el "string" [("name", "b")]]))
      (x := el "message" [("name", "N"), ("id", "2"), ("copyFieldsFrom", "M")] [el "int" [("name", "c"), ("type", "uint8")]])
      (p := fun m => decide (m.fields.map Field.name = ["a".toList, "b".toList, "c".toList])) (by decide +kernel)
    exact ⟨m, h1, by simpa using h2⟩
  · obtain ⟨m, _, h1, h2⟩ := acceptedIface menv0_ok (x := el "interface" [("name", "I")]
        [el "int" [("name", "a"), ("type", "uint8")], el "string" [("name", "b")]])
      (p := fun m => decide (m.fields.map Field.name = ["a".toList, "b".toList])) (by decide +kernel)
    exact ⟨m, h1, by simpa using h2⟩

/-! ## C24 -/

namespace MsgProofs

local notation "W" => (18446744073709551616 : Nat)

/-- A total version of a partial result. -/
def valOf (r : Res Nat) : Nat := match r with
  | .ok n => n
  | _ => 0

theorem minSum_eq {s : Nat} {fs : List Field} {len : Field → Nat} (h : ∀ f ∈ fs, minLength f = .ok (len f)) :
    Msg.minSum s fs = .ok (((fs.filter fun f => decide (f.since ≤ s)).map len).sum % W) := by
  induction fs with
  | nil => rfl
  | cons f fs ih =>
    have ih := ih fun g hg => h g (by simp [hg])
    simp only [Msg.minSum, ih, Res.bind_ok]
    by_cases hs : s < f.since
    · rw [if_pos hs, List.filter_cons_of_neg (by simp; omega)]
      rfl
    · rw [if_neg hs, List.filter_cons_of_pos (by simp; omega), h f (by simp)]
      simp only [Res.bind_ok, Res.pure_eq, List.map_cons, List.sum_cons]
      congr 1
      omega

theorem maxTotal_eq {fs : List Field} {len : Field → Nat} (h : ∀ f ∈ fs, maxLength f = .ok (len f)) (hb : ∀ f ∈ fs, len f < W) (s : Nat)
    (hs : s < W) : maxTotal fs s = .ok (min (s + (fs.map len).sum) (W - 1)) := by
  induction fs generalizing s with
  | nil => simp only [maxTotal, List.map_nil, List.sum_nil]; congr 1; omega
  | cons f fs ih =>
    have h1 := hb f (by simp)
    simp only [maxTotal, h f (by simp), Res.bind_ok]
    rw [LengthProofs.add_eq h1 hs, ih (fun g hg => h g (by simp [hg])) (fun g hg => hb g (by simp [hg])) _ (by omega)]
    simp only [List.map_cons, List.sum_cons]
    congr 1
    omega

end MsgProofs
open MsgProofs

/-- C24, minimal length: it is always defined, and it is the sum (of 64-bit numbers) of the minimal lengths of the fields that are not newer
    than the message. -/
theorem C24_min_sum (m : Message) (h : AcceptedMsg m) : ∃ len : Field → Nat, (∀ f ∈ m.fields, minLength f = .ok (len f)) ∧
    m.minLength = .ok (((m.fields.filter fun f => decide (f.since ≤ m.w.since)).map len).sum % 2 ^ 64) := by
  refine ⟨fun f => valOf (minLength f), ?_, ?_⟩
  · intro f hf
    obtain ⟨a, ha, _⟩ := C21_min_defined f (msg_fields_obj h f hf)
    simp [ha, valOf]
  · refine minSum_eq fun f hf => ?_
    obtain ⟨a, ha, _⟩ := C21_min_defined f (msg_fields_obj h f hf)
    simp [ha, valOf]

/-- C24, maximal length: the saturating sum over all fields. -/
theorem C24_max_sum (m : Message) (h : AcceptedMsg m) (len : Field → Nat) (hl : ∀ f ∈ m.fields, maxLength f = .ok (len f)) :
    m.maxLength = .ok (min (m.fields.map len).sum (2 ^ 64 - 1)) := by
  have := maxTotal_eq hl (fun f hf => (LengthProofs.good f (obj_leaf (msg_fields_obj h f hf))).2.1 _ (hl f hf)) 0 (by decide)
  rw [Nat.zero_add] at this
  exact this

namespace MsgProofs

theorem fieldOf_window {env : FEnv} {s d : Nat} {n : Xml} {f : Field} (h : fieldOf env (.message s d) n = .ok f) :
    s ≤ f.since ∧ f.since < f.depr ∧ f.depr ≤ d := (C26_field_in_parent env _ n f s d).1 h

/-- Fields of messages without reuse: not older than the message, not removed when it is introduced. -/
theorem fields_alive {env : MEnv} {node : Xml} {m : Message} (h : parseMessage env node = .ok m) {props : Props}
    (hp : msgProps node = some props) (hr : props.find "reuse".toList = none) :
    ∀ f ∈ m.fields, m.w.since ≤ f.since ∧ ¬ (f.removed = true ∧ f.depr ≤ m.w.since) := by
  obtain ⟨props', m0, m1, src, fs, al, r⟩ := parseMessage_run h
  have e := r.coll
  rw [hp] at e
  cases e
  have h0 : m0.fields = [] := by
    rcases msgReuse_ok r.reuse with ⟨rfl, _⟩ | ⟨s, x, y, hs, _⟩
    · rfl
    · rw [hr] at hs; cases hs
  have new : ∀ {n f}, fieldOf env.fld (.message m.w.since m.w.depr) n = .ok f →
      m.w.since ≤ f.since ∧ ¬ (f.removed = true ∧ f.depr ≤ m.w.since) := by
    intro n f hf
    have := fieldOf_window hf
    exact ⟨this.1, fun h => by have := h.2; omega⟩
  have h1 : ∀ f ∈ msgCopied m.w.since src m0.fields, m.w.since ≤ f.since ∧ ¬ (f.removed = true ∧ f.depr ≤ m.w.since) := by
    cases src with
    | none => simp only [msgCopied, h0]; simp
    | some x =>
      intro f hf
      obtain ⟨g, hg, rfl⟩ := List.mem_map.1 hf
      have hg := (List.mem_filter.1 hg).2
      have e1 : (liftSince m.w.since g).removed = g.removed := by simp [liftSince, Field.setSince, Field.removed, setCommon_common]
      have e2 : (liftSince m.w.since g).depr = g.depr := by simp [liftSince, Field.setSince, Field.depr, setCommon_common]
      refine ⟨?_, ?_⟩
      · simp only [liftSince, Field.setSince, Field.since, setCommon_common]; omega
      · rw [e1, e2]
        rintro ⟨a, b⟩
        simp [a, b] at hg
  have h2 : ∀ f ∈ fs, m.w.since ≤ f.since ∧ ¬ (f.removed = true ∧ f.depr ≤ m.w.since) := by
    rcases msgReplace_ok r.repl with rfl | ⟨_, n, g, _, _, hg, hr⟩
    · exact h1
    · intro f hf
      rcases replaceFirst_mem hr f hf with rfl | hf
      · exact new hg
      · exact h1 f hf
  rcases msgFields_ok r.flds with ⟨e, _⟩ | ⟨ns, nw, _, _, e, hn, _⟩
  · rw [e]; exact h2
  · rw [e]
    intro f hf
    rcases List.mem_append.1 hf with hf | hf
    · exact h2 f hf
    · obtain ⟨n, _, hn⟩ := hn f hf
      exact new hn

end MsgProofs

/-- C24, partial: in a message defined without `reuse` the fields that count for the minimal length are exactly those that exist in the version
    the message was introduced. With `reuse` it is false, see `C24_reuse_witness`. -/
theorem C24_min_counts_existing_partial (env : MEnv) (node : Xml) (m : Message) (h : parseMessage env node = .ok m) (props : Props)
    (hp : msgProps node = some props) (hr : props.find "reuse".toList = none) (ha : AcceptedMsg m) :
    ∃ len : Field → Nat, (∀ f ∈ m.fields, minLength f = .ok (len f)) ∧
      m.minLength = .ok (((m.fields.filter fun f => existsIn m.w.since f).map len).sum % 2 ^ 64) := by
  obtain ⟨len, h1, h2⟩ := C24_min_sum m ha
  refine ⟨len, h1, ?_⟩
  rw [h2]
  congr 4
  refine List.filter_congr fun f hf => ?_
  have := (fields_alive h hp hr f hf).2
  unfold existsIn
  by_cases hs : f.since ≤ m.w.since
  · by_cases hrm : f.removed = true
    · have : ¬ f.depr ≤ m.w.since := fun hd => this ⟨hrm, hd⟩
      simp [hs, this]
    · simp [hs, hrm]
  · simp [hs]

open Sample in
/-- A message introduced in version 1 with a field of version 1 (2 bytes), one of version 2 (4 bytes), and a string: 2 bytes at least, no
    maximum below the greatest number. -/
example : ∃ m, AcceptedMsg m ∧ m.w.since = 1 ∧ m.fields.map Field.since = [1, 2] ∧ m.minLength = .ok 2 ∧ m.maxLength = .ok 6 := by
  obtain ⟨m, _, h1, h2⟩ := acceptedMsg menv0_ok (x := el "message" [("name", "M"), ("id", "1"), ("sinceVersion", "1")]
      [el "int" [("name", "a"), ("type", "uint16")], el "int" [("name", "b"), ("type", "uint32"), ("sinceVersion", "2")]])
    (p := fun m => decide (m.w.since = 1) && decide (m.fields.map Field.since = [1, 2]) && isNum m.minLength 2 && isNum m.maxLength 6)
    (by decide +kernel)
  simp only [Bool.and_eq_true, decide_eq_true_eq] at h2
  exact ⟨m, h1, h2.1.1.1, h2.1.1.2, isNum_spec h2.1.2, isNum_spec h2.2⟩

open Sample in
/-- Refutation for reused messages: the message N of version 3 inherits a field removed in version 2, which counts: 2 bytes although only one
    of the fields, with 1 byte, exists in version 3. -/
theorem C24_reuse_witness : ∃ m a b, AcceptedMsg m ∧ m.w.since = 3 ∧ m.fields = [a, b] ∧ existsIn 3 a = true ∧ existsIn 3 b = false ∧
    minLength a = .ok 1 ∧ m.minLength = .ok 2 := by
  obtain ⟨m, _, h1, h2⟩ := acceptedMsg (withMsg_ok menv0_ok "M" (el "message" [("name", "M"), ("id", "1")]
      [el "int" [("name", "a"), ("type", "uint8")], el "int" [("name", "b"), ("type", "uint8"), ("deprecated", "2"), ("removed", "true")]]))
    (x := el "message" [("name", "N"), ("id", "2"), ("reuse", "M"), ("sinceVersion", "3")])
    (p := fun m => decide (m.w.since = 3) && isNum m.minLength 2 && (match m.fields with
      | [a, b] => existsIn 3 a && !existsIn 3 b && isNum (minLength a) 1
      | _ => false))
    (by decide +kernel)
  simp only [Bool.and_eq_true, decide_eq_true_eq] at h2
  obtain ⟨⟨e1, e2⟩, e3⟩ := h2
  split at e3
  · rename_i a b hf
    simp only [Bool.and_eq_true, Bool.not_eq_true'] at e3
    exact ⟨m, a, b, h1, e1, hf, e3.1.1, e3.1.2, isNum_spec e3.2, isNum_spec e2⟩
  · simp at e3

open Sample in
/-- Refutation of "sum": two lists of (2^32-1)^2 bytes each; the sum in 64 bits is less than one of them twice. -/
theorem C24_wrap_witness : ∃ m, AcceptedMsg m ∧ m.fields.map (fun f => valOf (minLength f)) = [4294967295 ^ 2, 4294967295 ^ 2] ∧
    m.minLength = .ok (2 * 4294967295 ^ 2 - 2 ^ 64) := by
  let lst := fun (n : String) (e : Xml) => el "list" [("name", n), ("count", "4294967295")] [el "element" [] [e]]
  let big := fun (n : String) => lst n (lst "e" (el "int" [("name", "i"), ("type", "uint8")]))
  obtain ⟨m, _, h1, h2⟩ := acceptedMsg menv0_ok (x := el "message" [("name", "M"), ("id", "1")] [big "a", big "b"])
    (p := fun m => decide (m.fields.map (fun f => valOf (minLength f)) = [4294967295 ^ 2, 4294967295 ^ 2]) &&
      isNum m.minLength (2 * 4294967295 ^ 2 - 2 ^ 64))
    (by decide +kernel)
  simp only [Bool.and_eq_true, decide_eq_true_eq] at h2
  exact ⟨m, h1, h2.1, isNum_spec h2.2⟩

/-- C24 and serialisation, lower bound: in any version not before the message was introduced, if the counted fields exist and are without
    pseudo or missing parts, no value of the message takes fewer bytes than the minimal length. -/
theorem C24_lower_partial (m : Message) (h : AcceptedMsg m) (v a n : Nat) (ha : m.minLength = .ok a)
    (hp : ∀ f ∈ m.fields, f.since ≤ m.w.since → existsIn v f = true ∧ Hered (SerProofs.Present v) f) (hn : serAll v m.fields n) : a ≤ n := by
  have hobj := msg_fields_obj h
  clear h
  unfold Message.minLength at ha
  generalize m.fields = fs at *
  generalize m.w.since = s at *
  induction fs generalizing a n with
  | nil => simp only [Msg.minSum] at ha; cases ha; exact Nat.zero_le _
  | cons f fs ih =>
    have ih := fun a n h1 h2 => ih a n h2 (fun g hg => hobj g (by simp [hg])) h1 (fun g hg => hp g (by simp [hg]))
    simp only [Msg.minSum, Res.bind_eq_ok] at ha
    obtain ⟨r, hr, ha⟩ := ha
    simp only [serAll] at hn
    split at ha
    · cases ha
      split at hn
      · obtain ⟨x, y, _, hy, rfl⟩ := hn
        have := ih _ _ hr hy
        omega
      · exact ih _ _ hr hn
    · rename_i hs
      obtain ⟨hx, hpr⟩ := hp f (by simp) (by omega)
      rw [if_pos hx] at hn
      obtain ⟨x, y, hx, hy, rfl⟩ := hn
      simp only [Res.bind_eq_ok, Res.pure_eq] at ha
      obtain ⟨b, hb, ha⟩ := ha
      cases ha
      have h1 := C23_lower_partial v f (hobj f (by simp)) hpr b x hb hx
      have h2 := ih _ _ hr hy
      have := Nat.mod_le (b + r) 18446744073709551616
      omega

/-- C24 and serialisation, upper bound: in no version does a value take more bytes than the maximal length, unless that is the greatest
    number. -/
theorem C24_upper_partial (m : Message) (h : AcceptedMsg m) (v b n : Nat) (hb : m.maxLength = .ok b) (hne : b ≠ 2 ^ 64 - 1)
    (hp : ∀ f ∈ m.fields, Hered SerProofs.BitsFit f) (hn : serAll v m.fields n) : n ≤ b := by
  have hobj := msg_fields_obj h
  clear h
  unfold Message.maxLength at hb
  generalize m.fields = fs at *
  have key : ∀ (fs : List Field) (s b n : Nat), s < 2 ^ 64 → (∀ f ∈ fs, Obj f) → (∀ f ∈ fs, Hered SerProofs.BitsFit f) →
      maxTotal fs s = .ok b → b ≠ 2 ^ 64 - 1 → serAll v fs n → s + n ≤ b ∧ b < 2 ^ 64 := by
    intro fs
    induction fs with
    | nil =>
      intro s b n hs _ _ h1 _ h2
      simp only [maxTotal] at h1; cases h1
      simp only [serAll] at h2
      exact ⟨by omega, hs⟩
    | cons f fs ih =>
      intro s b n hs ho hp h1 hne h2
      simp only [maxTotal, Res.bind_eq_ok] at h1
      obtain ⟨x, hx, h1⟩ := h1
      have hxW := (LengthProofs.good f (obj_leaf (ho f (by simp)))).2.1 x hx
      rw [LengthProofs.add_eq hxW hs] at h1
      have ih := fun n h => ih _ b n (by omega) (fun g hg => ho g (by simp [hg])) (fun g hg => hp g (by simp [hg])) h1 hne h
      simp only [serAll] at h2
      split at h2
      · obtain ⟨p, q, hp1, hq, rfl⟩ := h2
        have i1 := ih q hq
        by_cases hxe : x = 2 ^ 64 - 1
        · omega
        · have := C23_upper_partial v f (ho f (by simp)) (hp f (by simp)) x p hx hxe hp1
          omega
      · have := ih n h2
        omega
  have := key fs 0 b n (by decide) hobj hp hb hne hn
  omega

/-! ## C25 -/

/-- C25 for messages, partial: if a message with fields of its own requests a minimal length (below 2^31) and is accepted, that is its minimal
    length. Missing: messages that only copy or reuse fields, for which the request is ignored, see `C25_message_witness`. -/
theorem C25_message_partial (env : MEnv) (node : Xml) (m : Message) (h : parseMessage env node = .ok m) (props : Props)
    (hp : msgProps node = some props) (s : Str) (n : Nat) (hs : props.find "validateMinLength".toList = some s) (hd : DenotesU s n)
    (hn : n < 2 ^ 31) (hdsl : Dsl.propertySupported env.dsl "validateMinLength".toList = true) (hf : fieldNodes node ≠ .ok none) :
    m.minLength = .ok n := by
  obtain ⟨props', m0, m1, src, fs, al, r⟩ := parseMessage_run h
  have e := r.coll
  rw [hp] at e
  cases e
  have hu := C01_unsigned_exact_partial s n hd (by omega)
  have hml := (msgHead_ok r.head).2.2.2.2.2.2.2
  have hml' : m1.validateMinLength = n := by
    unfold msgMinLen at hml
    split at hml
    · simp at hml
    · rw [hs] at hml
      simp only [hdsl, hu] at hml
      simp only [Bool.not_true, Bool.false_eq_true, if_false] at hml
      simp only [Res.ok.injEq] at hml
      rw [← hml]
      unfold castI32; omega
  rcases msgFields_ok r.flds with ⟨_, e⟩ | ⟨ns, new, _, _, _, _, _, hc⟩
  · exact absurd e hf
  · unfold checkMinLen at hc
    rw [hml', if_neg (by omega)] at hc
    simp only [Res.bind_eq_ok] at hc
    obtain ⟨len, h1, h2⟩ := hc
    have := Res.check_ok h2
    simp only [decide_eq_true_eq] at this
    rw [r.w] at h1
    unfold Message.minLength
    rw [h1, ← this]
    congr 1
    unfold castU32; omega

open Sample in
/-- A request that is honoured. -/
example : ∃ m, AcceptedMsg m ∧ m.validateMinLength = 3 ∧ m.minLength = .ok 3 := by
  obtain ⟨m, _, h1, h2⟩ := acceptedMsg menv0_ok (x := el "message" [("name", "M"), ("id", "1"), ("validateMinLength", "3")]
      [el "int" [("name", "a"), ("type", "uint8")], el "int" [("name", "b"), ("type", "uint16")]])
    (p := fun m => decide (m.validateMinLength = 3) && isNum m.minLength 3) (by decide +kernel)
  simp only [Bool.and_eq_true, decide_eq_true_eq] at h2
  exact ⟨m, h1, h2.1, isNum_spec h2.2⟩

open Sample in
/-- Refutation of the full claim: a message that copies a field of 1 byte requests 7 bytes and is accepted. -/
theorem C25_message_witness : ∃ m, AcceptedMsg m ∧ m.validateMinLength = 7 ∧ m.minLength = .ok 1 := by
  obtain ⟨m, _, h1, h2⟩ := acceptedMsg (withMsg_ok menv0_ok "M" (el "message" [("name", "M"), ("id", "1")]
      [el "int" [("name", "a"), ("type", "uint8")]]))
    (x := el "message" [("name", "N"), ("id", "2"), ("copyFieldsFrom", "M"), ("validateMinLength", "7")])
    (p := fun m => decide (m.validateMinLength = 7) && isNum m.minLength 1) (by decide +kernel)
  simp only [Bool.and_eq_true, decide_eq_true_eq] at h2
  exact ⟨m, h1, h2.1, isNum_spec h2.2⟩

/-! ## C27, C29 -/

namespace MsgProofs

theorem keepMembers_clone (s : Nat) (ms : List Field) : keepMembers s (cloneAll ms) =
    (ms.filter fun m => decide (¬ (m.removed = true ∧ m.depr ≤ s))).map fun m => (clone m).setSince (max s m.since) := by
  rw [cloneAll_eq]
  unfold keepMembers
  rw [List.filter_map, List.map_map]
  congr 1
  · funext m
    simp [liftSince, Field.since, clone_common]
  · congr 1
    funext m
    have e1 : (clone m).removed = m.removed := by simp [Field.removed, clone_common]
    have e2 : (clone m).depr = m.depr := by simp [Field.depr, clone_common]
    simp only [Function.comp_apply, e1, e2]
    cases m.removed with
    | false => simp
    | true => by_cases h2 : m.depr ≤ s <;> simp [h2]

end MsgProofs

/-- What `copyFieldsFrom` designates: the fields of a message or, if there is no message of that name, the members of a bundle. -/
def Copies (env : MEnv) (s : Str) (orig : List Field) : Prop :=
  (∃ x, env.findMessage s = some x ∧ orig = x.fields) ∨
    (env.findMessage s = none ∧ ∃ c al cd, env.fld.findField s = some (.bundle c orig al cd))

/-- C29 for messages: a message that copies fields (and replaces none) begins with copies, in the same order, of exactly those fields that are
    not removed at or before the version it is introduced, with `sinceVersion` raised to it; then come the newly defined ones. -/
theorem C29_message_copy (env : MEnv) (node : Xml) (m : Message) (h : parseMessage env node = .ok m) (props : Props)
    (hp : msgProps node = some props) (s : Str) (hs : props.find "copyFieldsFrom".toList = some s) (orig : List Field) (ho : Copies env s orig)
    (hr : getChildren node ["replace".toList] = []) :
    ∃ new, m.fields = (orig.filter fun f => decide (¬ (f.removed = true ∧ f.depr ≤ m.w.since))).map
        (fun f => (clone f).setSince (max m.w.since f.since)) ++ new ∧
      ∀ f ∈ new, ∃ n fuel, parseField env.fld fuel (.message m.w.since m.w.depr) n = .ok f := by
  obtain ⟨props', m0, m1, src, fs, al, r⟩ := parseMessage_run h
  have e := r.coll
  rw [hp] at e
  cases e
  have hsrc : ∃ x, src = some x ∧ x.1 = orig := by
    rcases copySource_ok r.from_ with ⟨_, e⟩ | ⟨s', x, e, _, h1, h2⟩
    · rw [hs] at e; cases e
    · rw [hs] at e; cases e
      refine ⟨x, h1, ?_⟩
      rcases ho with ⟨y, hy, rfl⟩ | ⟨hn, c, al, cd, hb⟩
      · rcases h2 with h2 | ⟨h2, _⟩
        · rw [hy] at h2; cases h2; rfl
        · rw [hy] at h2; cases h2
      · rcases h2 with h2 | ⟨_, c', cd', h2⟩
        · rw [hn] at h2; cases h2
        · rw [hb] at h2
          exact (Field.bundle.inj (Option.some.inj h2)).2.1.symm
  obtain ⟨x, rfl, rfl⟩ := hsrc
  have hfs : fs = keepMembers m.w.since (cloneAll x.1) := by
    rcases msgReplace_ok r.repl with e | ⟨_, _, _, e, _⟩
    · exact e
    · rw [hr] at e; cases e
  rw [← keepMembers_clone, ← hfs]
  rcases msgFields_ok r.flds with ⟨e, _⟩ | ⟨ns, new, _, _, e, hn, _⟩
  · exact ⟨[], by simpa using e, by simp⟩
  · refine ⟨new, e, ?_⟩
    intro f hf
    obtain ⟨n, _, h⟩ := hn f hf
    exact ⟨n, _, h⟩

/-- C27 for messages without `reuse`: no field is older than the message. -/
theorem C27_message_since_partial (env : MEnv) (node : Xml) (m : Message) (h : parseMessage env node = .ok m) (props : Props)
    (hp : msgProps node = some props) (hr : props.find "reuse".toList = none) : ∀ f ∈ m.fields, m.w.since ≤ f.since :=
  fun f hf => (fields_alive h hp hr f hf).1

open Sample in
/-- Fields copied from a bundle, which has one removed and one older member, into a message of version 3. -/
example : ∃ m, AcceptedMsg m ∧ m.w.since = 3 ∧ m.fields.map (fun f => (f.name, f.since)) = [("a".toList, 3), ("c".toList, 3)] := by
  obtain ⟨m, _, h1, h2⟩ := acceptedMsg (withFld_ok menv0_ok "g" (el "bundle" [("name", "g")] [el "int" [("name", "a"), ("type", "uint8")],
      el "int" [("name", "b"), ("type", "uint8"), ("deprecated", "2"), ("removed", "true")]]))
    (x := el "message" [("name", "N"), ("id", "2"), ("copyFieldsFrom", "g"), ("sinceVersion", "3")]
      [el "int" [("name", "c"), ("type", "uint8")]])
    (p := fun m => decide (m.w.since = 3) && decide (m.fields.map (fun f => (f.name, f.since)) = [("a".toList, 3), ("c".toList, 3)]))
    (by decide +kernel)
  simp only [Bool.and_eq_true, decide_eq_true_eq] at h2
  exact ⟨m, h1, h2.1, h2.2⟩

open Sample in
/-- Refutation of C27 and C29 for `reuse` of messages: a message of version 3 that reuses another one has its field of version 0, unchanged, and
    its field removed in version 2. -/
theorem C29_message_reuse_witness : ∃ m a b, AcceptedMsg m ∧ m.w.since = 3 ∧ m.fields = [a, b] ∧ a.since = 0 ∧ b.removed = true ∧ b.depr = 2 := by
  obtain ⟨m, _, h1, h2⟩ := acceptedMsg (withMsg_ok menv0_ok "M" (el "message" [("name", "M"), ("id", "1")]
      [el "int" [("name", "a"), ("type", "uint8")], el "int" [("name", "b"), ("type", "uint8"), ("deprecated", "2"), ("removed", "true")]]))
    (x := el "message" [("name", "N"), ("id", "2"), ("reuse", "M"), ("sinceVersion", "3")])
    (p := fun m => decide (m.w.since = 3) && (match m.fields with
      | [a, b] => decide (a.since = 0) && b.removed && decide (b.depr = 2)
      | _ => false))
    (by decide +kernel)
  simp only [Bool.and_eq_true, decide_eq_true_eq] at h2
  obtain ⟨e1, e3⟩ := h2
  split at e3
  · rename_i a b hf
    simp only [Bool.and_eq_true, decide_eq_true_eq] at e3
    exact ⟨m, a, b, h1, e1, hf, e3.1.1, e3.1.2, e3.2⟩
  · simp at e3

/-! ## C46 -/

/-- C46 for messages: with a `<replace>` the inherited or copied fields keep number, order and names; exactly the field of the given name is
    exchanged; it must exist, and there must be exactly one in `<replace>`. -/
theorem C46_message_replace (env : MEnv) (node : Xml) (m : Message) (h : parseMessage env node = .ok m) (ha : AcceptedMsg m) (r : Xml)
    (hr : getChildren node ["replace".toList] = [r]) (hd : Dsl.isSupported env.dsl .memberReplace = true) :
    ∃ (orig kept new : List Field) (n : Xml) (g : Field), getChildren r fieldTypes = [n] ∧
      fieldOf env.fld (.message m.w.since m.w.depr) n = .ok g ∧ m.fields = kept ++ new ∧ kept.map Field.name = orig.map Field.name ∧
      g.name ∈ orig.map Field.name ∧
      (∀ (i : Nat) (f : Field), orig[i]? = some f → kept[i]? = some (if f.name = g.name then g else f)) ∧
      ∃ props m0 src, msgProps node = some props ∧ msgReuse env props = .ok m0 ∧
        copySource env.fld (fun s => (env.findMessage s).map fun x => (x.fields, x.aliases)) props m0.fields = .ok src ∧
        orig = msgCopied m.w.since src m0.fields := by
  obtain ⟨props, m0, m1, src, fs, al, run⟩ := parseMessage_run h
  have hrep := run.repl
  unfold msgReplace at hrep
  rw [hr] at hrep
  simp only [hd, Bool.not_true, Bool.false_eq_true, if_false] at hrep
  split at hrep
  · rename_i n hn
    simp only [Res.bind_eq_ok, Res.ofOption_eq_ok] at hrep
    obtain ⟨g, h1, _, _, _, _, h4⟩ := hrep
    obtain ⟨hnm, hin⟩ := replaceFirst_names h4
    have hnd : ((msgCopied m.w.since src m0.fields).map Field.name).Nodup := by
      rw [← hnm]
      have := C48_message_fields_unique m ha
      rcases msgFields_ok run.flds with ⟨e, _⟩ | ⟨ns, new, _, _, e, _⟩
      · rw [← e]; exact this
      · rw [e, List.map_append] at this; exact (List.nodup_append.1 this).1
    obtain ⟨new, hnew⟩ : ∃ new, m.fields = fs ++ new := by
      rcases msgFields_ok run.flds with ⟨e, _⟩ | ⟨ns, new, _, _, e, _⟩
      · exact ⟨[], by simp [e]⟩
      · exact ⟨new, e⟩
    refine ⟨_, fs, new, n, g, hn, h1, hnew, hnm, hin, ?_, props, m0, src, run.coll, run.reuse, run.from_, rfl⟩
    intro i f hf
    rw [MemberProofs.replaceFirst_get h4 hnd i, hf]
    simp only [Option.map_some, Option.some.injEq]
    by_cases e : f.name = g.name
    · simp [e]
    · rw [if_neg (fun h => e h.symm), if_neg e]
  · simp at hrep

open Sample in
/-- One field is replaced; two fields cannot be replaced. -/
theorem C46_message_two_witness :
    (∃ m, parseMessage (withMsg menv0 "M" (el "message" [("name", "M"), ("id", "1")]
        [el "int" [("name", "a"), ("type", "uint8")], el "int" [("name", "b"), ("type", "uint8")]]))
      (el "message" [("name", "N"), ("id", "2"), ("reuse", "M")] [el "replace" [] [el "string" [("name", "b")]]]) = .ok m ∧
      m.fields.map (fun f => (f.name, f.kind)) = [("a".toList, .int), ("b".toList, .string)]) ∧
    parseMessage (withMsg menv0 "M" (el "message" [("name", "M"), ("id", "1")]
        [el "int" [("name", "a"), ("type", "uint8")], el "int" [("name", "b"), ("type", "uint8")]]))
      (el "message" [("name", "N"), ("id", "2"), ("reuse", "M")] [el "replace" [] [el "string" [("name", "a")], el "string" [("name", "b")]]]) = .err := by
  constructor
  · obtain ⟨m, h1, h2⟩ := okIs_spec (r := parseMessage (withMsg menv0 "M" (el "message" [("name", "M"), ("id", "1")]
        [el "int" [("name", "a"), ("type", "uint8")], el "int" [("name", "b"), ("type", "uint8")]]))
      (el "message" [("name", "N"), ("id", "2"), ("reuse", "M")] [el "replace" [] [el "string" [("name", "b")]]]))
      (p := fun m => decide (m.fields.map (fun f => (f.name, f.kind)) = [("a".toList, .int), ("b".toList, .string)])) (by decide +kernel)
    exact ⟨m, h1, by simpa using h2⟩
  · have key : ∀ {r : Res Message}, (match r with | .err => true | _ => false) = true → r = .err := by
      intro r h
      split at h
      · rfl
      · simp at h
    exact key (by decide +kernel)

end Commsdsl.Props
