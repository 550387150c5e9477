import Verif.Spec.GenRead
import Verif.Props.CondRef
import Verif.Lemmas.Message
import Verif.Props.GenCond
/-!
# The generated read functions of bundles and messages (C101)
-/
namespace Commsdsl.Props
open Commsdsl Text Fld Gen Spec Msg

/-! ## Names of fields -/

/-- C02, fields: every field has a name that is an identifier. -/
theorem C02_field_names (f : Field) (h : Obj f) : Identifier f.name := by
  refine (C02_name_iff _).1 (obj_hered (P := fun f => isValidName f.name = true) ?_ ?_ ?_ f h).self
  · intro f hf
    have := hf.self
    simpa [Field.name, clone_common] using this
  · intro s f hf; rw [liftSince_name]; exact hf
  · intro env pc parent node f hf _ _ _
    obtain ⟨k, props, f1, f2, c, _, _, _, _, _, _, hv⟩ := parseStep_ok hf
    simp only [verifyField, Res.bind_eq_ok] at hv
    obtain ⟨_, _, _, _, _, h3, _⟩ := hv
    have := Res.check_ok h3
    simp only [Bool.and_eq_true] at this
    exact this.2

/-! ## The order -/

namespace ReadProofs
variable {σ ε : Type} (r : Reader σ ε)

theorem range_add (i m n : Nat) (s : σ) : r.range i (m + n) s = (match r.range i m s with | .ok s' => r.range (i + m) n s' | .error e => .error e) := by
  induction m generalizing i s with
  | zero => simp [Reader.range]
  | succ m ih =>
    rw [Nat.succ_add]
    simp only [Reader.range]
    cases r.read i s with
    | error e => rfl
    | ok s' =>
      simp only
      rw [ih]
      simp [Nat.add_assoc, Nat.add_comm 1 m]

theorem inOrder_plain (i : Nat) (bs : List Bool) (h : ∀ b ∈ bs, b = false) (s : σ) : r.inOrder i bs s = r.range i bs.length s := by
  induction bs generalizing i s with
  | nil => rfl
  | cons b bs ih =>
    rw [h b (by simp)]
    simp only [Reader.inOrder, List.length_cons, Reader.range, Bool.false_eq_true, if_false]
    cases r.read i s with
    | error e => rfl
    | ok s' => exact ih _ (fun b hb => h b (by simp [hb])) _

/-- The last statement. -/
def last (p : Option Nat) : ReadOp := match p with | none => .readAll | some p => .readFrom p

theorem loop (n : Nat) (bs : List Bool) (idx : Nat) (prev : Option Nat) (hn : idx + bs.length = n) (hp : prev.getD 0 ≤ idx) (s : σ) :
    r.ops n ((readLoop idx prev bs).1 ++ [last (readLoop idx prev bs).2]) s =
      (match r.range (prev.getD 0) (idx - prev.getD 0) s with | .ok s' => r.inOrder idx bs s' | .error e => .error e) := by
  induction bs generalizing idx prev s with
  | nil =>
    simp only [List.length_nil, Nat.add_zero] at hn
    subst hn
    simp only [readLoop, List.nil_append, Reader.inOrder]
    cases prev with
    | none => simp only [last, Reader.ops, Reader.op, Option.getD_none, Nat.sub_zero]; cases r.range 0 idx s <;> rfl
    | some p => simp only [last, Reader.ops, Reader.op, Option.getD_some]; cases r.range p (idx - p) s <;> rfl
  | cons b bs ih =>
    simp only [List.length_cons] at hn
    cases b with
    | false =>
      simp only [readLoop, Bool.not_false, if_true]
      rw [ih (idx + 1) prev (by omega) (by omega) s]
      rw [show idx + 1 - prev.getD 0 = (idx - prev.getD 0) + 1 by omega, range_add]
      cases r.range (prev.getD 0) (idx - prev.getD 0) s with
      | error e => rfl
      | ok s' =>
        simp only [Reader.inOrder, Reader.range, Bool.false_eq_true, if_false]
        rw [show prev.getD 0 + (idx - prev.getD 0) = idx by omega]
        cases r.read idx s' <;> rfl
    | true =>
      by_cases h0 : idx = 0
      · subst h0
        simp only [readLoop, Bool.not_true, Bool.false_eq_true, if_false, if_true, List.cons_append, Reader.ops, Reader.op]
        rw [ih 1 prev (by omega) (by omega)]
        have : prev.getD 0 = 0 := by omega
        rw [this]
        simp only [Reader.range, Reader.inOrder, if_true, Nat.sub_zero, Nat.sub_self]
        cases r.read 0 (r.prep 0 s) <;> rfl
      · have key : ∀ s' : σ, r.ops n ((readLoop (idx + 1) (some idx) bs).1 ++ [last (readLoop (idx + 1) (some idx) bs).2]) (r.prep idx s') =
            r.inOrder idx (true :: bs) s' := by
          intro s'
          rw [ih (idx + 1) (some idx) (by omega) (by simp)]
          simp only [Option.getD_some, Nat.add_sub_cancel_left, Reader.range, Reader.inOrder, if_true]
          cases r.read idx (r.prep idx s') <;> rfl
        cases prev with
        | none =>
          simp only [readLoop, Bool.not_true, Bool.false_eq_true, if_false, h0, List.cons_append, Reader.ops, Reader.op, Option.getD_none, Nat.sub_zero]
          cases r.range 0 idx s with
          | error e => rfl
          | ok s' => exact key s'
        | some p =>
          simp only [readLoop, Bool.not_true, Bool.false_eq_true, if_false, h0, List.cons_append, Reader.ops, Reader.op, Option.getD_some]
          cases r.range p (idx - p) s with
          | error e => rfl
          | ok s' => exact key s'

theorem loop_nil (bs : List Bool) (idx : Nat) (prev : Option Nat) (h : (readLoop idx prev bs).1 = []) : ∀ b ∈ bs, b = false := by
  induction bs generalizing idx prev with
  | nil => simp
  | cons b bs ih =>
    cases b with
    | false =>
      simp only [readLoop, Bool.not_false, if_true] at h
      intro b hb
      rcases List.mem_cons.1 hb with rfl | hb
      · rfl
      · exact ih _ _ h b hb
    | true =>
      simp only [readLoop, Bool.not_true, Bool.false_eq_true, if_false] at h
      split at h
      · simp at h
      · cases prev <;> simp at h

theorem generated (flags : List Bool) (s : σ) : r.generated flags (readOps flags) s = r.inOrder 0 flags s := by
  unfold readOps
  simp only
  split
  · rename_i h
    rw [inOrder_plain r 0 flags (loop_nil flags 0 none (List.isEmpty_iff.1 h))]
    rfl
  · have := loop r flags.length flags 0 none (by omega) (by simp) s
    simp only [Option.getD_none, Nat.sub_self, Reader.range] at this
    rw [← this]
    rfl

theorem none_plain (flags : List Bool) (h : readOps flags = none) : ∀ b ∈ flags, b = false := by
  unfold readOps at h
  simp only at h
  split at h
  · rename_i h'; exact loop_nil flags 0 none (List.isEmpty_iff.1 h')
  · simp at h

theorem run_eq (g : GVer) (foi : Bool) (cond : List Tok) (fs : List Field) (holds : List Tok → σ → Bool) (update : σ → σ)
    (valid : σ → Bool) (stopped : σ) (invalid : ε) (hu : g.versionDependent = false → ∀ s, update s = s) (s : σ) :
    runMessage r (fs.map (prepared fs)) foi holds update valid stopped invalid (messageRead g foi cond fs) s =
      if cond = [] ∨ holds cond s then (match r.inOrder 0 (fs.map (prepared fs)) (update s) with
        | .error e => if (readOps (fs.map (prepared fs))).isSome && foi && !valid stopped then .error invalid else .error e
        | .ok s' => if foi && !valid s' then .error invalid else .ok s')
      else .error invalid := by
  generalize hfl : fs.map (prepared fs) = flags
  have hlib : readOps flags = none → ∀ x, r.range 0 flags.length x = r.inOrder 0 flags x := by
    intro h x
    rw [inOrder_plain r 0 flags (none_plain flags h)]
  have hops : ∀ os, readOps flags = some os → ∀ x, r.ops flags.length os x = r.inOrder 0 flags x := by
    intro os h x
    rw [← generated r flags x, h]
    rfl
  have hup : (if g.versionDependent then update s else s) = update s := by
    cases h : g.versionDependent with
    | true => rfl
    | false => simp [hu h]
  unfold messageRead
  simp only [hfl]
  cases ho : readOps flags with
  | none =>
    cases cond with
    | nil =>
      simp only [List.isEmpty_nil, Option.isNone_none, Bool.and_self, if_true, runMessage, hlib ho, true_or, Option.isSome_none, Bool.false_and,
        Bool.false_eq_true, if_false]
      rfl
    | cons c cs =>
      simp only [List.isEmpty_cons, Bool.false_and, Bool.false_eq_true, if_false, runMessage, hlib ho, reduceCtorEq, false_or, Option.isSome_none]
      cases holds (c :: cs) s <;> simp
      rfl
  | some os =>
    cases cond with
    | nil =>
      simp only [List.isEmpty_nil, Option.isNone_some, Bool.and_false, Bool.false_eq_true, if_false, if_true, runMessage, hops os ho, true_or, Option.isSome_some,
        Bool.true_and, hup]
      rfl
    | cons c cs =>
      simp only [List.isEmpty_cons, Option.isNone_some, Bool.and_false, Bool.false_eq_true, if_false, runMessage, hops os ho, reduceCtorEq, false_or, Option.isSome_some,
        Bool.true_and, hup]
      cases holds (c :: cs) s <;> simp
      rfl

end ReadProofs

/-- C101, bundles: for every way of preparing and reading members, what the generated read function does is to prepare (where that is called for) and read each
    member in turn, up to the first error. -/
theorem C101_bundle {σ ε : Type} (r : Reader σ ε) (ms : List Field) (s : σ) :
    r.generated (ms.map (prepared ms)) (bundleRead ms) s = r.inOrder 0 (ms.map (prepared ms)) s :=
  ReadProofs.generated r _ s

/-- C101, messages, success: for every way of preparing and reading fields the message is read successfully, with the same result, exactly if it is so when the condition
    is checked, the versions of fields are updated, the fields are prepared and read in turn, and validity is checked. In a protocol without version dependent
    code updates do nothing. -/
theorem C101_message_ok {σ ε : Type} (r : Reader σ ε) (g : GVer) (foi : Bool) (cond : List Tok) (fs : List Field) (holds : List Tok → σ → Bool) (update : σ → σ)
    (valid : σ → Bool) (stopped : σ) (invalid : ε) (hu : g.versionDependent = false → ∀ s, update s = s) (s s' : σ) :
    runMessage r (fs.map (prepared fs)) foi holds update valid stopped invalid (messageRead g foi cond fs) s = .ok s' ↔
      wantedMessage r (fs.map (prepared fs)) foi (fun s => cond = [] ∨ holds cond s) update valid invalid s = .ok s' := by
  rw [ReadProofs.run_eq r g foi cond fs holds update valid stopped invalid hu s]
  unfold wantedMessage
  simp only [decide_eq_true_eq]
  split
  · cases r.inOrder 0 (fs.map (prepared fs)) (update s) with
    | error e => simp only; split <;> simp
    | ok s'' => exact Iff.rfl
  · exact Iff.rfl

/-- C101, messages, errors, partial: unless the message is one that fails on invalid values, errors are the same, too. Missing: such messages, see
    `C101_status_witness`. -/
theorem C101_message_partial {σ ε : Type} (r : Reader σ ε) (g : GVer) (cond : List Tok) (fs : List Field) (holds : List Tok → σ → Bool) (update : σ → σ)
    (valid : σ → Bool) (stopped : σ) (invalid : ε) (hu : g.versionDependent = false → ∀ s, update s = s) (s : σ) :
    runMessage r (fs.map (prepared fs)) false holds update valid stopped invalid (messageRead g false cond fs) s =
      wantedMessage r (fs.map (prepared fs)) false (fun s => cond = [] ∨ holds cond s) update valid invalid s := by
  rw [ReadProofs.run_eq r g false cond fs holds update valid stopped invalid hu s]
  unfold wantedMessage
  simp
  rfl

/-! ## What is prepared -/

namespace ReadProofs

theorem first_name {n : Str} (hn : '.' ∉ n) (p : List Str) : (joinDots (n :: p)).takeWhile (· != '.') = n := by
  have h1 : ∀ (n : Str) (r : Str), '.' ∉ n → (n ++ '.' :: r).takeWhile (· != '.') = n := by
    intro n r h
    induction n with
    | nil => simp
    | cons c n ih =>
      simp only [List.mem_cons, not_or] at h
      simp [ih h.2, Ne.symm h.1]
  have h2 : ∀ (n : Str), '.' ∉ n → n.takeWhile (· != '.') = n := by
    intro n h
    induction n with
    | nil => simp
    | cons c n ih =>
      simp only [List.mem_cons, not_or] at h
      simp [ih h.2, Ne.symm h.1]
  cases p with
  | nil => exact h2 n hn
  | cons q p => exact h1 n _ hn

theorem numberAt_head {fs : List Field} {p : List Str} (h : NumberAt fs p) : ∃ n q, p = n :: q ∧ ∃ f ∈ fs, f.name = n := by
  cases h with
  | here h _ _ => exact ⟨_, _, rfl, _, List.mem_of_find?_eq_some h, by simpa using List.find?_some h⟩
  | down h _ => exact ⟨_, _, rfl, _, List.mem_of_find?_eq_some h, by simpa using List.find?_some h⟩

theorem no_dot {n : Str} (h : Identifier n) : '.' ∉ n := (GCond.plain_of h).2.1

theorem found {sibs : List Field} (hid : ∀ f ∈ sibs, Identifier f.name) {path : Str} (hne : path ≠ []) {p : List Str} {i : Nat} (hp : path = joinDots p)
    (hn : NumberAt (sibs.take i) p) : prefixFound sibs path = true := by
  obtain ⟨n, q, rfl, f, hf, rfl⟩ := numberAt_head hn
  have hf := List.mem_of_mem_take hf
  unfold prefixFound
  rw [hp, first_name (no_dot (hid f hf))]
  rw [hp] at hne
  simp only [Bool.and_eq_true, Bool.not_eq_true', List.isEmpty_eq_false_iff, List.any_eq_true, beq_iff_eq]
  exact ⟨hne, f, hf, rfl⟩

theorem prepared_iff {sibs : List Field} {m : Field} (hs : ∀ path ∈ detachedPaths m, path ≠ [] → prefixFound sibs path = true) :
    prepared sibs m = true ↔ NeedsPrep m := by
  have hnil : ∀ p : Str, prefixFound sibs p = true → p ≠ [] := by
    intro p h e
    rw [e] at h
    simp [prefixFound] at h
  constructor
  · intro h
    cases m with
    | optional c st s cd =>
      cases cd with
      | none => simp [prepared] at h
      | some cd => exact .optional
    | data c st p => exact .detached (p := st.detached) (by simp [detachedPaths]) (hnil _ h)
    | string c st p => exact .detached (p := st.detached) (by simp [detachedPaths]) (hnil _ h)
    | list c st a b d e t =>
      simp only [prepared, Bool.or_eq_true] at h
      rcases h with h | h | h
      · exact .detached (p := st.detachedCount) (by simp [detachedPaths]) (hnil _ h)
      · exact .detached (p := st.detachedLen) (by simp [detachedPaths]) (hnil _ h)
      · exact .detached (p := st.detachedElemLen) (by simp [detachedPaths]) (hnil _ h)
    | _ => simp [prepared] at h
  · intro h
    cases h with
    | optional => rfl
    | @detached _ p hp hne =>
      have := hs p hp hne
      cases m <;> simp only [detachedPaths, List.mem_cons, List.not_mem_nil, or_false] at hp <;> simp only [prepared, Bool.or_eq_true]
      · rw [← hp]; exact this
      · rw [← hp]; exact this
      · rcases hp with rfl | rfl | rfl
        · exact Or.inl this
        · exact Or.inr (Or.inl this)
        · exact Or.inr (Or.inr this)

end ReadProofs

/-- C101, bundles defined without `reuse`: a member is prepared exactly if that is needed: it is an `<optional>` with a condition, or its length, count or element length is
    in another field. -/
theorem C101_prepared_partial (env : FEnv) (he : ∀ s g, env.findField s = some g → Accepted g) (fuel : Nat) (parent : ParentInfo) (node : Xml) (f : Field)
    (h : parseField env fuel parent node = .ok f) (props : Props) (hp : collectProps f.kind node = some props)
    (hr : props.find "reuse".toList = none) (hk : f.kind = .bundle) : ∀ m ∈ f.members, (prepared f.members m = true ↔ NeedsPrep m) := by
  intro m hm
  obtain ⟨i, hi⟩ := List.mem_iff_getElem?.1 hm
  have hid : ∀ x ∈ f.members, Identifier x.name := by
    intro x hx
    refine C02_field_names x (.inner (.acc (.parse he h)) ?_)
    cases f <;> simp [Field.kind] at hk
    exact hx
  refine ReadProofs.prepared_iff fun path hpath hne => ?_
  obtain ⟨p, h1, h2⟩ := C66_member_partial env fuel parent node f h props hp hr hk i m hi path hpath hne
  exact ReadProofs.found hid hne h1 h2

/-- C101, the same for messages defined without `reuse` and `copyFieldsFrom`. -/
theorem C101_message_prepared_partial (env : MEnv) (node : Xml) (m : Message) (ha : AcceptedMsg m) (h : parseMessage env node = .ok m) (props : Props)
    (hp : msgProps node = some props) (hr : props.find "reuse".toList = none) (hc : props.find "copyFieldsFrom".toList = none) :
    ∀ f ∈ m.fields, (prepared m.fields f = true ↔ NeedsPrep f) := by
  intro f hf
  obtain ⟨i, hi⟩ := List.mem_iff_getElem?.1 hf
  have hid : ∀ x ∈ m.fields, Identifier x.name := fun x hx => C02_field_names x (msg_fields_obj ha x hx)
  refine ReadProofs.prepared_iff fun path hpath hne => ?_
  obtain ⟨p, h1, h2⟩ := C66_message_partial env node m h props hp hr hc i f hi path hpath hne
  exact ReadProofs.found hid hne h1 h2

/-! ## Cases -/

namespace ReadSample
open Sample

/-- An input of bytes; a member takes as many as told by `lens`; preparing member `i` sets its length to the value read last. -/
structure In where
  input : List Nat
  lens : List Nat
  got : List (List Nat) := []
  deriving DecidableEq, Repr

def rd : Reader In String where
  prep i s := { s with lens := s.lens.set i ((s.got.getLast?.getD []).getLast?.getD 0) }
  read i s := if s.input.length < s.lens.getD i 0 then .error "NotEnoughData"
    else .ok { s with input := s.input.drop (s.lens.getD i 0), got := s.got ++ [s.input.take (s.lens.getD i 0)] }

end ReadSample

open Sample in
/-- A bundle of a length, other data, data of that length, a flag and an optional: two members are prepared. -/
example : ∃ f, Accepted f ∧ bundleRead f.members = some [.readUntil 2, .prep 2, .readFromUntil 2 4, .prep 4, .readFrom 4] := by
  obtain ⟨f, h1, h2⟩ := accepted env0_ok (parent := .top)
    (x := el "bundle" [("name", "x")] [el "int" [("name", "a"), ("type", "uint8")], el "int" [("name", "b"), ("type", "uint8")],
      el "data" [("name", "c"), ("lengthPrefix", "$a")], el "int" [("name", "d"), ("type", "uint8")],
      el "optional" [("name", "e"), ("cond", "$d = 1")] [el "int" [("name", "i"), ("type", "uint8")]]])
    (p := fun f => decide (bundleRead f.members = some [.readUntil 2, .prep 2, .readFromUntil 2 4, .prep 4, .readFrom 4])) (by decide +kernel)
  exact ⟨f, h1, by simpa using h2⟩

/-- Reading with these statements. -/
example : ReadSample.rd.ops 3 [.readUntil 1, .prep 1, .readFrom 1] ⟨[2, 7, 8, 9], [1, 0, 1], []⟩ = .ok ⟨[], [1, 2, 1], [[2], [7, 8], [9]]⟩ := rfl

/-- Only the first member is prepared. -/
example : readOps [true, false] = some [.prep 0, .readAll] := by decide

open Sample in
/-- C101, errors of a message that fails on invalid values: it is checked for validity even if the input has ended too early, and "not enough data" is then
    reported as "invalid data". -/
theorem C101_status_witness : ∃ m : Message, AcceptedMsg m ∧ m.failOnInvalid = true ∧
    runMessage ReadSample.rd (m.fields.map (prepared m.fields)) true (fun _ _ => true) id (fun _ => false) ⟨[], [], []⟩ "InvalidMsgData"
      (messageRead { parsed := 0 } true [] m.fields) ⟨[], [1, 1], []⟩ = .error "InvalidMsgData" ∧
    wantedMessage ReadSample.rd (m.fields.map (prepared m.fields)) true (fun _ => true) id (fun _ => false) "InvalidMsgData" ⟨[], [1, 1], []⟩ =
      .error "NotEnoughData" := by
  obtain ⟨m, _, h1, h2⟩ := acceptedMsg menv0_ok
    (x := el "message" [("name", "m"), ("id", "1"), ("failOnInvalid", "true")] [el "int" [("name", "d"), ("type", "uint8"), ("validRange", "[1, 2]")],
      el "optional" [("name", "e"), ("cond", "$d = 1")] [el "int" [("name", "i"), ("type", "uint8")]]])
    (p := fun m => m.failOnInvalid && decide (m.fields.map (prepared m.fields) = [false, true])) (by decide +kernel)
  simp only [Bool.and_eq_true, decide_eq_true_eq] at h2
  refine ⟨m, h1, h2.1, ?_, ?_⟩
  · unfold messageRead
    rw [h2.2]
    rfl
  · rw [h2.2]
    rfl

open Sample in
/-- C101, references: a member that refers to an `<optional>` with a condition is not prepared: the condition is not looked at when the bundle is read. -/
theorem C101_ref_witness : ∃ f c b t, Accepted f ∧ f.kind = .bundle ∧ .ref c b (.ext t) ∈ f.members ∧ NeedsPrep t ∧ bundleRead f.members = none := by
  obtain ⟨f, h1, h2⟩ := accepted (withGlobal_ok env0_ok "o" (el "optional" [("name", "o"), ("cond", "$d = 1")] [el "int" [("name", "i"), ("type", "uint8")]]))
    (parent := .top) (x := el "bundle" [("name", "x")] [el "int" [("name", "d"), ("type", "uint8")], el "ref" [("name", "e"), ("field", "o")]])
    (p := fun f => decide (f.kind = .bundle) && ((f.members.any fun m => match m with | .ref _ _ (.ext (.optional _ _ _ (some _))) => true | _ => false) &&
      decide (bundleRead f.members = none))) (by decide +kernel)
  simp only [Bool.and_eq_true, List.any_eq_true, decide_eq_true_eq] at h2
  obtain ⟨h2, ⟨m, hm, h3⟩, h4⟩ := h2
  split at h3
  · exact ⟨f, _, _, _, h1, h2, hm, .optional, h4⟩
  · simp at h3

end Commsdsl.Props
