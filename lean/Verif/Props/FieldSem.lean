import Verif.Lemmas.CondRef
import Verif.Lemmas.FieldObj
import Verif.Lemmas.Sample
import Verif.Props.FieldVersions
import Verif.Props.CondRef
/-!
# Semantic types (C71); members and versions of composite fields (C22, C26, C27)
-/
namespace Commsdsl.Props
open Commsdsl Text Fld Spec

/-- The kinds of fields a meaning can be given to. -/
def _root_.Commsdsl.Spec.SemFits (t : Sem) (k : Kind) : Prop :=
  match t with
  | .none => True
  | .version => k = .int
  | .messageId => k = .enum
  | .length => k = .int ∨ k = .bitfield ∨ k = .bundle

/-- The versions of the DSL that allow for it. -/
def _root_.Commsdsl.Spec.SemSince (dsl : Nat) (t : Sem) (k : Kind) : Prop :=
  t = .length → Dsl.featureSupported dsl 2 = true ∧ (k ≠ .int → Dsl.featureSupported dsl 5 = true)

namespace SemProofs

theorem follows_clone {f g : Field} (h : Follows f g) : ∃ g', Follows (clone f) g' ∧ g'.kind = g.kind := by
  cases h with
  | self hk => exact ⟨clone f, .self (by rwa [clone_kind]), clone_kind f⟩
  | ref ht h => exact ⟨g, .ref ht h, rfl⟩

theorem follows_lift {f g : Field} (s : Nat) (h : Follows f g) : ∃ g', Follows (liftSince s f) g' ∧ g'.kind = g.kind := by
  cases h with
  | self hk => exact ⟨liftSince s f, .self (by rwa [liftSince_kind]), liftSince_kind s f⟩
  | ref ht h => exact ⟨g, .ref ht h, rfl⟩

theorem verifySem_iff (dsl : Nat) (t : Sem) (ht : t ≠ .none) (f : Field) : verifySemImpl dsl t f = .ok true ↔
    ∃ g, Follows f g ∧ SemFits t g.kind ∧ SemSince dsl t g.kind := by
  have nonref : ∀ f : Field, f.kind ≠ .ref → ((∃ g, Follows f g ∧ SemFits t g.kind ∧ SemSince dsl t g.kind) ↔
      (SemFits t f.kind ∧ SemSince dsl t f.kind)) := by
    intro f hf
    constructor
    · rintro ⟨g, hg, h⟩
      cases hg with
      | self => exact h
      | ref => simp [Field.kind] at hf
    · intro h; exact ⟨f, .self hf, h⟩
  induction f using Field.induction with
  | h f ih =>
    cases f with
    | ref c b s =>
      have step : ∀ g : Field, s.toList = [g] → (verifySemImpl dsl t g = .ok true ↔
          ∃ x, Follows (.ref c b s) x ∧ SemFits t x.kind ∧ SemSince dsl t x.kind) := by
        intro g hg
        refine (ih g (by simp [Field.subs, hg])).trans ?_
        constructor
        · rintro ⟨x, hx, h⟩; exact ⟨x, .ref (t := g) (by simp [hg]) hx, h⟩
        · rintro ⟨x, hx, h⟩
          cases hx with
          | self hk => simp [Field.kind] at hk
          | ref ht hx =>
            rw [hg, List.mem_singleton] at ht
            subst ht
            exact ⟨x, hx, h⟩
      cases s with
      | none =>
        simp only [verifySemImpl, verifySemSlot]
        constructor
        · intro h; cases h
        · rintro ⟨x, hx, _⟩
          cases hx with
          | self hk => simp [Field.kind] at hk
          | ref ht => simp [Slot.toList] at ht
      | ext g => rw [verifySemImpl, verifySemSlot]; exact step g rfl
      | own g => rw [verifySemImpl, verifySemSlot]; exact step g rfl
    | _ =>
      rw [nonref _ (by simp [Field.kind])]
      cases t <;> simp [verifySemImpl, SemFits, SemSince, Field.kind, Dsl.isSupported] at ht ⊢

theorem verifyField_sem {env : FEnv} {f : Field} (h : verifyField env f = .ok ()) : verifySem env.dsl f f.sem = .ok true := by
  simp only [verifyField, Res.bind_eq_ok] at h
  obtain ⟨ok, h1, _, h2, _⟩ := h
  have h2 := Res.check_eq_ok.1 h2
  rw [h2] at h1
  exact h1

end SemProofs

open SemProofs

/-- C71: in all field objects, the meaning "version" is only given to `<int>` fields, "messageId" to `<enum>` fields, "length" to `<int>`,
    `<bitfield>` and `<bundle>` fields, or to references to such fields. -/
theorem C71_semantic_types (f : Field) (h : Obj f) (hs : f.sem ≠ .none) : ∃ g, Follows f g ∧ SemFits f.sem g.kind := by
  have key : Hered (fun f => f.sem ≠ .none → ∃ g, Follows f g ∧ SemFits f.sem g.kind) f := by
    refine obj_hered ?_ ?_ ?_ f h
    · intro f hf hs
      have e : (clone f).sem = f.sem := by simp only [Field.sem, clone_common]
      rw [e] at hs ⊢
      obtain ⟨g, h1, h2⟩ := hf.self hs
      obtain ⟨g', h3, h4⟩ := follows_clone h1
      exact ⟨g', h3, h4 ▸ h2⟩
    · intro s f hf hs
      have e : (liftSince s f).sem = f.sem := by simp only [Field.sem, liftSince, Field.setSince, setCommon_common]
      rw [e] at hs ⊢
      obtain ⟨g, h1, h2⟩ := hf hs
      obtain ⟨g', h3, h4⟩ := follows_lift s h1
      exact ⟨g', h3, h4 ▸ h2⟩
    · intro env pc parent node f hf _ _ _ hs
      obtain ⟨b, c, props, f1, f2, pr⟩ := parseStep_prep hf
      have h1 := verifyField_sem pr.verif
      unfold verifySem at h1
      rw [if_neg hs] at h1
      obtain ⟨g, h2, h3, _⟩ := (verifySem_iff env.dsl f.sem hs f).1 h1
      exact ⟨g, h2, h3⟩
  exact key.self hs

/-- C71, exactly: with a meaning a field passes the check of the parser if and only if the kind fits and the version of the DSL allows for it;
    every accepted field has passed it. -/
theorem C71_exact (dsl : Nat) (f : Field) (t : Sem) (ht : t ≠ .none) :
    verifySem dsl f t = .ok true ↔ ∃ g, Follows f g ∧ SemFits t g.kind ∧ SemSince dsl t g.kind := by
  unfold verifySem
  rw [if_neg ht]
  exact verifySem_iff dsl t ht f

theorem C71_accepted (env : FEnv) (fuel : Nat) (parent : ParentInfo) (node : Xml) (f : Field) (h : parseField env fuel parent node = .ok f)
    (hs : f.sem ≠ .none) : ∃ g, Follows f g ∧ SemFits f.sem g.kind ∧ SemSince env.dsl f.sem g.kind := by
  obtain ⟨n, rfl, h⟩ := parseField_ok h
  obtain ⟨b, c, props, f1, f2, pr⟩ := parseStep_prep h
  exact (C71_exact env.dsl f f.sem hs).1 (verifyField_sem pr.verif)

open Sample in
/-- A reference to an `<int>` inherits "length". -/
example : ∃ f, Accepted f ∧ f.sem = .length ∧ f.kind = .ref := by
  obtain ⟨f, h1, h2⟩ := accepted (withGlobal_ok env0_ok "g" (el "int" [("name", "g"), ("type", "uint8"), ("semanticType", "length")]))
    (parent := .top) (x := el "ref" [("name", "r"), ("field", "g")]) (p := fun f => f.sem == .length && f.kind == .ref) (by decide +kernel)
  simp only [Bool.and_eq_true, beq_iff_eq] at h2
  exact ⟨f, h1, h2.1, h2.2⟩

/-! ## C27: a composite field starts with something -/

/-- C27: an accepted bundle or variant has a member as old as itself. -/
theorem C27_first_member (f : Field) (h : Accepted f) (hk : f.kind = .bundle ∨ f.kind = .variant) : ∃ m ∈ f.members, m.since = f.since := by
  cases h with
  | parse henv h =>
    obtain ⟨n, rfl, h⟩ := parseField_ok h
    have key : ∀ (b : BCtx) (ms : List Field) (v : Nat), b.ic.since = v → hasSameVersion b ms = true → ∃ m ∈ ms, m.since = v := by
      intro b ms v e h
      unfold hasSameVersion at h
      rw [List.any_eq_true] at h
      obtain ⟨m, hm, h⟩ := h
      exact ⟨m, hm, by rw [← e]; simpa using h⟩
    rcases hk with hk | hk
    · cases f <;> simp [Field.kind] at hk
      obtain ⟨b, ms0, al0, cd0, _, e1, _, _, _, h1, _⟩ := bundle_inv h
      exact key b _ _ e1 (bundleMembers_ok h1).2.1
    · cases f <;> simp [Field.kind] at hk
      obtain ⟨b, ms0, d0, _, e1, _, _, _, h1, _⟩ := variant_inv h
      exact key b _ _ e1 (variantMembers_ok h1).2

open Sample in
/-- Without such a member the bundle is refused, with one it is accepted. -/
example : (∃ f, Accepted f ∧ f.kind = .bundle ∧ f.since = 2 ∧ f.members.length = 2) ∧
    ∀ f, parseField env0 9 (.message 1 4294967295) (el "bundle" [("name", "b")] [
      el "int" [("name", "i"), ("type", "uint8"), ("sinceVersion", "2")]]) ≠ .ok f := by
  refine ⟨?_, ?_⟩
  · obtain ⟨f, h1, h2⟩ := accepted env0_ok (parent := .message 2 4294967295) (x := el "bundle" [("name", "b")] [
        el "int" [("name", "i"), ("type", "uint8"), ("sinceVersion", "3")], el "int" [("name", "j"), ("type", "uint8")]])
      (p := fun f => decide (f.kind = .bundle ∧ f.since = 2 ∧ f.members.length = 2)) (by decide +kernel)
    exact ⟨f, h1, by simpa using h2⟩
  · intro f h
    have : Sample.okWith (parseField env0 9 (.message 1 4294967295) (el "bundle" [("name", "b")] [
      el "int" [("name", "i"), ("type", "uint8"), ("sinceVersion", "2")]])) (fun _ => true) = false := by decide +kernel
    rw [h] at this
    simp [Sample.okWith] at this

/-! ## C26: members of bitfields -/

theorem SemProofs.newMembers_same {b : BCtx} {ns : List Xml} {acc all : List Field}
    (h : newMembers b (fun _ f => .ok (sameVersions b f)) ns acc = .ok all) (hacc : ∀ m ∈ acc, sameVersions b m = true) :
    ∀ m ∈ all, sameVersions b m = true := by
  induction ns generalizing acc with
  | nil => cases h; exact hacc
  | cons n ns ih =>
    simp only [newMembers, Res.bind_eq_ok] at h
    obtain ⟨f0, h1, ok, h2, _, h3, h4⟩ := h
    have h3 := Res.check_eq_ok.1 h3
    rw [h3] at h2
    refine ih h4 ?_
    intro m hm
    rcases List.mem_append.1 hm with hm | hm
    · exact hacc m hm
    · simp only [List.mem_singleton] at hm
      subst hm
      exact Res.ok.inj h2

/-- C26, bitfields: the members given in the definition of a bitfield exist in exactly the versions the bitfield exists in.
    Missing: bitfields that copy their members from another one (`reuse`): the copied members keep their own versions. -/
theorem C26_bitfield_members_partial (env : FEnv) (fuel : Nat) (parent : ParentInfo) (node : Xml) (f : Field)
    (h : parseField env fuel parent node = .ok f) (hk : f.kind = .bitfield) (props : Props) (hp : collectProps f.kind node = some props)
    (hr : props.find "reuse".toList = none) : ∀ m ∈ f.members, m.since = f.since ∧ m.depr = f.depr := by
  obtain ⟨n, rfl, h⟩ := parseField_ok h
  obtain ⟨b, c, props', f1, f2, pr⟩ := parseStep_prep h
  have e := pr.coll
  rw [hp] at e
  cases e
  have hm2 := (CondProofs.fresh pr hr).1
  cases f <;> simp [Field.kind] at hk
  have hk2 := pr.kind2
  cases f2 <;> simp [Field.kind] at hk2
  simp only [Field.members] at hm2
  subst hm2
  have hc := (parseBody_common pr.body).2.2.2 (by simp [Field.setCommon, Field.kind])
  simp only [Field.setCommon, Field.common] at hc
  have hb := pr.body
  simp only [Field.setCommon, parseBody, bitfieldImpl, Res.bind_eq_ok, Res.pure_eq] at hb
  obtain ⟨_, _, ms', h5, cd', h6, h7⟩ := hb
  cases h7
  rcases bitfieldMembers_ok h5 with ⟨_, hne⟩ | ⟨ns, _, _, h3, _, _, _⟩
  · exact absurd rfl hne
  · intro m hm
    have := newMembers_same h3 (by simp) m hm
    rw [pr.ctx] at this
    simp only [sameVersions, bodyCtx, Bool.and_eq_true] at this
    exact ⟨of_decide_eq_true this.1, of_decide_eq_true this.2⟩

open Sample in
/-- A bitfield with two members, from version 2 on; with a member from version 3 on it is refused. -/
example : (∃ f, Accepted f ∧ f.kind = .bitfield ∧ f.since = 2 ∧ f.members.length = 2) ∧
    ∀ f, parseField env0 9 (.message 1 4294967295) (el "bitfield" [("name", "b"), ("sinceVersion", "2")] [
      el "int" [("name", "i"), ("type", "uint8"), ("bitLength", "4")],
      el "int" [("name", "j"), ("type", "uint8"), ("bitLength", "4"), ("sinceVersion", "3")]]) ≠ .ok f := by
  refine ⟨?_, ?_⟩
  · obtain ⟨f, h1, h2⟩ := accepted env0_ok (parent := .message 1 4294967295) (x := el "bitfield" [("name", "b"), ("sinceVersion", "2")] [
        el "int" [("name", "i"), ("type", "uint8"), ("bitLength", "4")], el "int" [("name", "j"), ("type", "uint8"), ("bitLength", "4")]])
      (p := fun f => decide (f.kind = .bitfield ∧ f.since = 2 ∧ f.members.length = 2)) (by decide +kernel)
    exact ⟨f, h1, by simpa using h2⟩
  · intro f h
    have : Sample.okWith (parseField env0 9 (.message 1 4294967295) (el "bitfield" [("name", "b"), ("sinceVersion", "2")] [
      el "int" [("name", "i"), ("type", "uint8"), ("bitLength", "4")],
      el "int" [("name", "j"), ("type", "uint8"), ("bitLength", "4"), ("sinceVersion", "3")]])) (fun _ => true) = false := by decide +kernel
    rw [h] at this
    simp [Sample.okWith] at this

open Sample in
/-- C26, false with `reuse`: a bitfield that is deprecated in version 3, while its members are not. -/
theorem C26_bitfield_reuse_witness : ∃ f, Accepted f ∧ f.kind = .bitfield ∧ f.depr = 3 ∧ ∃ m ∈ f.members, m.depr = 4294967295 := by
  obtain ⟨f, h1, h2⟩ := accepted (withGlobal_ok env0_ok "g" (el "bitfield" [("name", "g")] [
      el "int" [("name", "i"), ("type", "uint8"), ("bitLength", "4")], el "int" [("name", "j"), ("type", "uint8"), ("bitLength", "4")]]))
    (parent := .message 1 4294967295) (x := el "bitfield" [("name", "r"), ("reuse", "g"), ("deprecated", "3")])
    (p := fun f => decide (f.kind = .bitfield ∧ f.depr = 3 ∧ ∃ m ∈ f.members, m.depr = 4294967295)) (by decide +kernel)
  exact ⟨f, h1, by simpa using h2⟩

/-! ## C22: bundles that give their own length -/

theorem SemProofs.maxSum_length {ms : List Field} {a n : Nat} (h : maxSum ms a = .ok n) (hm : ∃ m ∈ ms, m.sem = .length) :
    n = Length.maxPossible := by
  induction ms generalizing a with
  | nil => obtain ⟨m, hm, _⟩ := hm; cases hm
  | cons x xs ih =>
    unfold maxSum at h
    split at h
    · exact (Res.ok.inj h).symm
    · rename_i hx
      simp only [Res.bind_eq_ok] at h
      obtain ⟨y, _, h⟩ := h
      obtain ⟨m, hm, hs⟩ := hm
      rcases List.mem_cons.1 hm with rfl | hm
      · exact absurd hs hx
      · exact ih h ⟨m, hm, hs⟩

/-- C22: a bundle with a member that gives the length of the bundle has no maximal length: later versions of the protocol can append members. -/
theorem C22_length_member (f : Field) (hk : f.kind = .bundle) (hm : ∃ m ∈ f.members, m.sem = .length) (n : Nat)
    (h : Fld.maxLength f = .ok n) : n = Length.maxPossible := by
  cases f <;> simp [Field.kind] at hk
  unfold Fld.maxLength at h
  exact maxSum_length h hm

open Sample in
example : ∃ f, Accepted f ∧ f.kind = .bundle ∧ (∃ m ∈ f.members, m.sem = .length) ∧ ∃ n, Fld.maxLength f = .ok n := by
  obtain ⟨f, h1, h2⟩ := accepted env0_ok (parent := .top) (x := el "bundle" [("name", "b")] [
      el "int" [("name", "i"), ("type", "uint8"), ("semanticType", "length")], el "int" [("name", "j"), ("type", "uint8")]])
    (p := fun f => decide (f.kind = .bundle ∧ ∃ m ∈ f.members, m.sem = .length) && isNum (Fld.maxLength f) 18446744073709551615)
    (by decide +kernel)
  simp only [Bool.and_eq_true, decide_eq_true_eq] at h2
  refine ⟨f, h1, h2.1.1, h2.1.2, ?_⟩
  exact ⟨_, isNum_spec h2.2⟩

end Commsdsl.Props
