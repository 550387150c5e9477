import Verif.Props.FieldMembers
import Verif.Spec.Ser
import Verif.Spec.Path
/-!
# Bit sums, requested lengths, aliases: C19, C25, C42, C43
-/
namespace Commsdsl.Props
open Commsdsl Fld Spec Text

/-! ## C19 -/

namespace CheckProofs

theorem clone_bits (f : Field) : (clone f).bitLength = f.bitLength := by cases f <;> rfl

theorem lift_bits (s : Nat) (f : Field) : (liftSince s f).bitLength = f.bitLength := by cases f <;> rfl

theorem bitSum_clone (ms : List Field) : bitSum (cloneAll ms) = bitSum ms := by
  induction ms with
  | nil => rfl
  | cons m ms ih => simp only [cloneAll, bitSum, ih, clone_bits]

theorem bitSum_lift (s : Nat) (ms : List Field) : bitSum (ms.map (liftSince s)) = bitSum ms := by
  induction ms with
  | nil => rfl
  | cons m ms ih => simp only [List.map_cons, bitSum, ih, lift_bits]

theorem totalBits_eq (ms : List Field) (h : bitSum ms < 2 ^ 64) : totalBits ms = bitSum ms := by
  induction ms with
  | nil => rfl
  | cons m ms ih =>
    simp only [totalBits, bitSum] at h ⊢
    rw [ih (by omega), Nat.mod_eq_of_lt (by omega)]

end CheckProofs

open CheckProofs

/-- The members of a bitfield fill between 0 and 8 whole bytes. -/
def WholeBytes (f : Field) : Prop := f.kind = .bitfield → bitSum f.members % 8 = 0 ∧ bitSum f.members ≤ 64

/-- C19, partial: an accepted bitfield fills whole bytes, at most 8, provided that no members are replaced in its definition, that the one it
    reuses (if any) does so, and that the number of bits is below 2^64. For each of the missing cases see the witnesses below. -/
theorem C19_whole_bytes_partial (env : FEnv) (fuel : Nat) (parent : ParentInfo) (node : Xml) (f : Field)
    (h : parseField env fuel parent node = .ok f) (hr : getChildren node ["replace".toList] = []) (hb : bitSum f.members < 2 ^ 64)
    (henv : ∀ s g, env.findField s = some g → WholeBytes g) : WholeBytes f := by
  intro hk
  obtain ⟨n, rfl, h⟩ := parseField_ok h
  cases f <;> simp [Field.kind] at hk
  rename_i c e ms cd
  obtain ⟨b, c', props, f1, f2, pr⟩ := parseStep_prep h
  have e2 : f2 = f1 := by
    rcases pr.replaced with e | ⟨r, _, e, _⟩
    · exact e
    · rw [hr] at e; cases e
  subst e2
  have hbody := pr.body
  have hk2 := pr.kind2
  have hbase := pr.base
  cases f2 <;> simp [Field.kind] at hk2
  rename_i c2 e2 ms2 cd2
  simp only [Field.setCommon, parseBody, bitfieldImpl, Res.bind_eq_ok, Res.pure_eq] at hbody
  obtain ⟨_, _, ms', h1, _, _, h4⟩ := hbody
  cases h4
  simp only [Field.members] at hb ⊢
  rcases bitfieldMembers_ok h1 with ⟨h1, hne⟩ | ⟨ns, _, _, _, _, h5, h6⟩
  · rw [h1, bitSum_lift]
    rcases hbase with hb' | ⟨s, g, c'', hg, hgk, hre, _⟩
    · simp only [Field.kind, initField] at hb'
      cases hb'; exact absurd rfl hne
    · cases g <;> simp [Field.kind] at hgk
      simp only [reuseImpl] at hre
      cases hre
      rw [bitSum_clone]
      exact henv s _ hg rfl
  · rw [totalBits_eq _ hb] at h5 h6
    exact ⟨h5, h6⟩

/-- The reported length of any bitfield is the sum of its bits in bytes. -/
theorem C19_length (f : Field) (hk : f.kind = .bitfield) (hb : bitSum f.members < 2 ^ 64) :
    minLength f = .ok (bitSum f.members / 8) ∧ maxLength f = .ok (bitSum f.members / 8) := by
  cases f <;> simp [Field.kind] at hk
  simp only [Field.members] at hb ⊢
  rw [minLength, maxLength, totalBits_eq _ hb]
  exact ⟨rfl, rfl⟩

open Sample in
/-- Two members of 3 and 13 bits. -/
example : ∃ f, Accepted f ∧ f.kind = .bitfield ∧ bitSum f.members = 16 := by
  obtain ⟨f, h1, h2⟩ := accepted env0_ok (parent := .top)
    (x := el "bitfield" [("name", "b")] [el "int" [("name", "a"), ("type", "uint8"), ("bitLength", "3")],
      el "enum" [("name", "e"), ("type", "uint16"), ("bitLength", "13")] [el "validValue" [("name", "V"), ("val", "1")]]])
    (p := fun f => decide (f.kind = .bitfield ∧ bitSum f.members = 16)) (by decide +kernel)
  exact ⟨f, h1, by simpa using h2⟩

open Sample in
/-- Refutation of the full C19: replacing the only member of a reused bitfield by one of 3 bits is accepted. -/
theorem C19_replace_witness : ∃ f, Accepted f ∧ f.kind = .bitfield ∧ bitSum f.members = 3 := by
  obtain ⟨f, h1, h2⟩ := accepted (withGlobal_ok env0_ok "g" (el "bitfield" [("name", "g")] [el "int" [("name", "a"), ("type", "uint8")]]))
    (parent := .top)
    (x := el "bitfield" [("name", "b"), ("reuse", "g")] [el "replace" [] [el "int" [("name", "a"), ("type", "uint8"), ("bitLength", "3")]]])
    (p := fun f => decide (f.kind = .bitfield ∧ bitSum f.members = 3)) (by decide +kernel)
  exact ⟨f, h1, by simpa using h2⟩

open Sample in
/-- Refutation, second: a reference to a string of unlimited length takes 2^64-8 bits; with 8 more the sum in `std::size_t` is 0. -/
theorem C19_wrap_witness : ∃ f, Accepted f ∧ f.kind = .bitfield ∧ bitSum f.members = 2 ^ 64 ∧ minLength f = .ok 0 := by
  obtain ⟨f, h1, h2⟩ := accepted (withGlobal_ok env0_ok "g" (el "string" [("name", "g")]))
    (parent := .top)
    (x := el "bitfield" [("name", "b")] [el "ref" [("name", "r"), ("field", "g")], el "int" [("name", "a"), ("type", "uint8")]])
    (p := fun f => decide (f.kind = .bitfield ∧ bitSum f.members = 2 ^ 64) && isNum (minLength f) 0) (by decide +kernel)
  simp only [Bool.and_eq_true, decide_eq_true_eq] at h2
  exact ⟨f, h1, h2.1.1, h2.1.2, isNum_spec h2.2⟩

open Sample in
/-- Refutation of "has members": an empty `<members/>` is accepted. -/
theorem C19_no_members_witness : ∃ f, Accepted f ∧ f.kind = .bitfield ∧ f.members = [] := by
  obtain ⟨f, h1, h2⟩ := accepted env0_ok (parent := .top) (x := el "bitfield" [("name", "b")] [el "members" []])
    (p := fun f => decide (f.kind = .bitfield) && f.members.isEmpty) (by decide +kernel)
  simp only [Bool.and_eq_true, decide_eq_true_eq, List.isEmpty_iff] at h2
  exact ⟨f, h1, h2.1, h2.2⟩

/-! ## C25 -/

/-- C25, partial: if a field definition requests a minimal length (below 2^31) and is accepted, that is its minimal length. Missing: numbers
    from 2^31 on, which disable the check or are taken modulo 2^32, see below. -/
theorem C25_field_partial (env : FEnv) (fuel : Nat) (parent : ParentInfo) (node : Xml) (f : Field)
    (h : parseField env fuel parent node = .ok f) (props : Props) (hp : collectProps f.kind node = some props) (s : Str) (n : Nat)
    (hs : props.find "validateMinLength".toList = some s) (hd : DenotesU s n) (hn : n < 2 ^ 31)
    (hdsl : Dsl.isSupported env.dsl .validateMinLengthForFields = true) : minLength f = .ok n := by
  obtain ⟨m, rfl, h⟩ := parseField_ok h
  obtain ⟨b, c, props', f1, f2, pr⟩ := parseStep_prep h
  have e := pr.coll
  rw [hp] at e
  cases e
  have hu := C01_unsigned_exact_partial s n hd (by omega)
  have hc := pr.comm
  simp only [updateCommon, Res.bind_eq_ok, Res.pure_eq] at hc
  obtain ⟨_, _, _, _, _, _, _, _, _, _, _, _, _, _, _, _, _, _, _, _, _, _, _, _, ml, hml, hc⟩ := hc
  have hml' : ml = n := by
    unfold updateMinLen at hml
    split at hml
    · simp at hml
    · rw [hs] at hml
      simp only [hdsl, hu] at hml
      simp only [Bool.not_true, Bool.false_eq_true, if_false] at hml
      simp only [Res.ok.injEq] at hml
      rw [← hml]
      unfold castI32; omega
  have hcm : c.validateMinLength = n := by
    cases hc; exact hml'
  have hcf : f.common.validateMinLength = c.validateMinLength := by
    by_cases hk : f.kind = .ref
    · have hbody := pr.body
      have hk2 := pr.kind2
      rw [hk] at hk2
      cases f2 <;> simp [Field.kind] at hk2
      simp only [Field.setCommon, parseBody] at hbody
      rcases refImpl_ok hbody with ⟨rfl, _⟩ | ⟨_, _, _, _, _, rfl⟩ <;> rfl
    · have := (parseBody_common pr.body).2.2.2 (by rw [setCommon_kind, pr.kind2]; exact hk)
      rw [this, setCommon_common]
  have hv := pr.verif
  simp only [verifyField, Res.bind_eq_ok] at hv
  obtain ⟨_, _, _, _, _, _, hv⟩ := hv
  rw [hcf, hcm] at hv
  rw [if_neg (by omega)] at hv
  simp only [Res.bind_eq_ok] at hv
  obtain ⟨len, h1, h2⟩ := hv
  have := Res.check_ok h2
  simp only [decide_eq_true_eq] at this
  rw [h1, ← this]
  congr 1
  unfold castU32; omega

open Sample in
/-- A request that is honoured. -/
example : ∃ f, Accepted f ∧ f.common.validateMinLength = 2 ∧ minLength f = .ok 2 := by
  obtain ⟨f, h1, h2⟩ := accepted env0_ok (parent := .top)
    (x := el "int" [("name", "i"), ("type", "uint16"), ("validateMinLength", "2")])
    (p := fun f => decide (f.common.validateMinLength = 2) && isNum (minLength f) 2) (by decide +kernel)
  simp only [Bool.and_eq_true, decide_eq_true_eq] at h2
  exact ⟨f, h1, h2.1, isNum_spec h2.2⟩

open Sample in
/-- Refutation of the full C25: 2147483648 is accepted for a field of 1 byte, 4294967297 too. -/
theorem C25_witness : (∃ f, parseField env0 9 .top (el "int" [("name", "i"), ("type", "uint8"), ("validateMinLength", "2147483648")]) = .ok f ∧
      minLength f = .ok 1) ∧
    ∃ f, parseField env0 9 .top (el "int" [("name", "i"), ("type", "uint8"), ("validateMinLength", "4294967297")]) = .ok f ∧
      minLength f = .ok 1 := by
  have key : ∀ x, Sample.okWith (parseField env0 9 .top x) (fun f => isNum (minLength f) 1) = true →
      ∃ f, parseField env0 9 .top x = .ok f ∧ minLength f = .ok 1 := by
    intro x h
    unfold Sample.okWith at h
    split at h
    · rename_i f hf
      exact ⟨f, hf, isNum_spec h⟩
    · simp at h
  exact ⟨key _ (by decide +kernel), key _ (by decide +kernel)⟩

/-! ## C42 -/

namespace CheckProofs

theorem beforeDot_append {w t : Str} (h : '.' ∉ w) : beforeDot (w ++ '.' :: t) = w ∧ afterDot (w ++ '.' :: t) = t := by
  unfold beforeDot afterDot
  have h' : ∀ a ∈ w, (a != '.') = true := by
    intro a ha
    have : a ≠ '.' := fun e => h (e ▸ ha)
    simpa using this
  rw [List.takeWhile_append_of_pos h', List.dropWhile_append_of_pos h']
  simp

theorem beforeDot_self {w : Str} (h : '.' ∉ w) : beforeDot w = w := by
  unfold beforeDot
  induction w with
  | nil => rfl
  | cons a w ih =>
    have h1 : a ≠ '.' := fun e => h (by simp [e])
    have h2 : '.' ∉ w := fun e => h (List.mem_cons_of_mem _ e)
    rw [List.takeWhile_cons_of_pos (by simpa using h1), ih h2]

theorem aliasedIn_resolves {ms : List Field} (ih : ∀ m ∈ ms, ∀ (w : Str) (ws : List Str), (∀ x ∈ w :: ws, x ≠ [] ∧ '.' ∉ x) →
      verifyAliased m (joinDots (w :: ws)) = true → Resolves m.members (w :: ws)) (w : Str) (ws : List Str)
    (hw : ∀ x ∈ w :: ws, x ≠ [] ∧ '.' ∉ x) {n s : Str} (hn : n = beforeDot s) (hs : s = joinDots (w :: ws)) (h : aliasedIn ms n s = true) :
    Resolves ms (w :: ws) := by
  induction ms with
  | nil => simp [aliasedIn] at h
  | cons m ms ihm =>
    unfold aliasedIn at h
    split at h
    · rename_i hnm
      cases ws with
      | nil =>
        rw [hs, show joinDots [w] = w from rfl, beforeDot_self (hw w (by simp)).2] at hn
        have : w = m.name := by rw [← hn, hnm]
        rw [this]
        exact .here (by simp)
      | cons v vs =>
        have e : s = w ++ '.' :: joinDots (v :: vs) := hs
        obtain ⟨e1, e2⟩ := beforeDot_append (t := joinDots (v :: vs)) (hw w (by simp)).2
        rw [if_pos (by rw [e]; simp), e, e2] at h
        have : w = m.name := by rw [← hnm, hn, e, e1]
        rw [this]
        exact .down (by simp) (ih m (by simp) v vs (fun x hx => hw x (List.mem_cons_of_mem _ hx)) h)
    · have := ihm (fun m hm => ih m (by simp [hm])) h
      cases this with
      | here hm => exact .here (by simp [hm])
      | down hm hr => exact .down (by simp [hm]) hr

theorem joinDots_ne {w : Str} {ws : List Str} (h : w ≠ []) : joinDots (w :: ws) ≠ [] := by
  cases ws with
  | nil => exact h
  | cons v vs => simp [joinDots]

theorem verifyAliased_resolves (f : Field) : ∀ (w : Str) (ws : List Str), (∀ x ∈ w :: ws, x ≠ [] ∧ '.' ∉ x) →
    verifyAliased f (joinDots (w :: ws)) = true → Resolves f.members (w :: ws) := by
  induction f using Field.induction with
  | h f ih =>
    intro w ws hw h
    have hne : (joinDots (w :: ws)).isEmpty = false := by
      have := joinDots_ne (ws := ws) (hw w (by simp)).1
      simpa using this
    cases f with
    | bitfield c e ms cd =>
      simp only [verifyAliased, hne, Bool.false_or] at h
      exact aliasedIn_resolves ih w ws hw rfl rfl h
    | bundle c ms al cd =>
      simp only [verifyAliased, hne, Bool.false_or] at h
      exact aliasedIn_resolves ih w ws hw rfl rfl h
    | _ => simp [verifyAliased, hne] at h

/-- What an accepted alias satisfies. -/
def AliasResolves (ms : List Field) (a : Alias) : Prop := ∃ comps, a.fieldName = joinDots comps ∧ Resolves ms comps

theorem verifyAlias_resolves {al : List Alias} {ms : List Field} {a : Alias} (h : verifyAlias al ms a = true)
    (hv : isValidRefName a.fieldName = true) : AliasResolves ms a := by
  obtain ⟨w0, ws, hs, hid, hws⟩ := (C03_refname_exact _).1 hv
  have hdot : ∀ c : Char, NameRest c → c ≠ '.' := by intro c hc e; subst e; revert hc; unfold NameRest; decide
  have key : ∃ w, a.fieldName = joinDots (w :: ws) ∧ ∀ x ∈ w :: ws, x ≠ [] ∧ '.' ∉ x := by
    have hws' : ∀ x ∈ ws, x ≠ [] ∧ '.' ∉ x := fun x hx => ⟨(hws x hx).1, fun hd => hdot _ ((hws x hx).2 _ hd) rfl⟩
    have hw0 : w0 ≠ [] ∧ '.' ∉ w0 := by
      obtain ⟨c, cs, rfl, h1, h2⟩ := hid
      refine ⟨by simp, ?_⟩
      intro hd
      rcases List.mem_cons.1 hd with hd | hd
      · subst hd; revert h1; unfold NameStart; decide
      · exact hdot _ (h2 _ hd) rfl
    rcases hs with hs | hs
    · refine ⟨w0, hs, ?_⟩
      intro x hx
      rcases List.mem_cons.1 hx with rfl | hx
      · exact hw0
      · exact hws' x hx
    · refine ⟨'@' :: w0, ?_, ?_⟩
      · rw [hs]; cases ws <;> simp [joinDots]
      · intro x hx
        rcases List.mem_cons.1 hx with rfl | hx
        · exact ⟨by simp, by simp [hw0.2]⟩
        · exact hws' x hx
  obtain ⟨w, hs, hw⟩ := key
  refine ⟨w :: ws, hs, ?_⟩
  unfold verifyAlias at h
  split at h
  · simp at h
  · split at h
    · simp at h
    · split at h
      · simp at h
      · rename_i f hf
        have hm := List.mem_of_find?_eq_some hf
        have he := List.find?_some hf
        simp only [beq_iff_eq] at he
        cases ws with
        | nil =>
          rw [hs, show joinDots [w] = w from rfl, beforeDot_self (hw w (by simp)).2] at he
          rw [he]; exact .here hm
        | cons v vs =>
          have e : a.fieldName = w ++ '.' :: joinDots (v :: vs) := hs
          obtain ⟨e1, e2⟩ := beforeDot_append (t := joinDots (v :: vs)) (hw w (by simp)).2
          rw [if_pos (by rw [e]; simp), e, e2] at h
          rw [e, e1] at he
          rw [he]
          exact .down hm (verifyAliased_resolves f v vs (fun x hx => hw x (List.mem_cons_of_mem _ hx)) h)

theorem parseAlias_valid {env : FEnv} {n : Xml} {a : Alias} (h : parseAlias env n = .ok a) :
    isValidRefName a.fieldName = true ∧ isValidName a.name = true := by
  simp only [parseAlias, Res.bind_eq_ok] at h
  obtain ⟨_, _, _, _, _, hn, _, _, _, _, h⟩ := h
  split at h
  · split at h
    · rename_i hv
      cases h
      exact ⟨hv, Res.check_ok hn⟩
    · simp at h
  · simp at h

theorem newAliases_ok {env : FEnv} {ms : List Field} {ns : List Xml} {acc al : List Alias} (h : newAliases env ms ns acc = .ok al) :
    ∃ new, al = acc ++ new ∧ (∀ a ∈ new, AliasResolves ms a) ∧
      ∀ (i : Nat) (a : Alias), acc.length ≤ i → al[i]? = some a → verifyAlias (al.take i) ms a = true := by
  induction ns generalizing acc with
  | nil =>
    cases h
    refine ⟨[], by simp, by simp, ?_⟩
    intro i a hi ha
    have := (List.getElem?_eq_some_iff.1 ha).1
    omega
  | cons n ns ih =>
    simp only [newAliases, Res.bind_eq_ok] at h
    obtain ⟨a, h1, _, h2, h3⟩ := h
    obtain ⟨new, rfl, h4, h5⟩ := ih h3
    have hv := Res.check_ok h2
    refine ⟨a :: new, by simp, ?_, ?_⟩
    · intro x hx
      rcases List.mem_cons.1 hx with rfl | hx
      · exact verifyAlias_resolves hv (parseAlias_valid h1).1
      · exact h4 x hx
    · intro i x hi hx
      by_cases e : i = acc.length
      · subst e
        have : x = a := by simpa using hx.symm
        subst this
        simpa using hv
      · exact h5 i x (by simp; omega) hx

theorem toLowerC_eq (c : Char) : toLowerC c = c.toLower := by
  unfold toLowerC isUpper Char.toLower
  by_cases h : 65 ≤ c.toNat ∧ c.toNat ≤ 90
  · have : c ∈ (List.range 26).map (fun i => Char.ofNat (65 + i)) := by
      rw [List.mem_map]
      exact ⟨c.toNat - 65, by simp; omega, by rw [show 65 + (c.toNat - 65) = c.toNat by omega]; exact Char.ofNat_toNat c⟩
    revert this
    have : ∀ c ∈ (List.range 26).map (fun i => Char.ofNat (65 + i)), toLowerC c = c.toLower := by decide
    intro hc
    exact this c hc
  · have h1 : ¬ (c.val ≥ 65 ∧ c.val ≤ 90) := by
      intro ⟨a, b⟩
      exact h ⟨a, b⟩
    rw [dif_neg (by simpa using h1)]
    rw [if_neg]
    simp only [Bool.and_eq_true, decide_eq_true_eq]
    intro hc
    exact h (by simpa [Char.le_def, UInt32.le_iff_toNat_le] using hc)

theorem sameAliasName_iff {a n : Str} (ha : a ≠ []) : sameAliasName a n = true ↔ SameName a n := by
  unfold sameAliasName SameName
  cases a with
  | nil => exact absurd rfl ha
  | cons x xs =>
    cases n with
    | nil => simp
    | cons y ys =>
      simp only [Bool.and_eq_true, beq_iff_eq, toLowerC_eq]
      constructor
      · rintro ⟨h1, rfl⟩; exact ⟨x, y, xs, rfl, rfl, h1⟩
      · rintro ⟨x', y', t, h1, h2, h3⟩
        cases h1; cases h2; exact ⟨h3, rfl⟩

theorem newAliases_names {env : FEnv} {ms : List Field} {ns : List Xml} {acc al : List Alias} (h : newAliases env ms ns acc = .ok al)
    (ha : ∀ a ∈ acc, a.name ≠ []) : ∀ a ∈ al, a.name ≠ [] := by
  induction ns generalizing acc with
  | nil => cases h; exact ha
  | cons n ns ih =>
    simp only [newAliases, Res.bind_eq_ok] at h
    obtain ⟨a, h1, _, h2, h3⟩ := h
    refine ih h3 ?_
    intro x hx
    rcases List.mem_append.1 hx with hx | hx
    · exact ha x hx
    · simp only [List.mem_singleton] at hx
      subst hx
      intro e
      have := (parseAlias_valid h1).2
      rw [e] at this; simp [isValidName] at this

theorem bundleAliases_ok {env : FEnv} {b : BCtx} {ms : List Field} {al0 al : List Alias} (h : bundleAliases env b ms al0 = .ok al) :
    ∃ ns, newAliases env ms ns (al0.filter fun a => ms.any fun m => m.name == a.fieldName) = .ok al ∧
      ns = getChildren b.node ["alias".toList] := by
  unfold bundleAliases at h
  split at h
  · rename_i e; exact ⟨[], by rw [newAliases]; exact h, e.symm⟩
  · rename_i n ns e
    split at h
    · simp at h
    · exact ⟨_, h, e.symm⟩

end CheckProofs

/-- C42, first half, for bundles: the path of every alias leads to an existing member, in all field objects. -/
theorem C42_resolvable (f : Field) (h : Obj f) : ∀ c ms al cd, f = .bundle c ms al cd →
    ∀ a ∈ al, ∃ comps, a.fieldName = joinDots comps ∧ Resolves ms comps := by
  refine (obj_hered (P := fun f => ∀ c ms al cd, f = .bundle c ms al cd → ∀ a ∈ al, AliasResolves ms a) ?_ ?_ ?_ f h).self
  · intro f hf c ms al cd e a ha
    cases f <;> simp [clone] at e
    obtain ⟨_, _, e, _⟩ := e
    subst e; simp at ha
  · intro s f hf c ms al cd e a ha
    cases f <;> simp [liftSince, Field.setSince, Field.setCommon] at e
    obtain ⟨_, rfl, rfl, _⟩ := e
    exact hf _ _ _ _ rfl a ha
  · intro env pc parent node f hf henv _ _ c ms al cd e a ha
    subst e
    obtain ⟨b, ms0, al0, cd0, hb, _, _, _, _, _, hal, _⟩ := bundle_inv hf
    obtain ⟨ns, h1, _⟩ := bundleAliases_ok hal
    obtain ⟨new, rfl, h2, _⟩ := newAliases_ok h1
    rcases List.mem_append.1 ha with ha | ha
    · have := (List.mem_filter.1 ha).2
      rw [List.any_eq_true] at this
      obtain ⟨m, hm, he⟩ := this
      simp only [beq_iff_eq] at he
      exact ⟨[m.name], he.symm, .here hm⟩
    · exact h2 a ha

/-- C42, second half, partial: in a bundle defined without `reuse` the name of an alias differs, even ignoring the case of the first letter,
    from the names of all members and of all other aliases. Missing: inherited aliases, which are not compared with new members. -/
theorem C42_unambiguous_partial (env : FEnv) (fuel : Nat) (parent : ParentInfo) (node : Xml) (c : Common) (ms : List Field) (al : List Alias)
    (cd : Option CondM.Cond) (h : parseField env fuel parent node = .ok (.bundle c ms al cd)) (props : Props)
    (hp : collectProps .bundle node = some props) (hr : props.find "reuse".toList = none) :
    (∀ a ∈ al, ∀ m ∈ ms, ¬ SameName a.name m.name) ∧ al.Pairwise fun a b => ¬ SameName b.name a.name := by
  obtain ⟨n, rfl, h⟩ := parseField_ok h
  obtain ⟨b, c', props', f1, f2, pr⟩ := parseStep_prep h
  have e := pr.coll
  simp only [Field.kind] at e
  rw [hp] at e
  cases e
  have hb := pr.body
  have hk2 := pr.kind2
  have hal0 : ∀ c2 ms2 al2 cd2, f2 = .bundle c2 ms2 al2 cd2 → al2 = [] := by
    intro c2 ms2 al2 cd2 e
    have e1 : f1 = initField env .bundle { inBitfield := parent.isBitfield } := by
      rcases checkReuse_ok pr.reuse with ⟨_, e⟩ | ⟨s', _, _, e1, _⟩
      · exact e
      · rw [hr] at e1; cases e1
    rcases pr.replaced with e2 | ⟨r, rs, _, _, e2⟩
    · rw [e1, e] at e2; simp only [initField] at e2; cases e2; rfl
    · rw [e1, e] at e2
      simp only [initField, replaceImpl] at e2
      simp only [Res.bind_eq_ok, Res.pure_eq] at e2
      obtain ⟨_, _, e2⟩ := e2
      cases e2; rfl
  cases f2 <;> simp [Field.kind] at hk2
  simp only [Field.setCommon, parseBody, bundleImpl, Res.bind_eq_ok, Res.pure_eq] at hb
  obtain ⟨ms', h1, al', h2, cd', h3, h4⟩ := hb
  cases h4
  rw [hal0 _ _ _ _ rfl] at h2
  obtain ⟨ns, h5, _⟩ := bundleAliases_ok h2
  obtain ⟨new, _, _, h6⟩ := newAliases_ok h5
  have h7 := newAliases_names h5 (by simp)
  have h6' : ∀ (i : Nat) (a : Alias), al[i]? = some a → verifyAlias (al.take i) ms a = true := fun i a ha => h6 i a (by simp) ha
  have chk : ∀ {l : List Alias} {a : Alias}, verifyAlias l ms a = true → a.name ≠ [] →
      (∀ m ∈ ms, ¬ SameName a.name m.name) ∧ ∀ x ∈ l, ¬ SameName a.name x.name := by
    intro l a hv ha
    unfold verifyAlias at hv
    split at hv
    · simp at hv
    · rename_i n1
      split at hv
      · simp at hv
      · rename_i n2
        constructor
        · intro m hm hs
          exact n1 (List.any_eq_true.2 ⟨m, hm, (sameAliasName_iff ha).2 hs⟩)
        · intro x hx hs
          exact n2 (List.any_eq_true.2 ⟨x, hx, (sameAliasName_iff ha).2 hs⟩)
  constructor
  · intro a ha
    obtain ⟨i, hi⟩ := List.getElem?_of_mem ha
    exact (chk (h6' i a hi) (h7 a ha)).1
  · rw [List.pairwise_iff_getElem]
    intro i j hi hj hij
    refine (chk (h6' j _ (List.getElem?_eq_getElem hj)) (h7 _ (List.getElem_mem _))).2 _ ?_
    rw [List.mem_take_iff_getElem]
    exact ⟨i, by omega, rfl⟩

open Sample in
/-- A bundle with two aliases, one of them for a member of a member. -/
example : ∃ c ms al cd, Accepted (.bundle c ms al cd) ∧ al.map Alias.fieldName = ["a".toList, "b.c".toList] := by
  obtain ⟨f, h1, h2⟩ := accepted env0_ok (parent := .top)
    (x := el "bundle" [("name", "b")] [el "members" [] [el "int" [("name", "a"), ("type", "uint8")],
        el "bitfield" [("name", "b")] [el "int" [("name", "c"), ("type", "uint8")]]],
      el "alias" [("name", "x"), ("field", "$a")], el "alias" [("name", "y"), ("field", "$b.c")]])
    (p := fun f => match f with | .bundle _ _ al _ => decide (al.map Alias.fieldName = ["a".toList, "b.c".toList]) | _ => false)
    (by decide +kernel)
  split at h2
  · exact ⟨_, _, _, _, h1, by simpa using h2⟩
  · simp at h2

open Sample in
/-- Refutation of the full second half: a bundle reuses one with the alias x and adds a member x. -/
theorem C42_ambiguous_witness : ∃ c ms al cd a m, Accepted (.bundle c ms al cd) ∧ a ∈ al ∧ m ∈ ms ∧ a.name = m.name := by
  obtain ⟨f, h1, h2⟩ := accepted (withGlobal_ok env0_ok "g" (el "bundle" [("name", "b")] [el "members" [] [el "int" [("name", "a"), ("type", "uint8")]],
      el "alias" [("name", "x"), ("field", "$a")]])) (parent := .top)
    (x := el "bundle" [("name", "b"), ("reuse", "g")] [el "int" [("name", "x"), ("type", "uint8")]])
    (p := fun f => match f with | .bundle _ ms al _ => al.any fun a => ms.any fun m => a.name == m.name | _ => false)
    (by decide +kernel)
  split at h2
  · rw [List.any_eq_true] at h2
    obtain ⟨a, ha, h2⟩ := h2
    rw [List.any_eq_true] at h2
    obtain ⟨m, hm, h2⟩ := h2
    exact ⟨_, _, _, _, a, m, h1, ha, hm, by simpa using h2⟩
  · simp at h2

/-! ## C43 -/

/-- C43 for bundles, partial: a bundle that reuses another one (without `reuseAliases="false"`) starts with exactly those aliases, in the same
    order, that denote a member it still has; further ones are the newly defined. Missing: aliases of members of members (paths with dots),
    which are never kept. -/
theorem C43_kept_partial (env : FEnv) (fuel : Nat) (parent : ParentInfo) (node : Xml) (c : Common) (ms : List Field) (al : List Alias)
    (cd : Option CondM.Cond) (h : parseField env fuel parent node = .ok (.bundle c ms al cd)) (props : Props)
    (hp : collectProps .bundle node = some props) (s : Str) (hs : props.find "reuse".toList = some s) (c0 : Common) (ms0 : List Field)
    (al0 : List Alias) (cd0 : Option CondM.Cond) (hg : env.findField s = some (.bundle c0 ms0 al0 cd0))
    (hra : props.find "reuseAliases".toList = none) (hdsl : Dsl.isSupported env.dsl .fieldAlias = true) :
    ∃ new, al = (al0.filter fun a => decide (∃ m ∈ ms, m.name = a.fieldName)) ++ new ∧
      (getChildren node ["alias".toList] = [] → new = []) := by
  obtain ⟨n, rfl, h⟩ := parseField_ok h
  obtain ⟨b, c', props', f1, f2, pr⟩ := parseStep_prep h
  have e := pr.coll
  simp only [Field.kind] at e
  rw [hp] at e
  cases e
  have hb := pr.body
  have hk2 := pr.kind2
  have hal0 : ∀ c2 ms2 al2 cd2, f2 = .bundle c2 ms2 al2 cd2 → al2 = al0 := by
    intro c2 ms2 al2 cd2 e
    have e1 : ∃ c3 ms3 cd3, f1 = .bundle c3 ms3 al0 cd3 := by
      rcases checkReuse_ok pr.reuse with ⟨e, _⟩ | ⟨s', g', code, e1, e2, _, _, e3⟩
      · rw [hs] at e; cases e
      · rw [hs] at e1; cases e1
        rw [hg] at e2; cases e2
        simp only [reuseImpl, Res.bind_eq_ok, Res.pure_eq] at e3
        obtain ⟨al', h5, e3⟩ := e3
        cases e3
        unfold reusedAliases at h5
        rw [hdsl] at h5
        simp only [Bool.not_true, Bool.false_eq_true, if_false, Res.bind_eq_ok] at h5
        obtain ⟨v, h6, h5⟩ := h5
        have : v = true := by
          unfold IntF.updateBool at h6
          rw [hra] at h6
          split at h6
          · simp at h6
          · simpa using h6.symm
        rw [this] at h5
        simp at h5
        exact ⟨_, _, _, by rw [← h5]⟩
    obtain ⟨c3, ms3, cd3, e1⟩ := e1
    rcases pr.replaced with e2 | ⟨r, rs, _, _, e2⟩
    · rw [e1, e] at e2; cases e2; rfl
    · rw [e1, e] at e2
      simp only [replaceImpl] at e2
      simp only [Res.bind_eq_ok, Res.pure_eq] at e2
      obtain ⟨_, _, e2⟩ := e2
      cases e2; rfl
  cases f2 <;> simp [Field.kind] at hk2
  simp only [Field.setCommon, parseBody, bundleImpl, Res.bind_eq_ok, Res.pure_eq] at hb
  obtain ⟨ms', h1, al', h2, cd', h3, h4⟩ := hb
  cases h4
  rw [hal0 _ _ _ _ rfl] at h2
  obtain ⟨ns, h5, hns⟩ := bundleAliases_ok h2
  obtain ⟨new, h8, _, _⟩ := newAliases_ok h5
  refine ⟨new, ?_, ?_⟩
  · rw [h8]
    congr 2
    funext a
    rw [Bool.eq_iff_iff]
    simp
  · intro h0
    have hnode : b.node = node := by rw [pr.ctx]; rfl
    rw [hnode] at hns
    rw [hns, h0] at h5
    rw [newAliases] at h5
    cases h5
    simpa using h8

open Sample in
/-- Refutation of the full C43: the alias y of b.c is lost although b is copied. -/
theorem C43_dotted_witness : ∃ c ms al cd c0 ms0 al0 cd0, Accepted (.bundle c ms al cd) ∧ Accepted (.bundle c0 ms0 al0 cd0) ∧
    al0.map Alias.fieldName = ["a".toList, "b.c".toList] ∧ al.map Alias.fieldName = ["a".toList] ∧
    ms.map Field.name = ms0.map Field.name := by
  let g := el "bundle" [("name", "b")] [el "members" [] [el "int" [("name", "a"), ("type", "uint8")],
        el "bitfield" [("name", "b")] [el "int" [("name", "c"), ("type", "uint8")]]],
      el "alias" [("name", "x"), ("field", "$a")], el "alias" [("name", "y"), ("field", "$b.c")]]
  obtain ⟨f, h1, h2⟩ := accepted env0_ok (parent := .top) (x := g)
    (p := fun f => match f with
      | .bundle _ ms al _ => decide (al.map Alias.fieldName = ["a".toList, "b.c".toList] ∧ ms.map Field.name = ["a".toList, "b".toList])
      | _ => false) (by decide +kernel)
  obtain ⟨f', h1', h2'⟩ := accepted (withGlobal_ok env0_ok "g" g) (parent := .top) (x := el "bundle" [("name", "z"), ("reuse", "g")])
    (p := fun f => match f with
      | .bundle _ ms al _ => decide (al.map Alias.fieldName = ["a".toList] ∧ ms.map Field.name = ["a".toList, "b".toList])
      | _ => false) (by decide +kernel)
  split at h2
  · split at h2'
    · simp only [decide_eq_true_eq] at h2 h2'
      exact ⟨_, _, _, _, _, _, _, _, h1', h1, h2.1, h2'.1, by rw [h2.2, h2'.2]⟩
    · simp at h2'
  · simp at h2

end Commsdsl.Props
