import Verif.Lemmas.FieldObj
import Verif.Lemmas.StrOrder
import Verif.Lemmas.Sample
import Verif.Spec.Seq
/-!
# Strings, data and lists (C63, C64, C65)
-/
namespace Commsdsl.Props
open Commsdsl Text Fld Spec

/-! ## C63: hexadecimal text -/

namespace HexProofs

theorem lt16 {c : Char} {v : Nat} (h : HexDig c v) : v < 16 := by
  rcases h with h | h
  · obtain ⟨h, _⟩ := List.getElem?_eq_some_iff.1 h; exact h
  · obtain ⟨h, _⟩ := List.getElem?_eq_some_iff.1 h; exact h

theorem digit_of {c : Char} {v : Nat} (h : HexDig c v) : isHexDigit c = true ∧ digitVal c = v := by
  have h16 := lt16 h
  have key : ∀ v : Fin 16, ∀ c : Char, HexDig c v → isHexDigit c = true ∧ digitVal c = v := by
    intro v c h
    unfold HexDig at h
    revert v
    intro v h
    rcases h with h | h
    all_goals
      have e := Option.some.inj (h.symm.trans (List.getElem?_eq_getElem (by exact v.isLt)))
      subst e
      revert v
      decide
  exact key ⟨v, h16⟩ c h

theorem isHex_cases {c : Char} (h : isHexDigit c = true) : HexDig c (digitVal c) := by
  have key : ∀ n : Fin 128, isHexDigit (Char.ofNat n) = true →
      ("0123456789abcdef".toList[digitVal (Char.ofNat n)]? = some (Char.ofNat n) ∨
       "0123456789ABCDEF".toList[digitVal (Char.ofNat n)]? = some (Char.ofNat n)) := by decide +kernel
  have hlt : c.toNat < 128 := by
    by_cases hu : isUpper c = true
    · simp only [isUpper, Bool.and_eq_true, decide_eq_true_eq, Char.le_def, UInt32.le_iff_toNat_le] at hu
      have : c.val.toNat ≤ 90 := hu.2
      show c.val.toNat < 128
      omega
    · simp only [isHexDigit, toLowerC, hu, Bool.false_eq_true, if_false, isDigit, Bool.or_eq_true, Bool.and_eq_true, decide_eq_true_eq,
        Char.le_def, UInt32.le_iff_toNat_le] at h
      have : c.val.toNat ≤ 102 := by
        rcases h with h | h
        · have : c.val.toNat ≤ 57 := h.2
          omega
        · exact h.2
      show c.val.toNat < 128
      omega
  have e : Char.ofNat c.toNat = c := Char.ofNat_toNat c
  have := key ⟨c.toNat, hlt⟩
  simp only [e] at this
  exact this h

theorem hex_spec (s : Str) (bs : List Nat) :
    (s.length % 2 = 0 ∧ s.all isHexDigit = true ∧ hexBytes s = bs) ↔ HexText bs s := by
  constructor
  · intro h
    have : ∀ (n : Nat) (s : Str) (bs : List Nat), s.length ≤ n → s.length % 2 = 0 → s.all isHexDigit = true → hexBytes s = bs → HexText bs s := by
      intro n
      induction n with
      | zero =>
        intro s bs h0 _ _ h
        have : s = [] := List.length_eq_zero_iff.1 (by omega)
        subst this
        simp only [hexBytes] at h
        subst h
        exact .nil
      | succ n ih =>
        intro s bs h0 h1 h2 h
        match s, h0, h1, h2, h with
        | [], _, _, _, h => simp only [hexBytes] at h; subst h; exact .nil
        | [a], _, h1, _, _ => simp at h1
        | a :: b :: r, h0, h1, h2, h =>
          simp only [hexBytes] at h
          subst h
          simp only [List.all_cons, Bool.and_eq_true] at h2
          have := HexText.cons (isHex_cases h2.1) (isHex_cases h2.2.1) (ih r _ (by simp at h0; omega) (by simp at h1; omega) h2.2.2 rfl)
          rwa [Nat.mul_comm] at this
    exact this s.length s bs (Nat.le_refl _) h.1 h.2.1 h.2.2
  · intro h
    induction h with
    | nil => exact ⟨rfl, rfl, rfl⟩
    | @cons a b x y bs r ha hb _ ih =>
      obtain ⟨i1, i2, i3⟩ := ih
      obtain ⟨a1, a2⟩ := digit_of ha
      obtain ⟨b1, b2⟩ := digit_of hb
      refine ⟨by simp; omega, by simp [a1, b1, i2], ?_⟩
      simp only [hexBytes, a2, b2, i3, Nat.mul_comm x 16]

end HexProofs

open HexProofs

/-- C63: the text of a `<data>` value is accepted iff without blanks it consists of pairs of hexadecimal digits, and its value is the bytes these
    pairs denote, in order. -/
theorem C63_exact (env : FEnv) (s : Str) (h : ∀ r, s ≠ '^' :: r) (bs : List Nat) :
    dataValue env s = some bs ↔ HexText bs (s.filter (· ≠ ' ')) := by
  have e : dataValue env s = hexValue s := by
    unfold dataValue
    split
    · rename_i r; exact absurd rfl (h r)
    · rfl
  rw [e, ← hex_spec]
  simp only [hexValue]
  have ef : s.filter (· != ' ') = s.filter (fun c => decide (c ≠ ' ')) := by congr 1; funext c; simp [bne, Bool.beq_eq_decide_eq]
  rw [ef]
  split
  · rename_i h1
    constructor
    · intro h; cases h
    · rintro ⟨h2, _⟩; exact absurd h2 h1
  · rename_i h1
    split
    · rename_i h2; simp only [Bool.not_eq_true'] at h2; rw [h2]; simp
    · rename_i h2
      simp only [Bool.not_eq_true', Bool.not_eq_false] at h2
      simp only [ne_eq, decide_not, Nat.mod_two_not_eq_zero, Option.some.injEq] at h1 h2 ⊢
      simp [h2]
      omega

/-- C63: all values are bytes. -/
theorem C63_bytes {bs : List Nat} {s : Str} (h : HexText bs s) : (∀ b ∈ bs, b < 256) ∧ s.length = 2 * bs.length := by
  induction h with
  | nil => simp
  | @cons a b x y bs r ha hb _ ih =>
    have := lt16 ha
    have := lt16 hb
    refine ⟨?_, by simp [ih.2]; omega⟩
    intro c hc
    rcases List.mem_cons.1 hc with rfl | hc
    · omega
    · exact ih.1 c hc

/-- C63: every sequence of bytes can be written. -/
theorem C63_writable (env : FEnv) (bs : List Nat) (h : ∀ b ∈ bs, b < 256) : ∃ s, dataValue env s = some bs := by
  have dig : ∀ n : Fin 16, ∃ c, c ≠ '^' ∧ c ≠ ' ' ∧ HexDig c n := by
    intro n
    refine ⟨"0123456789abcdef".toList[n.val]'(n.isLt), ?_, ?_, Or.inl (List.getElem?_eq_getElem _)⟩ <;> revert n <;> decide
  have : ∃ s, HexText bs s ∧ '^' ∉ s ∧ ' ' ∉ s := by
    induction bs with
    | nil => exact ⟨[], .nil, by simp, by simp⟩
    | cons b bs ih =>
      obtain ⟨s, hs, h1, h2⟩ := ih fun x hx => h x (by simp [hx])
      have hb := h b (by simp)
      obtain ⟨c, c1, c2, hc⟩ := dig ⟨b / 16, by omega⟩
      obtain ⟨d, d1, d2, hd⟩ := dig ⟨b % 16, by omega⟩
      refine ⟨c :: d :: s, ?_, ?_, ?_⟩
      · have := HexText.cons hc hd hs
        simp only at this
        rwa [Nat.div_add_mod] at this
      · simp only [List.mem_cons, not_or]; exact ⟨fun e => c1 e.symm, fun e => d1 e.symm, h1⟩
      · simp only [List.mem_cons, not_or]; exact ⟨fun e => c2 e.symm, fun e => d2 e.symm, h2⟩
  obtain ⟨s, hs, h1, h2⟩ := this
  refine ⟨s, (C63_exact env s ?_ bs).2 ?_⟩
  · rintro r rfl; simp at h1
  · rwa [List.filter_eq_self.2]
    intro c hc
    simp only [ne_eq, decide_eq_true_eq]
    rintro rfl
    exact h2 hc

open Sample in
/-- "01 aB ff" is 1, 171, 255; "abc" and "0g" are refused. -/
example : dataValue env0 "01 aB ff".toList = some [1, 171, 255] ∧ dataValue env0 "abc".toList = none ∧ dataValue env0 "0g".toList = none := by
  decide +kernel

/-! ## C64: valid values -/

namespace SeqProofs

theorem natLt_iff (a b : List Nat) : lexLt (fun a b => decide (a < b)) a b = true ↔ a < b := by
  induction a generalizing b with
  | nil => cases b <;> simp [lexLt]
  | cons x xs ih =>
    cases b with
    | nil => simp [lexLt]
    | cons y ys =>
      rw [List.cons_lt_cons_iff, lexLt]
      split
      · rename_i h; simp only [decide_eq_true_eq] at h; simp [h]
      · rename_i h
        simp only [decide_eq_true_eq] at h
        split
        · rename_i h2
          simp only [decide_eq_true_eq] at h2
          simp only [Bool.false_eq_true, h, false_or, false_iff, not_and]
          intro e; omega
        · rename_i h2
          simp only [decide_eq_true_eq] at h2
          have : x = y := by omega
          subst this
          simp [ih]

/-- The states of strings and data in all field objects. -/
def Sorted : Field → Prop
  | .string _ st _ => st.valid.Pairwise fun a b => ¬ b.1 < a.1
  | .data _ st _ => st.valid.Pairwise fun a b => ¬ b.1 < a.1
  | _ => True

theorem sorted_chars (v : List (Str × Nat × Nat)) :
    (sortBy (fun x y => lexLt (fun a b => decide (a < b)) x.1 y.1) v).Pairwise fun a b => ¬ b.1 < a.1 := by
  apply sortBy_pairwise _ (fun _ => True)
  · intro a b c _ _ _ h1 h2 h3
    by_cases h : a.1 < b.1
    · exact h2 (Msg.str_trans h3 h)
    · rw [Msg.str_total h h1] at h3; exact h2 h3
  · intro a b _ _ h h'; exact Msg.str_irrefl a.1 (Msg.str_trans ((Msg.strLt_iff a.1 b.1).1 h) h')
  · intro a b _ _ h h'
    have := (Msg.strLt_iff a.1 b.1).2 h'
    unfold Msg.strLt at this
    rw [h] at this
    cases this
  · intro _ _; trivial

theorem sorted_nats (v : List (List Nat × Nat × Nat)) :
    (sortBy (fun x y => lexLt (fun a b => decide (a < b)) x.1 y.1) v).Pairwise fun a b => ¬ b.1 < a.1 := by
  apply sortBy_pairwise _ (fun _ => True)
  · intro a b c _ _ _ h1 h2 h3
    by_cases h : a.1 < b.1
    · exact h2 (List.lt_trans h3 h)
    · rw [List.le_antisymm (List.not_lt.1 h1) (List.not_lt.1 h)] at h3; exact h2 h3
  · intro a b _ _ h h'; exact List.lt_irrefl a.1 (List.lt_trans ((natLt_iff a.1 b.1).1 h) h')
  · intro a b _ _ h h'
    have := (natLt_iff a.1 b.1).2 h'
    rw [h] at this
    cases this
  · intro _ _; trivial

theorem seqUpdateLength_valid {α : Type} {b : BCtx} {p : Slot Field} {st st' : SeqState α} (h : seqUpdateLength b p st = .ok st') :
    st'.valid = st.valid := by
  unfold seqUpdateLength at h
  split at h
  · cases h
  · split at h
    · cases h; rfl
    · split at h
      · cases h
      · split at h
        · cases h
        · split at h
          · cases h; rfl
          · split at h
            · cases h
            · split at h
              · cases h
              · cases h; rfl

theorem obj_sorted {f : Field} (h : Obj f) : Sorted f := by
  refine (obj_hered (P := Sorted) ?_ ?_ ?_ f h).self
  · intro f hf
    have := hf.self
    cases f <;> exact this
  · intro s f hf
    cases f <;> exact hf
  · intro env pc parent node f hf _ _ _
    cases f with
    | string c st p =>
      obtain ⟨b, st0, p0, _, h2⟩ := string_inv hf
      obtain ⟨_, _, _, _, _, _, v, e⟩ := stringImpl_frame h2
      have e' : st.valid = _ := e
      simp only [Sorted, e']
      exact sorted_chars v
    | data c st p =>
      obtain ⟨b, st0, p0, _, h2⟩ := data_inv hf
      obtain ⟨_, _, _, _, v, e⟩ := dataImpl_frame h2
      have e' : st.valid = _ := e
      simp only [Sorted, e']
      exact sorted_nats v
    | _ => trivial

end SeqProofs

open SeqProofs

/-- C64: the valid values of a string are listed in lexicographical order. -/
theorem C64_string_sorted (c : Common) (st : SeqState Char) (p : Slot Field) (h : Obj (.string c st p)) :
    st.valid.Pairwise fun a b => ¬ b.1 < a.1 := obj_sorted h

/-- C64: the valid values of data are listed in lexicographical order. -/
theorem C64_data_sorted (c : Common) (st : SeqState Nat) (p : Slot Field) (h : Obj (.data c st p)) :
    st.valid.Pairwise fun a b => ¬ b.1 < a.1 := obj_sorted h

namespace SeqProofs

section
variable {α : Type} {env : FEnv} {val : Str → Option (List α)} {b : BCtx}

theorem defaultValid_mem {st st' : SeqState α} (h : seqUpdateDefaultValid env.dsl val b st = .ok st') (v : List α × Nat × Nat) :
    v ∈ st'.valid ↔ v ∈ st.valid ∨ (Dsl.isSupported env.dsl .validValueInStringAndData = true ∧
      ∃ t, b.props.find "defaultValidValue".toList = some t ∧ val t = some v.1 ∧ v.2 = (b.ic.since, b.ic.depr)) := by
  unfold seqUpdateDefaultValid at h
  split at h
  · cases h
  · split at h
    · rename_i e; cases h; simp only [e]; simp
    · rename_i s e
      split at h
      · rename_i hd
        cases h
        simp only [Bool.not_eq_true'] at hd
        simp [hd]
      · rename_i hd
        simp only [Bool.not_eq_true', Bool.not_eq_false] at hd
        split at h
        · cases h
        · rename_i w hw
          cases h
          obtain ⟨v1, v2⟩ := v
          simp only [List.mem_append, List.mem_singleton, Prod.mk.injEq, hd, e, true_and, Option.some.injEq]
          constructor
          · rintro (h | ⟨rfl, rfl⟩)
            · exact Or.inl h
            · exact Or.inr ⟨_, rfl, hw, rfl⟩
          · rintro (h | ⟨t, rfl, h1, rfl⟩)
            · exact Or.inl h
            · rw [hw] at h1; cases h1; exact Or.inr ⟨rfl, rfl⟩

theorem attr_mem {st st' : SeqState α} (h : validAsAttr env.dsl val b st = .ok st') (v : List α × Nat × Nat) :
    v ∈ st'.valid ↔ v ∈ st.valid ∨ (Dsl.isSupported env.dsl .validValueInStringAndData = true ∧
      ∃ t, (nodeProps b.node).find "validValue".toList = some t ∧ val t = some v.1 ∧ v.2 = (b.ic.since, b.ic.depr)) := by
  unfold validAsAttr at h
  split at h
  · rename_i e; cases h; simp only [e]; simp
  · rename_i s e
    split at h
    · rename_i hd
      cases h
      simp only [Bool.not_eq_true'] at hd
      simp [hd]
    · rename_i hd
      simp only [Bool.not_eq_true', Bool.not_eq_false] at hd
      split at h
      · cases h
      · rename_i w hw
        cases h
        obtain ⟨v1, v2⟩ := v
        simp only [List.mem_append, List.mem_singleton, Prod.mk.injEq, hd, e, true_and, Option.some.injEq]
        constructor
        · rintro (h | ⟨rfl, rfl⟩)
          · exact Or.inl h
          · exact Or.inr ⟨_, rfl, hw, rfl⟩
        · rintro (h | ⟨t, rfl, h1, rfl⟩)
          · exact Or.inl h
          · rw [hw] at h1; cases h1; exact Or.inr ⟨rfl, rfl⟩

theorem child_mem {ch : Xml} {st st' : SeqState α} (h : validAsChild env val b ch st = .ok st') (v : List α × Nat × Nat) :
    v ∈ st'.valid ↔ v ∈ st.valid ∨ (Dsl.isSupported env.dsl .validValueInStringAndData = true ∧
      ∃ t, nodeValue ch = some t ∧ val t = some v.1 ∧ Versions.getAndCheckNode env.int.schemaVersion ch b.ic.since b.ic.depr = some v.2) := by
  simp only [validAsChild, Res.bind_eq_ok] at h
  obtain ⟨s, h1, h⟩ := h
  have h1 := Res.ofOption_eq_ok.1 h1
  split at h
  · rename_i hd
    cases h
    simp only [Bool.not_eq_true'] at hd
    simp [hd]
  · rename_i hd
    simp only [Bool.not_eq_true', Bool.not_eq_false] at hd
    simp only [Res.bind_eq_ok, Res.pure_eq] at h
    obtain ⟨w, hw, ⟨s', d'⟩, hv, h⟩ := h
    have hw := Res.ofOption_eq_ok.1 hw
    have hv := Res.ofOption_eq_ok.1 hv
    cases h
    obtain ⟨v1, v2⟩ := v
    simp only [List.mem_append, List.mem_singleton, Prod.mk.injEq, hd, true_and, h1, hv, Option.some.injEq]
    constructor
    · rintro (h | ⟨rfl, rfl⟩)
      · exact Or.inl h
      · exact Or.inr ⟨_, rfl, hw, rfl⟩
    · rintro (h | ⟨t, rfl, h2, rfl⟩)
      · exact Or.inl h
      · rw [hw] at h2; cases h2; exact Or.inr ⟨rfl, rfl⟩

theorem children_mem {ns : List Xml} {st st' : SeqState α} (h : validChildren env val b ns st = .ok st') (v : List α × Nat × Nat) :
    v ∈ st'.valid ↔ v ∈ st.valid ∨ (Dsl.isSupported env.dsl .validValueInStringAndData = true ∧
      ∃ ch t, ch ∈ ns ∧ nodeValue ch = some t ∧ val t = some v.1 ∧
        Versions.getAndCheckNode env.int.schemaVersion ch b.ic.since b.ic.depr = some v.2) := by
  induction ns generalizing st with
  | nil => cases h; simp
  | cons n ns ih =>
    simp only [validChildren, Res.bind_eq_ok] at h
    obtain ⟨s1, h1, h2⟩ := h
    rw [ih h2, child_mem h1]
    simp only [List.mem_cons]
    constructor
    · rintro ((h | ⟨hd, t, h⟩) | ⟨hd, ch, t, hc, h⟩)
      · exact Or.inl h
      · exact Or.inr ⟨hd, n, t, Or.inl rfl, h⟩
      · exact Or.inr ⟨hd, ch, t, Or.inr hc, h⟩
    · rintro (h | ⟨hd, ch, t, rfl | hc, h⟩)
      · exact Or.inl (Or.inl h)
      · exact Or.inl (Or.inr ⟨hd, t, h⟩)
      · exact Or.inr ⟨hd, ch, t, hc, h⟩

theorem valid_mem {lt : α → α → Bool} {st st' st'' : SeqState α} (h1 : seqUpdateDefaultValid env.dsl val b st = .ok st')
    (h2 : seqUpdateValid env val lt b st' = .ok st'') (v : List α × Nat × Nat) :
    v ∈ st''.valid ↔ v ∈ st.valid ∨ DeclaredValid env val b.node b.props b.ic.since b.ic.depr v := by
  simp only [seqUpdateValid, Res.bind_eq_ok, Res.pure_eq] at h2
  obtain ⟨s1, h3, s2, h4, h5⟩ := h2
  cases h5
  rw [mem_sortBy, children_mem h4, attr_mem h3, defaultValid_mem h1]
  unfold DeclaredValid
  constructor
  · rintro (((h | ⟨hd, t, h, h'⟩) | ⟨hd, t, h, h'⟩) | ⟨hd, h⟩)
    · exact Or.inl h
    · exact Or.inr ⟨hd, Or.inl ⟨t, Or.inl h, h'⟩⟩
    · exact Or.inr ⟨hd, Or.inl ⟨t, Or.inr h, h'⟩⟩
    · exact Or.inr ⟨hd, Or.inr h⟩
  · rintro (h | ⟨hd, ⟨t, h | h, h'⟩ | h⟩)
    · exact Or.inl (Or.inl (Or.inl h))
    · exact Or.inl (Or.inl (Or.inr ⟨hd, t, h, h'⟩))
    · exact Or.inl (Or.inr ⟨hd, t, h, h'⟩)
    · exact Or.inr ⟨hd, h⟩

end

theorem base_string {env : FEnv} {pc : ParentInfo → Xml → Res Field} {parent : ParentInfo} {node : Xml} {c : Common} {st : SeqState Char}
    {p : Slot Field} (h : parseStep env pc parent node = .ok (.string c st p)) :
    ∃ (props : Props) (b : BCtx) (st0 : SeqState Char) (p0 : Slot Field), collectProps .string node = some props ∧ b.node = node ∧
      b.props = props ∧ b.ic.since = c.w.since ∧ b.ic.depr = c.w.depr ∧ stringImpl env b st0 p0 = .ok (st, p) ∧
      ((props.find "reuse".toList = none ∧ st0 = {} ∧ p0 = .none) ∨
        ∃ s c0 p1, props.find "reuse".toList = some s ∧ env.findField s = some (.string c0 st0 p1) ∧ p0 = cloneSlot p1) := by
  obtain ⟨b, c', props, f1, f2, hp⟩ := parseStep_prep h
  have e2 : f2 = f1 := by
    rcases hp.replaced with h | ⟨r, rs, _, _, h⟩
    · exact h
    · have := hp.kind1
      cases f1 <;> simp [Field.kind] at this; simp [replaceImpl] at h
  subst e2
  have hk := hp.kind2
  cases f2 <;> simp [Field.kind] at hk
  rename_i c2 st0 p0
  have hc := (parseBody_common hp.body).2.2.2 (by simp [Field.setCommon, Field.kind])
  simp only [Field.setCommon, Field.common] at hc
  subst hc
  have hb := hp.body
  simp only [Field.setCommon, parseBody, Res.bind_eq_ok, Res.pure_eq] at hb
  obtain ⟨x, h1, h2⟩ := hb
  cases h2
  have hctx := hp.ctx
  refine ⟨props, b, st0, p0, hp.coll, by rw [hctx]; rfl, by rw [hctx]; rfl, by rw [hctx]; rfl, by rw [hctx]; rfl, h1, ?_⟩
  rcases checkReuse_ok hp.reuse with ⟨h3, h4⟩ | ⟨s, g, code, h3, hg, hgk, _, hr⟩
  · simp only [Field.kind, initField] at h4
    cases h4; exact Or.inl ⟨h3, rfl, rfl⟩
  · cases g <;> simp [Field.kind] at hgk
    simp only [reuseImpl] at hr
    cases hr
    exact Or.inr ⟨s, _, _, h3, hg, rfl⟩

theorem base_data {env : FEnv} {pc : ParentInfo → Xml → Res Field} {parent : ParentInfo} {node : Xml} {c : Common} {st : SeqState Nat}
    {p : Slot Field} (h : parseStep env pc parent node = .ok (.data c st p)) :
    ∃ (props : Props) (b : BCtx) (st0 : SeqState Nat) (p0 : Slot Field), collectProps .data node = some props ∧ b.node = node ∧
      b.props = props ∧ b.ic.since = c.w.since ∧ b.ic.depr = c.w.depr ∧ dataImpl env b st0 p0 = .ok (st, p) ∧
      ((props.find "reuse".toList = none ∧ st0 = {} ∧ p0 = .none) ∨
        ∃ s c0 p1, props.find "reuse".toList = some s ∧ env.findField s = some (.data c0 st0 p1) ∧ p0 = cloneSlot p1) := by
  obtain ⟨b, c', props, f1, f2, hp⟩ := parseStep_prep h
  have e2 : f2 = f1 := by
    rcases hp.replaced with h | ⟨r, rs, _, _, h⟩
    · exact h
    · have := hp.kind1
      cases f1 <;> simp [Field.kind] at this; simp [replaceImpl] at h
  subst e2
  have hk := hp.kind2
  cases f2 <;> simp [Field.kind] at hk
  rename_i c2 st0 p0
  have hc := (parseBody_common hp.body).2.2.2 (by simp [Field.setCommon, Field.kind])
  simp only [Field.setCommon, Field.common] at hc
  subst hc
  have hb := hp.body
  simp only [Field.setCommon, parseBody, Res.bind_eq_ok, Res.pure_eq] at hb
  obtain ⟨x, h1, h2⟩ := hb
  cases h2
  have hctx := hp.ctx
  refine ⟨props, b, st0, p0, hp.coll, by rw [hctx]; rfl, by rw [hctx]; rfl, by rw [hctx]; rfl, by rw [hctx]; rfl, h1, ?_⟩
  rcases checkReuse_ok hp.reuse with ⟨h3, h4⟩ | ⟨s, g, code, h3, hg, hgk, _, hr⟩
  · simp only [Field.kind, initField] at h4
    cases h4; exact Or.inl ⟨h3, rfl, rfl⟩
  · cases g <;> simp [Field.kind] at hgk
    simp only [reuseImpl] at hr
    cases hr
    exact Or.inr ⟨s, _, _, h3, hg, rfl⟩

end SeqProofs

/-- C64: the valid values of a string are exactly those of the reused string and those declared in the definition, with their versions. -/
theorem C64_string_declared (env : FEnv) (fuel : Nat) (parent : ParentInfo) (node : Xml) (c : Common) (st : SeqState Char) (p : Slot Field)
    (h : parseField env fuel parent node = .ok (.string c st p)) : ∃ props, collectProps .string node = some props ∧ ∀ v, v ∈ st.valid ↔
      (∃ s c0 st0 p0, props.find "reuse".toList = some s ∧ env.findField s = some (.string c0 st0 p0) ∧ v ∈ st0.valid) ∨
      DeclaredValid env (stringValue env) node props c.w.since c.w.depr v := by
  obtain ⟨n, rfl, h⟩ := parseField_ok h
  obtain ⟨props, b, st0, p0, hc, e1, e2, e3, e4, hi, hr⟩ := base_string h
  refine ⟨props, hc, ?_⟩
  intro v
  simp only [stringImpl, Res.bind_eq_ok, Res.pure_eq] at hi
  obtain ⟨st1, h1, st2, h2, ⟨st3, p3⟩, h3, st4, h4, st5, h5, st6, h6, st7, h7, hi⟩ := hi
  cases hi
  rw [valid_mem h6 h7, e1, e2, e3, e4]
  have hv : st5.valid = st0.valid := by
    obtain ⟨e, rfl⟩ := updateEncoding_len h1
    obtain ⟨d, rfl, _⟩ := seqUpdatePrefix_frame h3
    obtain ⟨z, rfl, _⟩ := updateZeroTerm_frame h4
    obtain ⟨df, rfl⟩ := seqUpdateDefault_frame h5
    have := seqUpdateLength_valid h2
    exact this
  rw [hv]
  rcases hr with ⟨hr, rfl, rfl⟩ | ⟨s, c0, p1, hr, hg, _⟩
  · simp only [hr, reduceCtorEq, false_and, exists_false, false_or]
    exact ⟨fun h => h.resolve_left (fun h => nomatch h), Or.inr⟩
  · simp only [hr, Option.some.injEq]
    constructor
    · rintro (h | h)
      · exact Or.inl ⟨s, c0, st0, p1, rfl, hg, h⟩
      · exact Or.inr h
    · rintro (⟨s', c0', st0', p0', rfl, hg', h⟩ | h)
      · rw [hg] at hg'; cases hg'; exact Or.inl h
      · exact Or.inr h

/-- C64: the valid values of data are exactly those of the reused field and those declared in the definition, with their versions. -/
theorem C64_data_declared (env : FEnv) (fuel : Nat) (parent : ParentInfo) (node : Xml) (c : Common) (st : SeqState Nat) (p : Slot Field)
    (h : parseField env fuel parent node = .ok (.data c st p)) : ∃ props, collectProps .data node = some props ∧ ∀ v, v ∈ st.valid ↔
      (∃ s c0 st0 p0, props.find "reuse".toList = some s ∧ env.findField s = some (.data c0 st0 p0) ∧ v ∈ st0.valid) ∨
      DeclaredValid env (dataValue env) node props c.w.since c.w.depr v := by
  obtain ⟨n, rfl, h⟩ := parseField_ok h
  obtain ⟨props, b, st0, p0, hc, e1, e2, e3, e4, hi, hr⟩ := base_data h
  refine ⟨props, hc, ?_⟩
  intro v
  simp only [dataImpl, Res.bind_eq_ok, Res.pure_eq] at hi
  obtain ⟨st2, h2, ⟨st3, p3⟩, h3, st5, h5, st6, h6, st7, h7, hi⟩ := hi
  cases hi
  rw [valid_mem h6 h7, e1, e2, e3, e4]
  have hv : st5.valid = st0.valid := by
    obtain ⟨d, rfl, _⟩ := seqUpdatePrefix_frame h3
    obtain ⟨df, rfl⟩ := seqUpdateDefault_frame h5
    have := seqUpdateLength_valid h2
    exact this
  rw [hv]
  rcases hr with ⟨hr, rfl, rfl⟩ | ⟨s, c0, p1, hr, hg, _⟩
  · simp only [hr, reduceCtorEq, false_and, exists_false, false_or]
    exact ⟨fun h => h.resolve_left (fun h => nomatch h), Or.inr⟩
  · simp only [hr, Option.some.injEq]
    constructor
    · rintro (h | h)
      · exact Or.inl ⟨s, c0, st0, p1, rfl, hg, h⟩
      · exact Or.inr h
    · rintro (⟨s', c0', st0', p0', rfl, hg', h⟩ | h)
      · rw [hg] at hg'; cases hg'; exact Or.inl h
      · exact Or.inr h

open Sample in
/-- Three valid values declared in three ways. -/
example : ∃ f, Accepted f ∧ ∃ c st p, f = .string c st p ∧
    st.valid = [("a".toList, 0, 4294967295), ("b".toList, 2, 4294967295), ("c".toList, 0, 4294967295)] := by
  obtain ⟨f, h1, h2⟩ := accepted env0_ok (parent := .top) (x := el "string" [("name", "s"), ("validValue", "c"), ("defaultValidValue", "a")] [
      el "validValue" [("value", "b"), ("sinceVersion", "2")]])
    (p := fun f => match f with
      | .string _ st _ => st.valid == [("a".toList, 0, 4294967295), ("b".toList, 2, 4294967295), ("c".toList, 0, 4294967295)]
      | _ => false) (by decide +kernel)
  split at h2
  · rename_i c st p; exact ⟨_, h1, c, st, p, rfl, by simpa using h2⟩
  · cases h2

/-! ## C65: one way to tell the end -/

namespace SeqProofs

/-- The states of strings, data and lists in all field objects. -/
def OneEnd : Field → Prop
  | .string _ st p => AtMostOne (seqEnds st p)
  | .data _ st p => AtMostOne (seqEnds st p) ∧ st.zeroSuffix = false
  | .list _ st _ cn l _ t => AtMostOne (listEnds st cn l t)
  | _ => True

theorem seqEnds_iff {α : Type} (st : SeqState α) (p : Slot Field) : AtMostOne (seqEnds st p) ↔
    ¬ (st.length ≠ 0 ∧ p.has = true) ∧ ¬ (st.length ≠ 0 ∧ st.zeroSuffix = true) ∧ ¬ (p.has = true ∧ st.zeroSuffix = true) := by
  simp only [AtMostOne, seqEnds, List.pairwise_cons, List.mem_cons, List.not_mem_nil, or_false, forall_eq_or_imp, forall_eq, false_imp_iff,
    implies_true, List.Pairwise.nil, and_true]
  constructor
  · rintro ⟨⟨a, b⟩, c⟩; exact ⟨a, b, c⟩
  · rintro ⟨a, b, c⟩; exact ⟨⟨a, b⟩, c⟩

theorem listEnds_iff (st : ListState) (cn l t : Slot Field) : AtMostOne (listEnds st cn l t) ↔
    (¬ (st.count ≠ 0 ∧ given cn st.detachedCount = true) ∧ ¬ (st.count ≠ 0 ∧ given l st.detachedLen = true) ∧
      ¬ (st.count ≠ 0 ∧ given t st.detachedTerm = true)) ∧
    (¬ (given cn st.detachedCount = true ∧ given l st.detachedLen = true) ∧ ¬ (given cn st.detachedCount = true ∧ given t st.detachedTerm = true)) ∧
      ¬ (given l st.detachedLen = true ∧ given t st.detachedTerm = true) := by
  have e : ∀ (s : Slot Field) (d : Str), (s.has = true ∨ d ≠ []) ↔ given s d = true := by
    intro s d; unfold given; cases d <;> simp
  simp only [AtMostOne, listEnds, e, List.pairwise_cons, List.mem_cons, List.not_mem_nil, or_false, forall_eq_or_imp, forall_eq, false_imp_iff,
    implies_true, List.Pairwise.nil, and_true]

theorem length_kept {α : Type} {b : BCtx} {p : Slot Field} {st st' : SeqState α} (h : seqUpdateLength b p st = .ok st') :
    st'.length = st.length ∨ (p.has = false ∧ st.zeroSuffix = false) := by
  unfold seqUpdateLength at h
  split at h
  · cases h
  · split at h
    · cases h; exact Or.inl rfl
    · split at h
      · cases h
      · split at h
        · cases h
        · split at h
          · cases h; exact Or.inl rfl
          · split at h
            · cases h
            · split at h
              · cases h
              · rename_i h1 h2
                exact Or.inr ⟨by simpa using h1, by simpa using h2⟩

theorem given_clone (s : Slot Field) (d : Str) : given (cloneSlot s) d = given s d := by unfold given; rw [cloneSlot_has]

theorem list_step {env : FEnv} {b : BCtx} {st st' : ListState} {sl sl' : ListSlots} (h : listImpl env b st sl = .ok (st', sl'))
    (h0 : AtMostOne (listEnds st sl.cnt sl.len sl.term)) : AtMostOne (listEnds st' sl'.cnt sl'.len sl'.term) := by
  obtain ⟨e', st1, x2, x3, st4, x5, q1, q2, q3, q4, q5, q6, q7⟩ := listImpl_ok h
  rw [listEnds_iff] at h0
  have h1 : AtMostOne (listEnds st1 sl.cnt sl.len sl.term) := by
    rw [listEnds_iff]
    obtain ⟨n, rfl, hn⟩ := updateCount_frame q2
    rcases hn with rfl | ⟨_, _, a, b, c, d, e, _, g⟩
    · exact h0
    · simp only at a b c
      simp [given, a, b, c, d, e, g]
  rw [listEnds_iff] at h1
  have h2 : AtMostOne (listEnds x2.1 x2.2.cnt x2.2.len x2.2.term) := by
    simp only [updateCountPrefix, Res.bind_eq_ok, Res.pure_eq] at q3
    obtain ⟨p, _, _, hck, e⟩ := q3
    cases e
    have hck := Res.check_ok hck
    rw [listEnds_iff]
    dsimp only at hck ⊢
    cases hg : given p.slot p.detached
    · simp only [hg] at hck ⊢
      exact ⟨⟨by simp, h1.1.2⟩, ⟨by simp, by simp⟩, h1.2.2⟩
    · simp only [hg, Bool.not_true, Bool.false_or, Bool.and_eq_true, decide_eq_true_eq, Bool.not_eq_true'] at hck
      obtain ⟨⟨a, b⟩, c⟩ := hck
      simp [a, b, c]
  rw [listEnds_iff] at h2
  have h3 : AtMostOne (listEnds x3.1 x3.2.cnt x3.2.len x3.2.term) := by
    simp only [updateLengthPrefix, Res.bind_eq_ok, Res.pure_eq] at q4
    obtain ⟨p, _, _, hck, e⟩ := q4
    cases e
    have hck := Res.check_ok hck
    rw [listEnds_iff]
    dsimp only at hck ⊢
    cases hg : given p.slot p.detached
    · simp only [hg] at hck ⊢
      exact ⟨⟨h2.1.1, by simp, h2.1.2.2⟩, ⟨by simp, h2.2.1.2⟩, by simp⟩
    · simp only [hg, Bool.not_true, Bool.false_or, Bool.and_eq_true, decide_eq_true_eq, Bool.not_eq_true'] at hck
      obtain ⟨⟨a, b⟩, c⟩ := hck
      simp [a, b, c]
  have h5 : AtMostOne (listEnds x5.1 x5.2.cnt x5.2.len x5.2.term) := by
    obtain ⟨v, rfl, _⟩ := updateElemFixed_frame q5
    obtain ⟨p5, _, rfl⟩ := updateElemLenPrefix_ok q6
    exact h3
  rw [listEnds_iff] at h5
  simp only [updateTermSuffix, Res.bind_eq_ok] at q7
  obtain ⟨p, _, q7⟩ := q7
  split at q7
  · cases q7
    rw [listEnds_iff]
    have : given .none [] = false := rfl
    simp only [this]
    exact ⟨⟨h5.1.1, h5.1.2.1, by simp⟩, ⟨h5.2.1.1, by simp⟩, by simp⟩
  · simp only [Res.bind_eq_ok, Res.pure_eq] at q7
    obtain ⟨_, hck, e⟩ := q7
    cases e
    have hck := Res.check_ok hck
    rw [listEnds_iff]
    dsimp only at hck ⊢
    cases hg : given p.slot p.detached
    · simp only [hg] at hck ⊢
      exact ⟨⟨h5.1.1, h5.1.2.1, by simp⟩, ⟨h5.2.1.1, by simp⟩, by simp⟩
    · simp only [hg, Bool.not_true, Bool.false_or, Bool.and_eq_true, decide_eq_true_eq, Bool.not_eq_true'] at hck
      obtain ⟨⟨a, b⟩, c⟩ := hck
      simp [a, b, c]

theorem obj_oneEnd {f : Field} (h : Obj f) : OneEnd f := by
  refine (obj_hered (P := OneEnd) ?_ ?_ ?_ f h).self
  · intro f hf
    have := hf.self
    cases f <;> simp only [OneEnd, clone, seqEnds_iff, listEnds_iff, cloneSlot_has, given_clone] at this ⊢ <;> exact this
  · intro s f hf
    cases f <;> exact hf
  · intro env pc parent node f hf henv _ _
    cases f with
    | string c st p =>
      obtain ⟨b, st0, p0, h1, h2⟩ := string_inv hf
      obtain ⟨s1, hl, ⟨e, rfl⟩, _, hp, hz, _⟩ := stringImpl_frame h2
      have h0 : AtMostOne (seqEnds st0 p0) := by
        rcases h1 with ⟨rfl, rfl⟩ | ⟨s, c0, p1, h1, rfl⟩
        · rw [seqEnds_iff]; simp [Slot.has]
        · have := (henv _ _ h1).self
          simp only [OneEnd, seqEnds_iff, cloneSlot_has] at this ⊢
          exact this
      have hk := length_kept hl
      simp only at hk hp hz
      simp only [OneEnd, seqEnds_iff] at h0 ⊢
      refine ⟨fun h => h.1 (hp h.2).1, ?_, ?_⟩
      · rintro ⟨ha, hb⟩
        rcases hz hb with hz | hz
        · rcases hk with hk | hk
          · exact h0.2.1 ⟨by rw [← hk]; exact ha, hz⟩
          · rw [hk.2] at hz; cases hz
        · exact ha hz.1
      · rintro ⟨ha, hb⟩
        rcases hz hb with hz | hz
        · rw [(hp ha).2] at hz; cases hz
        · rw [hz.2] at ha; cases ha
    | data c st p =>
      obtain ⟨b, st0, p0, h1, h2⟩ := data_inv hf
      obtain ⟨hl, hzz, _, hp, _⟩ := dataImpl_frame h2
      have h0 : st0.zeroSuffix = false := by
        rcases h1 with ⟨rfl, rfl⟩ | ⟨s, c0, p1, h1, rfl⟩
        · rfl
        · exact (henv _ _ h1).self.2
      simp only at hzz hp
      have hz : st.zeroSuffix = false := hzz.trans h0
      refine ⟨?_, hz⟩
      rw [seqEnds_iff, hz]
      simp only [Bool.false_eq_true, and_false, not_false_eq_true, and_true]
      exact fun h => h.1 (hp h.2)
    | list c st e cn l el t =>
      obtain ⟨b, st0, sl, h1, h2⟩ := list_inv hf
      have h0 : AtMostOne (listEnds st0 sl.cnt sl.len sl.term) := by
        rcases h1 with ⟨rfl, rfl⟩ | ⟨s, c0, e1, c1, l1, el1, t1, h1, rfl⟩
        · rw [listEnds_iff]; have hg : given Slot.none [] = false := rfl; simp [hg]
        · have := (henv _ _ h1).self
          simp only [OneEnd, listEnds_iff, given_clone] at this ⊢
          exact this
      exact list_step h2 h0
    | _ => trivial

end SeqProofs

/-- C65, strings: at most one of fixed length, length prefix (a field) and zero termination. -/
theorem C65_string_partial (c : Common) (st : SeqState Char) (p : Slot Field) (h : Obj (.string c st p)) : AtMostOne (seqEnds st p) := obj_oneEnd h

/-- C65, data: at most one of fixed length and length prefix (a field). -/
theorem C65_data_partial (c : Common) (st : SeqState Nat) (p : Slot Field) (h : Obj (.data c st p)) : AtMostOne (seqEnds st p) := (obj_oneEnd h).1

/-- C65, lists: at most one of fixed count, count prefix, length prefix and termination suffix, detached or not. -/
theorem C65_list (c : Common) (st : ListState) (e cn l el t : Slot Field) (h : Obj (.list c st e cn l el t)) : AtMostOne (listEnds st cn l t) :=
  obj_oneEnd h

open Sample in
/-- C65 is false for detached prefixes of strings: a string with a fixed length and a detached length prefix. -/
theorem C65_detached_witness : ∃ f m, Accepted f ∧ m ∈ f.members ∧ ∃ c st p, m = .string c st p ∧ st.length = 5 ∧ st.detached = "i".toList := by
  obtain ⟨f, h1, h2⟩ := accepted env0_ok (parent := .top) (x := el "bundle" [("name", "b")] [
      el "int" [("name", "i"), ("type", "uint8")], el "string" [("name", "s"), ("length", "5"), ("lengthPrefix", "$i")]])
    (p := fun f => f.members.any fun m => match m with | .string _ st _ => st.length == 5 && st.detached == "i".toList | _ => false)
    (by decide +kernel)
  simp only [List.any_eq_true] at h2
  obtain ⟨m, hm, h3⟩ := h2
  refine ⟨f, m, h1, hm, ?_⟩
  split at h3
  · simp only [Bool.and_eq_true, beq_iff_eq] at h3
    exact ⟨_, _, _, rfl, h3⟩
  · cases h3

open Sample in
/-- A list with a count prefix. -/
example : ∃ f, Accepted f ∧ ∃ c st e cn l el t, f = .list c st e cn l el t ∧ cn.has = true := by
  obtain ⟨f, h1, h2⟩ := accepted env0_ok (parent := .top) (x := el "list" [("name", "l")] [
      el "element" [] [el "int" [("name", "i"), ("type", "uint8")]], el "countPrefix" [] [el "int" [("name", "n"), ("type", "uint8")]]])
    (p := fun f => match f with | .list _ _ _ cn _ _ _ => cn.has | _ => false) (by decide +kernel)
  split at h2
  · exact ⟨_, h1, _, _, _, _, _, _, _, rfl, h2⟩
  · cases h2

/-- C65: elements of a list said to have a fixed length have one. -/
theorem C65_fixed_elements (env : FEnv) (fuel : Nat) (parent : ParentInfo) (node : Xml) (c : Common) (st : ListState) (e cn l el t : Slot Field)
    (h : parseField env fuel parent node = .ok (.list c st e cn l el t)) (hf : st.elemFixedLength = true) :
    ∃ f n, e.toList = [f] ∧ Fld.minLength f = .ok n ∧ Fld.maxLength f = .ok n := by
  obtain ⟨k, rfl, h⟩ := parseField_ok h
  obtain ⟨b, st0, sl, _, h2⟩ := list_inv h
  obtain ⟨e', st1, x2, x3, st4, x5, q1, q2, q3, q4, q5, q6, q7⟩ := listImpl_ok h2
  obtain ⟨p2, _, rfl⟩ := updateCountPrefix_ok q3
  obtain ⟨p3, _, rfl⟩ := updateLengthPrefix_ok q4
  obtain ⟨v, rfl, hv⟩ := updateElemFixed_frame q5
  obtain ⟨p5, _, rfl⟩ := updateElemLenPrefix_ok q6
  obtain ⟨p7, _, q8⟩ := updateTermSuffix_ok q7
  have he : e = e' ∧ v = true := by rcases q8 with q8 | q8 <;> (cases q8; exact ⟨rfl, hf⟩)
  obtain ⟨rfl, hv'⟩ := he
  obtain ⟨n, h3, h4⟩ := hv hv'
  simp only at h3 h4
  cases e with
  | none => simp [minOrUb] at h3
  | ext f => exact ⟨f, n, rfl, by simpa [minOrUb] using h3, by simpa [maxOrUb] using h4⟩
  | own f => exact ⟨f, n, rfl, by simpa [minOrUb] using h3, by simpa [maxOrUb] using h4⟩

end Commsdsl.Props
