import Verif.Spec.GenSeq
import Verif.Props.FieldSeq
import Verif.Props.GenText
import Verif.Props.GenLines
import Verif.Props.GenRead
import Verif.Lemmas.GenSchema
import Verif.Lemmas.GenMsgs
/-!
# Values of strings and data in the generated code (C118, C119)
-/
namespace Commsdsl.Props
open Commsdsl Text Fld Gen Spec

namespace GenSeqProofs

theorem chars_length {s v : Str} (h : CppChars s v) : v.length ≤ s.length := by
  induction h with
  | nil => simp
  | plain _ _ _ _ ih => simp; exact ih
  | escape _ _ ih => simp; omega

theorem plain_self {s : Str} (h : PlainText s) : CppChars s s := by
  induction s with
  | nil => exact .nil
  | cons c s ih =>
    have := h c (by simp)
    exact .plain this.1 this.2.1 this.2.2 (ih fun d hd => h d (by simp [hd]))

theorem plain_only {s v : Str} (hc : CppChars s v) (h : PlainText s) : v = s := by
  induction hc with
  | nil => rfl
  | plain _ _ _ _ ih => rw [ih fun d hd => h d (by simp [hd])]
  | escape => exact absurd rfl (h '\\' (by simp)).2.1

theorem self_plain {s v : Str} (h : CppChars s v) (hl : v.length = s.length) : PlainText s := by
  induction h with
  | nil => intro c hc; cases hc
  | plain h1 h2 h3 _ ih =>
    intro d hd
    rcases List.mem_cons.1 hd with rfl | hd
    · exact ⟨h1, h2, h3⟩
    · exact ih (by simpa using hl) d hd
  | escape _ hs _ => have := chars_length hs; simp at hl; omega

theorem quoted_iff {s v : Str} : CppString (quoted s) v ↔ CppChars s v := by
  unfold CppString quoted
  constructor
  · rintro ⟨b, e, h⟩
    have e := List.append_cancel_right (List.cons.inj e).2
    rw [e]; exact h
  · intro h; exact ⟨s, rfl, h⟩

theorem quoted_plain {s v : Str} (h : PlainText s) : CppString (quoted s) v ↔ v = s := by
  rw [quoted_iff]
  exact ⟨fun hc => plain_only hc h, fun e => by rw [e]; exact plain_self h⟩

theorem quoted_self {s : Str} : CppString (quoted s) s ↔ PlainText s := by
  rw [quoted_iff]
  exact ⟨fun h => self_plain h rfl, plain_self⟩

/-! ## The search -/

theorem search {α : Type} [LT α] [DecidableRel (α := α) (· < ·)] (irrefl : ∀ a : α, ¬ a < a) (trans : ∀ a b c : α, a < b → b < c → a < c)
    (total : ∀ a b : α, ¬ a < b → ¬ b < a → a = b) (l : List α) (hs : l.Pairwise fun a b => ¬ b < a) (v : α) :
    l[lowerBound (fun x => decide (x < v)) l l.length 0 l.length]? = some v ↔ v ∈ l := by
  constructor
  · intro h; exact List.mem_of_getElem? h
  · intro hv
    obtain ⟨k, hk, ek⟩ := List.mem_iff_getElem.1 hv
    have hk' : l[k]? = some v := by rw [List.getElem?_eq_getElem hk, ek]
    obtain ⟨hb, ha⟩ := lowerBound_spec (fun x => decide (x < v)) l (by
      intro i j x y hij hx hy hlt
      simp only [decide_eq_true_eq] at hlt ⊢
      obtain ⟨hi, rfl⟩ := List.getElem?_eq_some_iff.1 hx
      obtain ⟨hj, rfl⟩ := List.getElem?_eq_some_iff.1 hy
      have := List.pairwise_iff_getElem.1 hs i j hi hj hij
      by_cases h : l[i] < l[j]
      · exact trans _ _ _ h hlt
      · rw [total _ _ h this]; exact hlt)
      l.length 0 l.length (Nat.le_refl _) (by omega) (fun i x hi => by omega)
      (fun i x hi hx => by
        have := (List.getElem?_eq_some_iff.1 hx).1; omega)
    generalize lowerBound (fun x => decide (x < v)) l l.length 0 l.length = n at hb ha
    rcases Nat.lt_or_ge k n with h | h
    · have := hb k v h hk'
      simp only [decide_eq_true_eq] at this
      exact absurd this (irrefl v)
    · have hn : n < l.length := by omega
      have h1 := ha n l[n] (Nat.le_refl _) (List.getElem?_eq_getElem hn)
      simp only [decide_eq_false_iff_not] at h1
      rw [List.getElem?_eq_getElem hn]
      congr 1
      rcases Nat.lt_or_ge n k with h' | h'
      · have h2 := List.pairwise_iff_getElem.1 hs n k hn hk h'
        rw [ek] at h2
        exact total _ _ h1 h2
      · have : n = k := by omega
        subst this; exact ek

/-! ## Bytes -/

/-- White space replaced by newlines. -/
inductive Broken : Str → Str → Prop where
  | nil : Broken [] []
  | same (c : Char) {s t : Str} : Broken s t → Broken (c :: s) (c :: t)
  | brk {c : Char} {s t : Str} : Blank3 c → Broken s t → Broken (c :: s) ('\n' :: t)

theorem Broken.refl : ∀ s : Str, Broken s s
  | [] => .nil
  | c :: s => .same c (Broken.refl s)

theorem Broken.append {a b c d : Str} (h : Broken a b) (h' : Broken c d) : Broken (a ++ c) (b ++ d) := by
  induction h with
  | nil => exact h'
  | same c _ ih => exact .same c ih
  | brk hb _ ih => exact .brk hb ih

theorem broken_interleave : ∀ (segs seps : List Str), (∀ s ∈ seps, ∃ c, s = [c] ∧ Blank3 c) →
    Broken (interleave segs seps) (interleave segs (seps.map fun _ => ['\n']))
  | [], _, _ => .nil
  | [t], _, _ => by simp only [interleave]; exact Broken.refl t
  | t :: u :: ts, [], h => by
    simp only [interleave, List.map_nil]; exact Broken.refl _
  | t :: u :: ts, s :: ss, h => by
    obtain ⟨c, rfl, hc⟩ := h s (by simp)
    have ih := broken_interleave (u :: ts) ss fun x hx => h x (by simp [hx])
    simp only [interleave, List.map_cons]
    exact (Broken.refl t).append (.brk hc ih)

theorem multiline_broken (s : Str) (len : Nat) (h : 0 < len) : Broken s (makeMultiline s len true) := by
  obtain ⟨segs, seps, _, hb, e1, e2, _⟩ := C52_multiline s len true h
  rw [e2]
  have := broken_interleave segs seps hb
  rw [← e1] at this
  simpa using this

theorem broken_split : ∀ {a b t : Str}, Broken (a ++ b) t → (∀ c ∈ a, ¬ Blank3 c) → ∃ b', t = a ++ b' ∧ Broken b b'
  | [], b, t, h, _ => ⟨t, rfl, h⟩
  | c :: a, b, t, h, hc => by
    cases h with
    | same _ h =>
      obtain ⟨b', rfl, hb⟩ := broken_split h fun d hd => hc d (by simp [hd])
      exact ⟨b', rfl, hb⟩
    | brk hb _ => exact absurd hb (hc c (by simp))

theorem byte_lit {b : Nat} (hb : b < 256) : CppLit ("0x".toList ++ padZero 2 (toHex false b)) b true ∧
    ∀ c ∈ "0x".toList ++ padZero 2 (toHex false b), ¬ Blank3 c := by
  constructor
  · refine ⟨_, [], 2 ^ 31 - 1, by simp, GenNumProofs.toHex_spec false 2 (by omega), ?_⟩
    have : (("0x".toList ++ padZero 2 (toHex false b)).head? != some '0') = false := by simp
    rw [this]
    simp only [litTypes, if_true, Bool.false_eq_true, if_false]
    rw [List.find?_cons_of_pos]
    simp only [decide_eq_true_eq]; omega
  · have : ∀ n : Fin 256, ∀ c ∈ "0x".toList ++ padZero 2 (toHex false n.val), ¬ (c = ' ' ∨ c = '\t' ∨ c = '\n') := by decide +kernel
    exact this ⟨b, hb⟩

theorem bytes_broken : ∀ (bs : List Nat) (t : Str), (∀ b ∈ bs, b < 256) → bs ≠ [] →
    Broken (strListToString ", ".toList [] (bs.map fun b => "0x".toList ++ padZero 2 (toHex false b))) t → CppBytes t bs
  | [], _, _, h, _ => absurd rfl h
  | [b], t, hb, _, h => by
    obtain ⟨h1, h2⟩ := byte_lit (hb b (by simp))
    simp only [List.map_cons, List.map_nil, strListToString] at h
    obtain ⟨b', rfl, hn⟩ := broken_split h h2
    cases hn
    rw [List.append_nil]
    exact .last h1 (hb b (by simp))
  | b :: b2 :: bs, t, hb, _, h => by
    obtain ⟨h1, h2⟩ := byte_lit (hb b (by simp))
    simp only [List.map_cons, strListToString, List.append_assoc] at h
    rw [← List.append_assoc] at h
    obtain ⟨r, rfl, hr⟩ := broken_split h h2
    have hq : Broken (',' :: ' ' :: strListToString ", ".toList [] ((b2 :: bs).map fun b => "0x".toList ++ padZero 2 (toHex false b))) r := hr
    have step : ∀ w r', Blank3 w → Broken (strListToString ", ".toList [] ((b2 :: bs).map fun b => "0x".toList ++ padZero 2 (toHex false b))) r' →
        CppBytes (("0x".toList ++ padZero 2 (toHex false b)) ++ ',' :: ([w] ++ r')) (b :: b2 :: bs) := fun w r' hw hr' =>
      .cons h1 (hb b (by simp)) (by simpa using hw) (bytes_broken (b2 :: bs) r' (fun x hx => hb x (by simp [hx])) (by simp) hr')
    clear hr
    cases hq with
    | same _ hq1 =>
      cases hq1 with
      | same _ hq2 => exact step ' ' _ (.inl rfl) hq2
      | brk _ hq2 => exact step '\n' _ (.inr (.inr rfl)) hq2
    | brk hw _ => simp [Blank3] at hw

theorem bytes_spec {bs : List Nat} (hb : ∀ b ∈ bs, b < 256) (hn : bs ≠ []) : CppBytes (bytesToString bs) bs :=
  bytes_broken bs _ hb hn (multiline_broken _ 60 (by omega))

/-! ### One meaning -/

theorem take_of {p : Char → Bool} {a b : Str} (ha : ∀ c ∈ a, p c = true) (hb : ∀ c ∈ b.head?, p c = false) : (a ++ b).takeWhile p = a := by
  induction a with
  | nil =>
    cases b with
    | nil => rfl
    | cons c b => rw [List.nil_append, List.takeWhile_cons_of_neg (by simpa using hb c (by simp))]
  | cons c a ih => rw [List.cons_append, List.takeWhile_cons_of_pos (ha c (by simp)), ih fun d hd => ha d (by simp [hd])]

theorem cut {p : Char → Bool} {a b a' b' : Str} (ha : ∀ c ∈ a, p c = true) (hb : ∀ c ∈ b.head?, p c = false) (ha' : ∀ c ∈ a', p c = true)
    (hb' : ∀ c ∈ b'.head?, p c = false) (e : a ++ b = a' ++ b') : a = a' ∧ b = b' := by
  have h1 := take_of ha hb
  rw [e, take_of ha' hb'] at h1
  subst h1
  exact ⟨rfl, List.append_cancel_left e⟩

theorem lit_no {s : Str} {n : Nat} {sg : Bool} (h : CppLit s n sg) : ∀ c ∈ s, c ≠ ',' ∧ ¬ Blank3 c := by
  intro c hc
  have := (lit_split h).2 c hc
  constructor
  · rintro rfl; revert this; decide
  · rintro (rfl | rfl | rfl) <;> (revert this; decide)

theorem lit_ne {s : Str} {n : Nat} {sg : Bool} (h : CppLit s n sg) : ∃ c t, s = c :: t := by
  obtain ⟨ds, suf, mx, rfl, hd, -⟩ := h
  cases hd <;> exact ⟨_, _, rfl⟩

theorem bytes_head {s : Str} {bs : List Nat} (h : CppBytes s bs) : ∀ c ∈ s.head?, ¬ Blank3 c := by
  cases h with
  | last h _ =>
    intro c hc
    obtain ⟨d, t, rfl⟩ := lit_ne h
    exact (lit_no h c (by simp at hc; simp [hc])).2
  | cons h _ _ _ =>
    intro c hc
    obtain ⟨d, t, rfl⟩ := lit_ne h
    exact (lit_no h c (by simp at hc; simp [hc])).2

/-- Blank, tabulator or newline. -/
def blankNl (c : Char) : Bool := c == ' ' || c == '\t' || c == '\n'

theorem bytes_one {s : Str} {bs bs' : List Nat} (h : CppBytes s bs) (h' : CppBytes s bs') : bs = bs' := by
  have nc : ∀ {s : Str} {n : Nat} {sg : Bool}, CppLit s n sg → ∀ c ∈ s, (c != ',') = true := fun h c hc => by simpa using (lit_no h c hc).1
  induction h generalizing bs' with
  | @last s b sg h hb =>
    generalize hs : s = s0 at h'
    cases h' with
    | last h' _ => subst hs; rw [denotes_one (lit_split h).1 (lit_split h').1]
    | cons h' _ _ _ =>
      exact absurd rfl (lit_no h ',' (by rw [hs]; simp)).1
  | @cons s w r b sg bs h hb hw hr ih =>
    generalize hs : s ++ ',' :: (w ++ r) = s0 at h'
    cases h' with
    | last h' _ => exact absurd rfl (lit_no h' ',' (by rw [← hs]; simp)).1
    | @cons s' w' r' b' sg' bs' h' hb' hw' hr' =>
      obtain ⟨rfl, e⟩ := cut (p := fun c => c != ',') (nc h) (by simp) (nc h') (by simp) hs
      have e := (List.cons.inj e).2
      have bl : ∀ {w : Str}, (∀ c ∈ w, Blank3 c) → ∀ c ∈ w, blankNl c = true := fun hw c hc => by
        rcases hw c hc with rfl | rfl | rfl <;> decide
      have hd : ∀ {r : Str} {bs : List Nat}, CppBytes r bs → ∀ c ∈ r.head?, blankNl c = false := fun h c hc => by
        have := bytes_head h c hc
        simp only [Blank3] at this
        simp only [blankNl, Bool.or_eq_false_iff, beq_eq_false_iff_ne, ne_eq]
        exact ⟨⟨fun h => this (.inl h), fun h => this (.inr (.inl h))⟩, fun h => this (.inr (.inr h))⟩
      obtain ⟨-, rfl⟩ := cut (p := blankNl) (bl hw) (hd hr) (bl hw') (hd hr') e
      rw [denotes_one (lit_split h).1 (lit_split h').1, ih hr']

theorem bytes_iff {bs v : List Nat} (hb : ∀ b ∈ bs, b < 256) (hn : bs ≠ []) : CppBytes (bytesToString bs) v ↔ v = bs :=
  ⟨fun h => bytes_one h (bytes_spec hb hn), fun e => by rw [e]; exact bytes_spec hb hn⟩

theorem bytes_not_nil {s : Str} {bs : List Nat} (h : CppBytes s bs) : s ≠ [] := by
  cases h with
  | last h _ => obtain ⟨c, t, rfl⟩ := lit_ne h; simp
  | cons _ _ _ _ => simp

/-! ## The lists of values -/

theorem exist_iff {α : Type} (g : GVer) (x : List α × Nat × Nat) : doesExist g x.2.1 x.2.2 true = true ↔ SomeVersion g x := by
  unfold doesExist SomeVersion
  split
  · rename_i h; simp; omega
  · rename_i h
    split
    · rename_i h2; simp at h2; simp; omega
    · rename_i h2; simp at h2; simp; omega

theorem data_fst (g : GVer) : ∀ (l : List (List Nat × Nat × Nat)) (i : Nat), (∀ p ∈ dataValidLoop g i l, i ≤ p.1) ∧ ((dataValidLoop g i l).map (·.1)).Nodup
  | [], i => by simp [dataValidLoop]
  | x :: xs, i => by
    obtain ⟨h1, h2⟩ := data_fst g xs (i + 1)
    rw [dataValidLoop]
    split
    · exact ⟨fun p hp => by have := h1 p hp; omega, h2⟩
    · constructor
      · intro p hp
        rcases List.mem_cons.1 hp with rfl | hp
        · exact Nat.le_refl _
        · have := h1 p hp; omega
      · rw [List.map_cons, List.nodup_cons]
        refine ⟨?_, h2⟩
        intro hm
        obtain ⟨p, hp, e⟩ := List.mem_map.1 hm
        have := h1 p hp
        simp only at e
        omega

theorem data_snd (g : GVer) : ∀ (l : List (List Nat × Nat × Nat)) (i : Nat),
    (dataValidLoop g i l).map (·.2) = (l.filter fun x => doesExist g x.2.1 x.2.2 true).map fun x => bytesToString x.1
  | [], i => rfl
  | x :: xs, i => by
    rw [dataValidLoop, List.filter_cons]
    split
    · rename_i h
      simp only [Bool.not_eq_true'] at h
      rw [h, data_snd g xs]; rfl
    · rename_i h
      simp only [Bool.not_eq_true, Bool.not_eq_false'] at h
      rw [h, if_pos rfl, List.map_cons, List.map_cons, data_snd g xs]

end GenSeqProofs

open GenSeqProofs

/-! ## C118 -/

/-- C118: a newly constructed string has the default value of the schema and no other, if the characters of that value stand for themselves in C++. Missing: texts
    with quotation marks, backslashes or newlines, see `C118_escape_witness`. -/
theorem C118_string_partial (st : SeqState Char) (h : PlainText st.default) (v : Str) : NewString (stringConstruct st) v ↔ v = st.default := by
  unfold stringConstruct NewString
  by_cases e : st.default = []
  · rw [e]; simp
  · rw [if_neg (by simpa using e)]
    exact quoted_plain h

/-- C118: it has the default value only then. -/
theorem C118_string_exact (st : SeqState Char) : NewString (stringConstruct st) st.default ↔ PlainText st.default := by
  unfold stringConstruct NewString
  by_cases e : st.default = []
  · rw [e]; simp [PlainText]
  · rw [if_neg (by simpa using e)]
    exact quoted_self

/-- C118: newly constructed data has the bytes of the schema. -/
theorem C118_data (st : SeqState Nat) (h : ∀ b ∈ st.default, b < 256) (v : List Nat) : NewData (dataConstruct st) v ↔ v = st.default := by
  unfold dataConstruct NewData
  by_cases e : st.default = []
  · rw [e]; simp
  · rw [if_neg (by simpa using e)]
    exact bytes_iff h e

/-- C118: `name()` of a field or message returns its display name, if the characters of that stand for themselves. -/
theorem C118_name_partial (disp name : Str) (h : PlainText (displayNameOf disp name)) (v : Str) :
    CppString (nameLiteral disp name) v ↔ v = displayNameOf disp name := quoted_plain h

/-- C118: without a display name it returns the name of the field. -/
theorem C118_own_name (f : Field) (h : Obj f) (v : Str) : CppString (nameLiteral [] f.name) v ↔ v = f.name := by
  have hp : PlainText f.name := by
    have hi := (C02_name_iff _).2 (C02_field_names f h)
    intro c hc
    unfold isValidName at hi
    split at hi
    · cases hi
    · split at hi
      · cases hi
      · have := List.all_eq_true.1 hi c hc
        refine ⟨?_, ?_, ?_⟩ <;> (rintro rfl; revert this; decide)
  exact quoted_plain hp

/-! ## C119 -/

/-- C119: `valid()` of a string field. Missing: values with characters that do not stand for themselves, and code that does not support any of the values, see
    `C119_code_witness`. -/
theorem C119_string_partial (g : GVer) (c : Common) (st : SeqState Char) (p : Slot Field) (h : Obj (.string c st p))
    (hp : ∀ x ∈ st.valid, SomeVersion g x → PlainText x.1) (hs : st.valid ≠ [] → ∃ x ∈ st.valid, SomeVersion g x) (base : Bool) (v : Str) (r : Bool) :
    StringValid (stringValid g st) base v r ↔ (r = true ↔ base = true ∧ (st.valid = [] ∨ ∃ x ∈ st.valid, SomeVersion g x ∧ x.1 = v)) := by
  unfold stringValid StringValid
  by_cases e : st.valid = []
  · rw [e]; cases r <;> cases base <;> simp
  · rw [if_neg (by simpa using e)]
    simp only
    have hf : ∀ x, x ∈ st.valid.filter (fun x => doesExist g x.2.1 x.2.2 true) ↔ x ∈ st.valid ∧ SomeVersion g x := fun x => by
      rw [List.mem_filter, exist_iff]
    have hsort : ((st.valid.filter fun x => doesExist g x.2.1 x.2.2 true).map (·.1)).Pairwise fun a b => ¬ b < a := by
      rw [List.pairwise_map]
      exact List.Pairwise.filter _ (C64_string_sorted c st p h)
    have key := search Msg.str_irrefl (fun a b c => Msg.str_trans) (fun a b h1 h2 => Msg.str_total h1 h2) _ hsort v
    have hm : v ∈ (st.valid.filter fun x => doesExist g x.2.1 x.2.2 true).map (·.1) ↔ ∃ x ∈ st.valid, SomeVersion g x ∧ x.1 = v := by
      rw [List.mem_map]
      constructor
      · rintro ⟨x, hx, ex⟩; exact ⟨x, ((hf x).1 hx).1, ((hf x).1 hx).2, ex⟩
      · rintro ⟨x, hx, h2, ex⟩; exact ⟨x, (hf x).2 ⟨hx, h2⟩, ex⟩
    have hpl : ∀ a ∈ (st.valid.filter fun x => doesExist g x.2.1 x.2.2 true).map (·.1), PlainText a := by
      intro a ha
      obtain ⟨x, hx, rfl⟩ := List.mem_map.1 ha
      exact hp x ((hf x).1 hx).1 ((hf x).1 hx).2
    have hne : (st.valid.filter fun x => doesExist g x.2.1 x.2.2 true).map (fun x => quoted x.1) ≠ [] := by
      obtain ⟨x, hx, h2⟩ := hs e
      intro e2
      have := List.map_eq_nil_iff.1 e2
      have hx := (hf x).2 ⟨hx, h2⟩
      rw [this] at hx
      cases hx
    have em : (st.valid.filter fun x => doesExist g x.2.1 x.2.2 true).map (fun x => quoted x.1) =
        ((st.valid.filter fun x => doesExist g x.2.1 x.2.2 true).map (·.1)).map quoted := by rw [List.map_map]; rfl
    rw [em] at hne ⊢
    rw [← hm, ← key]
    generalize (st.valid.filter fun x => doesExist g x.2.1 x.2.2 true).map (·.1) = l at hpl hne
    have he : (st.valid = [] ∨ l[lowerBound (fun x => decide (x < v)) l l.length 0 l.length]? = some v) ↔
        l[lowerBound (fun x => decide (x < v)) l l.length 0 l.length]? = some v := by simp [e]
    rw [he]
    constructor
    · rintro ⟨-, m, e1, h1, h2⟩
      have e2 : m.map (·.2) = l := by
        have hz : ∀ (l : List Str), (∀ a ∈ l, PlainText a) → ∀ m : List (Str × Str), m.map (·.1) = l.map quoted → (∀ p ∈ m, CppString p.1 p.2) → m.map (·.2) = l := by
          intro l
          induction l with
          | nil => intro _ m e _; simpa using e
          | cons a l ih =>
            intro hpl m e h
            cases m with
            | nil => simp at e
            | cons q m =>
              simp only [List.map_cons, List.cons.injEq] at e
              have h0 := h q (by simp)
              rw [e.1, quoted_plain (hpl a (by simp))] at h0
              rw [List.map_cons, ih (fun b hb => hpl b (by simp [hb])) m e.2 fun p hp => h p (by simp [hp]), h0]
        exact hz l hpl m e1 h1
      have el : m.length = l.length := by rw [← e2, List.length_map]
      rw [e2, el] at h2
      exact h2
    · intro h2
      refine ⟨hne, l.map fun a => (quoted a, a), by simp [Function.comp_def], ?_, ?_⟩
      · intro q hq
        obtain ⟨a, ha, rfl⟩ := List.mem_map.1 hq
        exact (quoted_plain (hpl a ha)).2 rfl
      · have : (l.map fun a => (quoted a, a)).map (·.2) = l := by simp [Function.comp_def]
        rw [this, List.length_map]
        exact h2

/-- C119: `valid()` of a data field. Missing: the empty value, and code that does not support any of the values, see `C119_code_witness`. The elements of data are of
    the type `std::uint8_t`. -/
theorem C119_data_partial (g : GVer) (c : Common) (st : SeqState Nat) (p : Slot Field) (h : Obj (.data c st p))
    (hb : ∀ x ∈ st.valid, ∀ b ∈ x.1, b < 256) (hp : ∀ x ∈ st.valid, SomeVersion g x → x.1 ≠ [])
    (hs : st.valid ≠ [] → ∃ x ∈ st.valid, SomeVersion g x) (base : Bool) (v : List Nat) (r : Bool) :
    DataValid (dataValid g st) base v r ↔ (r = true ↔ base = true ∧ (st.valid = [] ∨ ∃ x ∈ st.valid, SomeVersion g x ∧ x.1 = v)) := by
  unfold dataValid DataValid
  by_cases e : st.valid = []
  · rw [e]; cases r <;> cases base <;> simp
  · rw [if_neg (by simpa using e)]
    simp only
    have hf : ∀ x, x ∈ st.valid.filter (fun x => doesExist g x.2.1 x.2.2 true) ↔ x ∈ st.valid ∧ SomeVersion g x := fun x => by
      rw [List.mem_filter, exist_iff]
    have hsort : ((st.valid.filter fun x => doesExist g x.2.1 x.2.2 true).map (·.1)).Pairwise fun a b => ¬ b < a := by
      rw [List.pairwise_map]
      exact List.Pairwise.filter _ (C64_data_sorted c st p h)
    have key := search List.lt_irrefl (fun a b c => List.lt_trans) (fun a b h1 h2 => List.le_antisymm (List.not_lt.1 h2) (List.not_lt.1 h1)) _ hsort v
    have hm : v ∈ (st.valid.filter fun x => doesExist g x.2.1 x.2.2 true).map (·.1) ↔ ∃ x ∈ st.valid, SomeVersion g x ∧ x.1 = v := by
      rw [List.mem_map]
      constructor
      · rintro ⟨x, hx, ex⟩; exact ⟨x, ((hf x).1 hx).1, ((hf x).1 hx).2, ex⟩
      · rintro ⟨x, hx, h2, ex⟩; exact ⟨x, (hf x).2 ⟨hx, h2⟩, ex⟩
    have hpl : ∀ a ∈ (st.valid.filter fun x => doesExist g x.2.1 x.2.2 true).map (·.1), (∀ b ∈ a, b < 256) ∧ a ≠ [] := by
      intro a ha
      obtain ⟨x, hx, rfl⟩ := List.mem_map.1 ha
      exact ⟨hb x ((hf x).1 hx).1, hp x ((hf x).1 hx).1 ((hf x).1 hx).2⟩
    have hne : dataValidLoop g 0 st.valid ≠ [] := by
      obtain ⟨x, hx, h2⟩ := hs e
      intro e2
      have e3 := data_snd g st.valid 0
      rw [e2] at e3
      have := List.map_eq_nil_iff.1 e3.symm
      have hx := (hf x).2 ⟨hx, h2⟩
      rw [this] at hx
      cases hx
    have em : (dataValidLoop g 0 st.valid).map (·.2) = ((st.valid.filter fun x => doesExist g x.2.1 x.2.2 true).map (·.1)).map bytesToString := by
      rw [data_snd, List.map_map]; rfl
    rw [em]
    rw [← hm, ← key]
    generalize (st.valid.filter fun x => doesExist g x.2.1 x.2.2 true).map (·.1) = l at hpl
    have he : (st.valid = [] ∨ l[lowerBound (fun x => decide (x < v)) l l.length 0 l.length]? = some v) ↔
        l[lowerBound (fun x => decide (x < v)) l l.length 0 l.length]? = some v := by simp [e]
    rw [he]
    constructor
    · rintro ⟨-, -, m, e1, h1, h2⟩
      have e2 : m.map (·.2) = l := by
        have hz : ∀ (l : List (List Nat)), (∀ a ∈ l, (∀ b ∈ a, b < 256) ∧ a ≠ []) → ∀ m : List (Str × List Nat), m.map (·.1) = l.map bytesToString →
            (∀ p ∈ m, CppBytes p.1 p.2) → m.map (·.2) = l := by
          intro l
          induction l with
          | nil => intro _ m e _; simpa using e
          | cons a l ih =>
            intro hpl m e h
            cases m with
            | nil => simp at e
            | cons q m =>
              simp only [List.map_cons, List.cons.injEq] at e
              have h0 := h q (by simp)
              rw [e.1, bytes_iff (hpl a (by simp)).1 (hpl a (by simp)).2] at h0
              rw [List.map_cons, ih (fun b hb => hpl b (by simp [hb])) m e.2 fun p hp => h p (by simp [hp]), h0]
        exact hz l hpl m e1 h1
      have el : m.length = l.length := by rw [← e2, List.length_map]
      rw [e2, el] at h2
      exact h2
    · intro h2
      refine ⟨hne, (data_fst g st.valid 0).2, l.map fun a => (bytesToString a, a), by simp [Function.comp_def], ?_, ?_⟩
      · intro q hq
        obtain ⟨a, ha, rfl⟩ := List.mem_map.1 hq
        exact (bytes_iff (hpl a ha).1 (hpl a ha).2).2 rfl
      · have : (l.map fun a => (bytesToString a, a)).map (·.2) = l := by simp [Function.comp_def]
        rw [this, List.length_map]
        exact h2

/-- C119, a defect: if no version that the code supports has one of the values, there is no valid C++ code. -/
theorem C119_all_gone (g : GVer) (base : Bool) : (∀ (st : SeqState Char), st.valid ≠ [] → (∀ x ∈ st.valid, ¬ SomeVersion g x) →
      ∀ v r, ¬ StringValid (stringValid g st) base v r) ∧
    (∀ (st : SeqState Nat), st.valid ≠ [] → (∀ x ∈ st.valid, ¬ SomeVersion g x) → ∀ v r, ¬ DataValid (dataValid g st) base v r) := by
  constructor
  · intro st hne hx v r h
    unfold stringValid StringValid at h
    rw [if_neg (by simpa using hne)] at h
    refine h.1 ?_
    rw [List.map_eq_nil_iff, List.filter_eq_nil_iff]
    intro x hm hd
    exact hx x hm ((exist_iff g x).1 hd)
  · intro st hne hx v r h
    unfold dataValid DataValid at h
    rw [if_neg (by simpa using hne)] at h
    refine h.1 ?_
    have := data_snd g st.valid 0
    rw [List.filter_eq_nil_iff.2 (fun x hm hd => hx x hm ((exist_iff g x).1 hd))] at this
    exact List.map_eq_nil_iff.1 this

namespace GenSeqSample
open Sample

theorem str {x : Xml} {d : Str} {vs : List (Str × Nat × Nat)}
    (h : Sample.okWith (parseField env0 9 .top x) (fun f => match f with | .string _ st _ => st.default == d && st.valid == vs | _ => false) = true) :
    ∃ c st p, Accepted (.string c st p) ∧ st.default = d ∧ st.valid = vs := by
  obtain ⟨f, h1, h2⟩ := accepted env0_ok h
  split at h2
  · rename_i c st p
    simp only [Bool.and_eq_true, beq_iff_eq] at h2
    exact ⟨c, st, p, h1, h2.1, h2.2⟩
  · cases h2

theorem dat {x : Xml} {d : List Nat} {vs : List (List Nat × Nat × Nat)}
    (h : Sample.okWith (parseField env0 9 .top x) (fun f => match f with | .data _ st _ => st.default == d && st.valid == vs | _ => false) = true) :
    ∃ c st p, Accepted (.data c st p) ∧ st.default = d ∧ st.valid = vs := by
  obtain ⟨f, h1, h2⟩ := accepted env0_ok h
  split at h2
  · rename_i c st p
    simp only [Bool.and_eq_true, beq_iff_eq] at h2
    exact ⟨c, st, p, h1, h2.1, h2.2⟩
  · cases h2

/-- Version 3; the remote side has at least version 2. -/
def g : GVer := { parsed := 3, minRemote := 2 }

end GenSeqSample

open GenSeqSample Sample in
/-- Of the values "a", "b" (removed in version 2) and "c", "c" is valid and "b" is not. -/
example : ∃ c st p, Obj (.string c st p) ∧ NewString (stringConstruct st) "a".toList ∧ StringValid (stringValid g st) true "c".toList true ∧
    StringValid (stringValid g st) true "b".toList false := by
  obtain ⟨c, st, p, h, hd, hv⟩ := str (x := el "string" [("name", "s"), ("validValue", "c"), ("defaultValidValue", "a")] [
      el "validValue" [("value", "b"), ("sinceVersion", "1"), ("deprecated", "2")]]) (d := "a".toList)
    (vs := [("a".toList, 0, 4294967295), ("b".toList, 1, 2), ("c".toList, 0, 4294967295)]) (by decide +kernel)
  have hp : ∀ x ∈ st.valid, SomeVersion g x → PlainText x.1 := by
    rw [hv]; intro x hx _; simp at hx; rcases hx with rfl | rfl | rfl <;> (intro c hc; simp at hc; subst hc; decide)
  have hs : st.valid ≠ [] → ∃ x ∈ st.valid, SomeVersion g x := fun _ => by
    rw [hv]; exact ⟨("a".toList, 0, 4294967295), by simp, by unfold SomeVersion; decide⟩
  refine ⟨c, st, p, .acc h, ?_, ?_, ?_⟩
  · rw [C118_string_partial st (by rw [hd]; intro c hc; simp at hc; subst hc; decide), hd]
  · rw [C119_string_partial g c st p (.acc h) hp hs, hv]
    simp [SomeVersion, GVer.version, g]
  · rw [C119_string_partial g c st p (.acc h) hp hs, hv]
    simp [SomeVersion, GVer.version, g]

open GenSeqSample Sample in
/-- Data: 01 ff is valid, 00 (removed in version 2) is not; the sixteen bytes of another value are written in two lines. -/
example : ∃ c st p, Obj (.data c st p) ∧ DataValid (dataValid g st) true [1, 255] true ∧ DataValid (dataValid g st) true [0] false := by
  obtain ⟨c, st, p, h, hd, hv⟩ := dat (x := el "data" [("name", "s"), ("validValue", "01ff")] [
      el "validValue" [("value", "00"), ("sinceVersion", "1"), ("deprecated", "2")], el "validValue" [("value", "0102030405060708090a0b0c0d0e0f10")]])
    (d := []) (vs := [([0], 1, 2), ([1, 2, 3, 4, 5, 6, 7, 8, 9, 10, 11, 12, 13, 14, 15, 16], 0, 4294967295), ([1, 255], 0, 4294967295)]) (by decide +kernel)
  have hb : ∀ x ∈ st.valid, ∀ b ∈ x.1, b < 256 := by rw [hv]; decide
  have hp : ∀ x ∈ st.valid, SomeVersion g x → x.1 ≠ [] := by
    rw [hv]; intro x hx _; simp at hx; rcases hx with rfl | rfl | rfl <;> simp
  have hs : st.valid ≠ [] → ∃ x ∈ st.valid, SomeVersion g x := fun _ => by
    rw [hv]; exact ⟨([1, 255], 0, 4294967295), by simp, by unfold SomeVersion; decide⟩
  refine ⟨c, st, p, .acc h, ?_, ?_⟩
  · rw [C119_data_partial g c st p (.acc h) hb hp hs, hv]
    simp [SomeVersion, GVer.version, g]
  · rw [C119_data_partial g c st p (.acc h) hb hp hs, hv]
    simp [SomeVersion, GVer.version, g]

open GenSeqSample Sample in
/-- C118, a defect: a quotation mark in the default value ends the literal; a backslash and a `t` become a tabulator. -/
theorem C118_escape_witness : (∃ c st p, Accepted (.string c st p) ∧ st.default = "a\"b".toList ∧ ∀ v, ¬ NewString (stringConstruct st) v) ∧
    (∃ c st p, Accepted (.string c st p) ∧ st.default = "a\\tb".toList ∧ NewString (stringConstruct st) "a\tb".toList) := by
  constructor
  · obtain ⟨c, st, p, h, hd, -⟩ := str (x := el "string" [("name", "s"), ("defaultValue", "a\"b")]) (d := "a\"b".toList) (vs := []) (by decide +kernel)
    refine ⟨c, st, p, h, hd, ?_⟩
    intro v hv
    unfold stringConstruct NewString at hv
    rw [hd, if_neg (by decide)] at hv
    simp only [quoted_iff] at hv
    have hv : CppChars ['a', '"', 'b'] v := hv
    cases hv with
    | plain _ _ _ h => cases h with | plain h _ _ _ => exact h rfl
  · obtain ⟨c, st, p, h, hd, -⟩ := str (x := el "string" [("name", "s"), ("defaultValue", "a\\tb")]) (d := "a\\tb".toList) (vs := []) (by decide +kernel)
    refine ⟨c, st, p, h, hd, ?_⟩
    unfold stringConstruct NewString
    rw [hd, if_neg (by decide)]
    simp only [quoted_iff]
    show CppChars ['a', '\\', 't', 'b'] ['a', '\t', 'b']
    exact .plain (by decide) (by decide) (by decide) (.escape rfl (.plain (by decide) (by decide) (by decide) .nil))

open GenSeqSample Sample in
/-- C119, a defect: the only valid value was removed in version 2, and the remote side has at least version 2; or the empty sequence of bytes is valid. The schema
    is accepted, and there is no valid C++ code. -/
theorem C119_code_witness : (∃ c st p, Accepted (.string c st p) ∧ ∀ base v r, ¬ StringValid (stringValid g st) base v r) ∧
    (∃ c st p, Accepted (.data c st p) ∧ (∃ x ∈ st.valid, SomeVersion g x) ∧ ∀ base v r, ¬ DataValid (dataValid g st) base v r) := by
  constructor
  · obtain ⟨c, st, p, h, -, hv⟩ := str (x := el "string" [("name", "s")] [el "validValue" [("value", "b"), ("sinceVersion", "1"), ("deprecated", "2")]]) (d := [])
      (vs := [("b".toList, 1, 2)]) (by decide +kernel)
    refine ⟨c, st, p, h, fun base => (C119_all_gone g base).1 st (by rw [hv]; simp) ?_⟩
    rw [hv]
    intro x hx
    simp at hx
    subst hx
    unfold SomeVersion; decide
  · obtain ⟨c, st, p, h, -, hv⟩ := dat (x := el "data" [("name", "s"), ("validValue", "")]) (d := []) (vs := [([], 0, 4294967295)]) (by decide +kernel)
    refine ⟨c, st, p, h, ⟨([], 0, 4294967295), by rw [hv]; simp, by unfold SomeVersion; decide⟩, ?_⟩
    intro base v r hd
    unfold dataValid DataValid at hd
    rw [hv] at hd
    obtain ⟨-, -, m, e, hm, -⟩ := hd
    have e : m.map (·.1) = [[]] := by rw [e]; decide +kernel
    have hq : ∃ q, m = [q] := by
      cases m with
      | nil => cases e
      | cons q m => cases m with
        | nil => exact ⟨q, rfl⟩
        | cons _ _ => simp at e
    obtain ⟨q, rfl⟩ := hq
    simp at e
    exact bytes_not_nil (hm q (by simp)) e

end Commsdsl.Props
