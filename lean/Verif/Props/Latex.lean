import Verif.Model.Latex
import Verif.Spec.Latex
import Verif.Props.GenText
/-!
# Property C111: texts in the LaTeX documents
-/
namespace Commsdsl.Props
open Commsdsl Gen Spec

namespace LatexProofs

/-- Replacing one character by a text. -/
def sub (c : Char) (n : Str) (d : Char) : Str := if d = c then n else [d]

theorem flatMap_not {c : Char} {n s : Str} (h : c ∉ s) : s.flatMap (sub c n) = s := by
  induction s with
  | nil => rfl
  | cons d ds ih =>
    rw [List.mem_cons, not_or] at h
    rw [List.flatMap_cons, ih h.2, sub, if_neg (Ne.symm h.1)]
    rfl

theorem replaced_single {c : Char} {n s r : Str} (h : Replaced [c] n s r) : r = s.flatMap (sub c n) := by
  induction h with
  | none hn =>
    rename_i s
    refine (flatMap_not fun hm => ?_).symm
    obtain ⟨a, b, e⟩ := List.append_of_mem hm
    exact hn a b (by rw [e]; rfl)
  | step hf _ ih =>
    rename_i s a b r _
    have hc : c ∉ a := by
      intro hm
      obtain ⟨x, y, e⟩ := List.append_of_mem hm
      have := hf.2 x (y ++ ([c] ++ b)) (by rw [hf.1, e]; simp)
      rw [e] at this
      simp at this
      omega
    rw [hf.1, List.flatMap_append, flatMap_not hc, ih, List.cons_append, List.nil_append, List.flatMap_cons, sub, if_pos rfl]

theorem replace_single (c : Char) (n s : Str) : strReplace s [c] n = s.flatMap (sub c n) :=
  replaced_single (C49_strReplace s [c] n (by simp)).1

/-- What becomes of a character other than the backslash before the accents are dealt with. -/
def esc1 (c : Char) : Str := if isTexSpecial c then ['\\', c] else [c]

theorem esc_plain {p : Str} (h : ∀ c ∈ p, isTexSpecial c = false) : p.flatMap esc1 = p := by
  induction p with
  | nil => rfl
  | cons d ds ih =>
    rw [List.flatMap_cons, ih fun c hc => h c (List.mem_cons_of_mem _ hc), esc1, if_neg (by rw [h d (List.mem_cons_self ..)]; simp)]
    rfl

/-- The first special character of a text, and its position. -/
theorem find_cases (tmp : Str) (pos : Nat) :
    (findFirstOf isTexSpecial tmp pos = none ∧ ∀ c ∈ tmp.drop pos, isTexSpecial c = false) ∨
    ∃ a c b, tmp.drop pos = a ++ c :: b ∧ (∀ d ∈ a, isTexSpecial d = false) ∧ isTexSpecial c = true ∧ findFirstOf isTexSpecial tmp pos = some (pos + a.length) := by
  unfold findFirstOf
  cases h : (tmp.drop pos).findIdx? isTexSpecial with
  | none => exact Or.inl ⟨rfl, fun c hc => by simpa using List.findIdx?_eq_none_iff.1 h c hc⟩
  | some i =>
    right
    obtain ⟨hi, hp, hb⟩ := List.findIdx?_eq_some_iff_getElem.1 h
    refine ⟨(tmp.drop pos).take i, (tmp.drop pos)[i], (tmp.drop pos).drop (i + 1), ?_, ?_, hp, ?_⟩
    · rw [← List.drop_eq_getElem_cons hi, List.take_append_drop]
    · intro d hd
      obtain ⟨j, hj, e⟩ := List.mem_iff_getElem.1 hd
      rw [List.getElem_take] at e
      rw [List.length_take] at hj
      have := hb j (by omega)
      rw [e] at this
      simpa using this
    · rw [List.length_take, Nat.min_eq_left (by omega), Option.map_some, Nat.add_comm]

/-- The loop on a text without backslashes. -/
theorem loop_plain (s : Str) : ∀ (fuel pos : Nat), s.length < fuel + pos → escLoop s s fuel pos = some ((s.drop pos).flatMap esc1) ∨ fuel = 0 := by
  intro fuel
  induction fuel with
  | zero => intro pos _; exact Or.inr rfl
  | succ fuel ih =>
    intro pos hf
    left
    rw [escLoop]
    split
    · rename_i hp
      rw [List.drop_eq_nil_of_le hp]; rfl
    · rename_i hp
      rcases find_cases s pos with ⟨h1, h2⟩ | ⟨a, c, b, h1, h2, h3, h4⟩
      · rw [h1, esc_plain h2]
      · rw [h4]
        dsimp only
        have hl : (s.drop pos).length = a.length + (b.length + 1) := by rw [h1]; simp
        rw [List.length_drop] at hl
        rw [if_neg (by omega)]
        have hd : s.drop (pos + a.length) = c :: b := by rw [← List.drop_drop, h1, List.drop_left]
        have hd' : s.drop (pos + a.length + 1) = b := by rw [← List.drop_drop, hd]; rfl
        have hrec : escLoop s s fuel (pos + a.length + 1) = some (b.flatMap esc1) := by
          rcases ih (pos + a.length + 1) (by omega) with h | h
          · rw [h, hd']
          · omega
        rw [hrec, Option.map_some, hd, h1, Nat.add_sub_cancel_left, List.take_left, List.flatMap_append, esc_plain h2, List.flatMap_cons, esc1, if_pos h3]
        simp

/-- The accents at the end. -/
def acc (c : Char) : Str := if c = '^' then "\\^{}".toList else if c = '~' then "\\~{}".toList else [c]

theorem accents (s : Str) : strReplace (strReplace s "^".toList "\\^{}".toList) "~".toList "\\~{}".toList = s.flatMap acc := by
  show strReplace (strReplace s ['^'] _) ['~'] _ = _
  rw [replace_single, replace_single, List.flatMap_assoc]
  congr 1
  funext c
  unfold sub acc
  by_cases h : c = '^'
  · rw [if_pos h, if_pos h]; rfl
  · rw [if_neg h, if_neg h]; simp

/-- What becomes of a character other than the backslash. -/
def esc (c : Char) : Str := (esc1 c).flatMap acc

theorem esc_cases (c : Char) (h : c ≠ '\\') : (c ∈ "{}#%$_&".toList ∧ esc c = ['\\', c]) ∨ ((c = '^' ∨ c = '~') ∧ esc c = ['\\', c, '{', '}']) ∨
    (c ∉ texActive ∧ esc c = [c]) := by
  by_cases h1 : isTexSpecial c = true
  · left
    have h1' : c ∈ "{}#%$_&".toList := by simpa [isTexSpecial] using h1
    refine ⟨h1', ?_⟩
    rw [esc, esc1, if_pos h1]
    have ha : c ≠ '^' ∧ c ≠ '~' := by
      constructor <;> (rintro rfl; revert h1'; decide)
    show acc '\\' ++ (acc c ++ []) = _
    rw [show acc c = [c] by rw [acc, if_neg ha.1, if_neg ha.2]]
    rfl
  · right
    have e : esc c = acc c := by
      rw [esc, esc1, if_neg h1]; simp
    rw [e]
    by_cases h2 : c = '^'
    · subst h2; exact Or.inl ⟨Or.inl rfl, by decide⟩
    by_cases h3 : c = '~'
    · subst h3; exact Or.inl ⟨Or.inr rfl, by decide⟩
    refine Or.inr ⟨?_, by rw [acc, if_neg h2, if_neg h3]⟩
    intro hm
    have h1' : c ∉ "{}#%$_&".toList := by simpa [isTexSpecial] using h1
    have hx : c ∈ ['\\', '{', '}', '#', '%', '$', '_', '&', '^', '~'] := hm
    have hy : c ∉ ['{', '}', '#', '%', '$', '_', '&'] := h1'
    simp only [List.mem_cons, List.not_mem_nil, or_false, not_or] at hx hy
    rcases hx with r | r | r | r | r | r | r | r | r | r
    · exact h r
    · exact hy.1 r
    · exact hy.2.1 r
    · exact hy.2.2.1 r
    · exact hy.2.2.2.1 r
    · exact hy.2.2.2.2.1 r
    · exact hy.2.2.2.2.2.1 r
    · exact hy.2.2.2.2.2.2 r
    · exact h2 r
    · exact h3 r

theorem tex_esc {p t s : Str} (h : '\\' ∉ p) (ht : TexText t s) : TexText (p.flatMap esc ++ t) (p ++ s) := by
  induction p with
  | nil => exact ht
  | cons c cs ih =>
    rw [List.mem_cons, not_or] at h
    have ih := ih h.2
    rw [List.flatMap_cons, List.append_assoc]
    rcases esc_cases c (Ne.symm h.1) with ⟨h1, h2⟩ | ⟨h1, h2⟩ | ⟨h1, h2⟩ <;> rw [h2]
    · exact .escaped h1 ih
    · exact .accent h1 ih
    · exact .plain h1 ih

/-- Reading the text back. -/
theorem tex_inv {p t s : Str} (h : '\\' ∉ p) (ht : TexText (p.flatMap esc ++ t) s) : ∃ s', s = p ++ s' ∧ TexText t s' := by
  induction p generalizing s with
  | nil => exact ⟨s, rfl, ht⟩
  | cons c cs ih =>
    rw [List.mem_cons, not_or] at h
    rw [List.flatMap_cons, List.append_assoc] at ht
    have hcb : c ≠ '\\' := Ne.symm h.1
    rcases esc_cases c hcb with ⟨h1, h2⟩ | ⟨h1, h2⟩ | ⟨h1, h2⟩ <;> rw [h2] at ht
    · generalize hu : cs.flatMap esc ++ t = u at ht ih
      have ht : TexText ('\\' :: c :: u) s := ht
      generalize hv : '\\' :: c :: u = v at ht
      cases ht with
      | nil => simp at hv
      | plain hn _ => injection hv with e _; subst e; exact absurd (by decide) hn
      | escaped hc ht =>
        injection hv with _ e; injection e with e1 e2; subst e1 e2
        obtain ⟨s', e, h'⟩ := ih h.2 ht
        exact ⟨s', by rw [e]; rfl, h'⟩
      | accent hc ht =>
        injection hv with _ e; injection e with e1 e2; subst e1
        rcases hc with rfl | rfl <;> exact absurd h1 (by decide)
      | backslash ht =>
        injection hv with _ e
        injection e with e1 e2
        subst e1
        exact absurd h1 (by decide)
    · generalize hu : cs.flatMap esc ++ t = u at ht ih
      have ht : TexText ('\\' :: c :: '{' :: '}' :: u) s := ht
      generalize hv : '\\' :: c :: '{' :: '}' :: u = v at ht
      cases ht with
      | nil => simp at hv
      | plain hn _ => injection hv with e _; subst e; exact absurd (by decide) hn
      | escaped hc ht =>
        injection hv with _ e; injection e with e1 e2; subst e1
        rcases h1 with rfl | rfl <;> exact absurd hc (by decide)
      | accent hc ht =>
        injection hv with _ e; injection e with e1 e2; injection e2 with _ e3; injection e3 with _ e4; subst e1 e4
        obtain ⟨s', e, h'⟩ := ih h.2 ht
        exact ⟨s', by rw [e]; rfl, h'⟩
      | backslash ht =>
        injection hv with _ e
        injection e with e1 e2
        rcases h1 with rfl | rfl <;> exact absurd e1 (by decide)
    · generalize hu : cs.flatMap esc ++ t = u at ht ih
      have ht : TexText (c :: u) s := ht
      generalize hv : c :: u = v at ht
      cases ht with
      | nil => simp at hv
      | plain hn ht =>
        injection hv with e1 e2; subst e1 e2
        obtain ⟨s', e, h'⟩ := ih h.2 ht
        exact ⟨s', by rw [e]; rfl, h'⟩
      | escaped hc ht => injection hv with e1 e2; exact absurd e1 hcb
      | accent hc ht => injection hv with e1 e2; exact absurd e1 hcb
      | backslash ht => injection hv with e1 e2; exact absurd e1 hcb

theorem flatMap_comp (s : Str) : (s.flatMap esc1).flatMap acc = s.flatMap esc := by rw [List.flatMap_assoc]; rfl

theorem esc_no_backslash {s : Str} (h : '\\' ∉ s) : latexEsc s = s.flatMap esc := by
  have e : strReplace s "\\".toList "\\textbackslash{}".toList = s := by
    show strReplace s ['\\'] _ = s
    rw [replace_single, flatMap_not h]
  unfold latexEsc
  dsimp only
  rw [accents, e]
  have : escLoop s s (s.length + 1) 0 = some (s.flatMap esc1) := by
    rcases loop_plain s (s.length + 1) 0 (by omega) with h | h
    · rw [h]; rfl
    · omega
  rw [this, Option.getD_some, flatMap_comp]

/-- What is left after the first backslash: the text itself if it is short, else fourteen characters on there is a stray backslash. -/
def Rest (r w : Str) : Prop := (w = r ∧ r.length ≤ 13) ∨ ∃ x, w = r.take 13 ++ '\\' :: x ∧ 13 < r.length

theorem find_eq {tmp a b : Str} {c : Char} {pos : Nat} (h : tmp.drop pos = a ++ c :: b) (ha : ∀ d ∈ a, isTexSpecial d = false) (hc : isTexSpecial c = true) :
    findFirstOf isTexSpecial tmp pos = some (pos + a.length) := by
  unfold findFirstOf
  rw [h, List.findIdx?_append, List.findIdx?_eq_none_iff.2 (by simpa using ha), List.findIdx?_cons, hc]
  simp [Nat.add_comm]

theorem loop_total (s tmp : Str) : ∀ (fuel pos : Nat), pos ≤ s.length → s.length < fuel + pos → ∃ y, escLoop s tmp fuel pos = some y := by
  intro fuel
  induction fuel with
  | zero => intro pos _ _; omega
  | succ fuel ih =>
    intro pos hp hf
    rw [escLoop]
    split
    · exact ⟨_, rfl⟩
    · split
      · exact ⟨_, rfl⟩
      · rename_i next hn
        split
        · exact ⟨_, rfl⟩
        · have hge : pos ≤ next := by
            unfold findFirstOf at hn
            cases h : (tmp.drop pos).findIdx? isTexSpecial with
            | none => rw [h] at hn; cases hn
            | some i => rw [h, Option.map_some] at hn; injection hn with hn; omega
          obtain ⟨y, hy⟩ := ih (next + 1) (by omega) (by omega)
          rw [hy]
          exact ⟨_, rfl⟩

theorem loop_backslash (p r r' : Str) : ∀ (fuel pos : Nat), pos ≤ p.length → (p ++ '\\' :: r).length < fuel + pos →
    ∃ w, Rest r w ∧ escLoop (p ++ '\\' :: r) (p ++ ("\\textbackslash{}".toList ++ r')) fuel pos = some ((p.drop pos).flatMap esc1 ++ '\\' :: w) := by
  intro fuel
  induction fuel with
  | zero => intro pos hp hf; simp at hf; omega
  | succ fuel ih =>
    intro pos hp hf
    rw [escLoop]
    have hlen : (p ++ '\\' :: r).length = p.length + (r.length + 1) := by simp
    rw [hlen] at hf
    rw [if_neg (by omega), hlen]
    have hd : (p ++ '\\' :: r).drop pos = p.drop pos ++ '\\' :: r := List.drop_append_of_le_length hp
    have hdt : (p ++ ("\\textbackslash{}".toList ++ r')).drop pos = p.drop pos ++ ("\\textbackslash{}".toList ++ r') := List.drop_append_of_le_length hp
    have hpl : (p.drop pos).length = p.length - pos := List.length_drop
    rcases find_cases p pos with ⟨_, h2⟩ | ⟨a, c, b, h1, h2, h3, _⟩
    · have hf' : findFirstOf isTexSpecial (p ++ ("\\textbackslash{}".toList ++ r')) pos = some (pos + (p.drop pos ++ "\\textbackslash".toList).length) := by
        refine find_eq (b := '}' :: r') (c := '{') (by rw [hdt, List.append_assoc]; rfl) ?_ rfl
        intro d hd
        rcases List.mem_append.1 hd with hd | hd
        · exact h2 d hd
        · exact (by decide : ∀ d ∈ "\\textbackslash".toList, isTexSpecial d = false) d hd
      have hl14 : ("\\textbackslash".toList).length = 14 := by decide
      rw [hf', List.length_append, hpl, hl14, esc_plain h2, hd]
      dsimp only
      by_cases hs : r.length ≤ 13
      · rw [if_pos (by omega)]
        exact ⟨r, Or.inl ⟨rfl, hs⟩, rfl⟩
      · rw [if_neg (by omega)]
        have hrec : ∃ y, escLoop (p ++ '\\' :: r) (p ++ ("\\textbackslash{}".toList ++ r')) fuel (pos + (p.length - pos + 14) + 1) = some y :=
          loop_total _ _ fuel _ (by rw [hlen]; omega) (by rw [hlen]; omega)
        obtain ⟨y, hy⟩ := hrec
        rw [hy, Option.map_some]
        refine ⟨r.take 13 ++ '\\' :: ((p ++ '\\' :: r).drop (pos + (p.length - pos + 14))).take 1 ++ y, Or.inr ⟨_, by rw [List.append_assoc]; rfl, by omega⟩, ?_⟩
        rw [Nat.add_sub_cancel_left, ← hpl, List.take_append, List.take_of_length_le (by omega), Nat.add_sub_cancel_left]
        simp
    · have hf' : findFirstOf isTexSpecial (p ++ ("\\textbackslash{}".toList ++ r')) pos = some (pos + a.length) :=
        find_eq (b := b ++ ("\\textbackslash{}".toList ++ r')) (c := c) (by rw [hdt, h1, List.append_assoc]; rfl) h2 h3
      have hal : p.length - pos = a.length + (b.length + 1) := by rw [← hpl, h1]; simp
      rw [hf']
      dsimp only
      rw [if_neg (by omega)]
      obtain ⟨w, hw, e⟩ := ih (pos + a.length + 1) (by omega) (by rw [hlen]; omega)
      have hb : p.drop (pos + a.length) = c :: b := by rw [← List.drop_drop, h1, List.drop_left]
      have hb' : p.drop (pos + a.length + 1) = b := by rw [← List.drop_drop, hb]; rfl
      refine ⟨w, hw, ?_⟩
      rw [e, Option.map_some, hb', hd, h1, Nat.add_sub_cancel_left, List.append_assoc a, List.take_left, List.drop_append_of_le_length (by omega), hb,
        List.flatMap_append, esc_plain h2, List.flatMap_cons, esc1, if_pos h3]
      simp

theorem acc_cases (c : Char) : acc c = [c] ∨ ∃ x, acc c = '\\' :: x := by
  unfold acc
  split
  · exact Or.inr ⟨_, rfl⟩
  · split
    · exact Or.inr ⟨_, rfl⟩
    · exact Or.inl rfl

/-- The accents leave a beginning without backslashes alone. -/
theorem acc_prefix {q w t : Str} (hq : '\\' ∉ q) (h : w.flatMap acc = q ++ t) : ∃ w', w = q ++ w' ∧ t = w'.flatMap acc := by
  induction q generalizing w with
  | nil => exact ⟨w, rfl, h.symm⟩
  | cons c cs ih =>
    rw [List.mem_cons, not_or] at hq
    cases w with
    | nil => simp at h
    | cons d ds =>
      rw [List.flatMap_cons] at h
      rcases acc_cases d with e | ⟨x, e⟩ <;> rw [e] at h
      · injection h with h1 h2
        obtain ⟨w', e1, e2⟩ := ih hq.2 h2
        exact ⟨w', by rw [e1, h1]; rfl, e2⟩
      · injection h with h1 h2
        exact absurd h1 hq.1

theorem esc_backslash {p r : Str} (h : '\\' ∉ p) : ∃ w, Rest r w ∧ latexEsc (p ++ '\\' :: r) = p.flatMap esc ++ '\\' :: w.flatMap acc := by
  have e : strReplace (p ++ '\\' :: r) "\\".toList "\\textbackslash{}".toList =
      p ++ ("\\textbackslash{}".toList ++ r.flatMap (sub '\\' "\\textbackslash{}".toList)) := by
    show strReplace _ ['\\'] _ = _
    rw [replace_single, List.flatMap_append, flatMap_not h, List.flatMap_cons]
    rfl
  obtain ⟨w, hw, hl⟩ := loop_backslash p r (r.flatMap (sub '\\' "\\textbackslash{}".toList)) ((p ++ '\\' :: r).length + 1) 0 (Nat.zero_le _) (by omega)
  refine ⟨w, hw, ?_⟩
  unfold latexEsc
  dsimp only
  rw [accents, e, hl, Option.getD_some, List.drop_zero, List.flatMap_append, flatMap_comp, List.flatMap_cons]
  rfl

theorem first_backslash {s : Str} (h : '\\' ∈ s) : ∃ p r, s = p ++ '\\' :: r ∧ '\\' ∉ p := by
  induction s with
  | nil => simp at h
  | cons c cs ih =>
    by_cases hc : '\\' = c
    · subst hc; exact ⟨[], cs, rfl, by simp⟩
    · rcases List.mem_cons.1 h with h | h
      · exact absurd h hc
      · obtain ⟨p, r, e, hp⟩ := ih h
        exact ⟨c :: p, r, by rw [e]; rfl, by rw [List.mem_cons, not_or]; exact ⟨hc, hp⟩⟩

end LatexProofs
open LatexProofs

/-! ## C111 -/

/-- LaTeX sets a piece of source as one text at most. -/
theorem C111_one_text (t a b : Str) (ha : TexText t a) (hb : TexText t b) : a = b := by
  induction ha generalizing b with
  | nil => cases hb; rfl
  | plain hc _ ih =>
    cases hb with
    | plain _ h => rw [ih _ h]
    | escaped _ _ => exact absurd (by decide) hc
    | accent _ _ => exact absurd (by decide) hc
    | backslash _ => exact absurd (by decide) hc
  | escaped hc _ ih =>
    rename_i c t s _
    generalize hv : '\\' :: c :: t = v at hb
    cases hb with
    | nil => simp at hv
    | plain hn _ => injection hv with e _; subst e; exact absurd (by decide) hn
    | escaped _ h => injection hv with _ e; injection e with e1 e2; subst e1 e2; rw [ih _ h]
    | accent hd _ =>
      injection hv with _ e; injection e with e1 e2; subst e1
      rcases hd with rfl | rfl <;> exact absurd hc (by decide)
    | backslash _ => injection hv with _ e; injection e with e1 e2; subst e1; exact absurd hc (by decide)
  | accent hc _ ih =>
    rename_i c t s _
    generalize hv : '\\' :: c :: '{' :: '}' :: t = v at hb
    cases hb with
    | nil => simp at hv
    | plain hn _ => injection hv with e _; subst e; exact absurd (by decide) hn
    | escaped hd _ =>
      injection hv with _ e; injection e with e1 e2; subst e1
      rcases hc with rfl | rfl <;> exact absurd hd (by decide)
    | accent _ h =>
      injection hv with _ e; injection e with e1 e2; injection e2 with _ e3; injection e3 with _ e4; subst e1 e4
      rw [ih _ h]
    | backslash _ => injection hv with _ e; injection e with e1 e2; subst e1; rcases hc with h | h <;> exact absurd h (by decide)
  | backslash _ ih =>
    rename_i t s _
    generalize hv : "\\textbackslash{}".toList ++ t = v at hb
    cases hb with
    | nil => exact absurd hv (by simp)
    | plain hn _ => injection hv with e _; subst e; exact absurd (by decide) hn
    | escaped hd _ => injection hv with _ e; injection e with e1 e2; subst e1; exact absurd hd (by decide)
    | accent hd _ => injection hv with _ e; injection e with e1 e2; subst e1; rcases hd with h | h <;> exact absurd h (by decide)
    | backslash h => rw [ih _ (List.append_cancel_left hv ▸ h)]

/-- A text without backslashes is set as it is. Missing from the full claim: texts with backslashes, see `C111_backslash`. -/
theorem C111_plain_partial (s : Str) (h : '\\' ∉ s) : TexText (latexEsc s) s := by
  rw [esc_no_backslash h]
  have := tex_esc h TexText.nil
  rwa [List.append_nil, List.append_nil] at this

/-- A text with a backslash, on the other hand, never is: the places to escape are looked for in another text than the one they are applied to. -/
theorem C111_backslash (s : Str) (h : '\\' ∈ s) : ¬ TexText (latexEsc s) s := by
  intro ht
  obtain ⟨p, r, rfl, hp⟩ := first_backslash h
  obtain ⟨w, hw, e⟩ := esc_backslash (r := r) hp
  rw [e] at ht
  obtain ⟨s', e', ht⟩ := tex_inv hp ht
  have e' := List.append_cancel_left e'
  subst e'
  generalize hv : '\\' :: w.flatMap acc = v at ht
  cases ht with
  | plain hn _ => exact absurd (by decide) hn
  | escaped hd _ => exact absurd hd (by decide)
  | accent hd _ => rcases hd with h | h <;> exact absurd h (by decide)
  | backslash ht =>
    rename_i t
    injection hv with _ hv
    rcases hw with ⟨rfl, hl⟩ | ⟨x, rfl, hl⟩
    · obtain ⟨w', e1, e2⟩ := acc_prefix (q := "textbackslash".toList) (t := "{}".toList ++ t) (by decide) hv
      have : w' = [] := by
        have h13 : ("textbackslash".toList).length = 13 := by decide
        rw [e1, List.length_append, h13] at hl
        exact List.eq_nil_of_length_eq_zero (by omega)
      subst this
      cases e2
    · obtain ⟨w', e1, e2⟩ := acc_prefix (q := "textbackslash{".toList) (t := "}".toList ++ t) (by decide) hv
      have h13 : (r.take 13).length = 13 := by rw [List.length_take]; omega
      have e3 := congrArg (fun l => l[13]?) e1
      rw [List.getElem?_append_right (by omega), h13] at e3
      exact absurd e3 (by simp)

/-- Names in titles and tables are set as the display name, or as the name if there is none or it is asked to be empty. -/
theorem C111_names_partial (disp name : Str) (hd : '\\' ∉ disp) (hn : '\\' ∉ name) :
    TexText (latexName disp name) (if disp = [] ∨ disp = "_".toList then name else disp) := by
  unfold latexName displayNameOf
  dsimp only
  by_cases h1 : disp = []
  · subst h1
    rw [if_pos (Or.inl rfl)]
    have : (if ((if ([] : Str).isEmpty = true then name else if (([] : Str) == "_".toList) = true then [] else []) : Str).isEmpty = true then name else
        if ([] : Str).isEmpty = true then name else if (([] : Str) == "_".toList) = true then [] else []) = name := by
      rw [if_pos (c := ([] : Str).isEmpty = true) rfl]; split <;> rfl
    rw [this]
    exact C111_plain_partial _ hn
  · have he : ¬ disp.isEmpty = true := by simpa using h1
    rw [if_neg he]
    by_cases h2 : disp = "_".toList
    · rw [if_pos (Or.inr h2), if_pos (by rw [h2]; rfl)]
      exact C111_plain_partial _ hn
    · have hb : (disp == "_".toList) = false := beq_eq_false_iff_ne.2 h2
      simp only [hb, Bool.false_eq_true, if_false]
      rw [if_neg he, if_neg (fun h => h.elim h1 h2)]
      exact C111_plain_partial _ hd

/-- For instance: after a backslash an underscore is not escaped any more, while fourteen characters on a harmless character is. -/
theorem C111_witness : latexEsc "a\\b_c".toList = "a\\b_c".toList ∧ latexEsc "\\0123456789abcdef".toList = "\\0123456789abc\\d\\ef".toList := by
  decide +kernel

/-- Descriptions in the tables of values are not escaped at all: this row of a value has four columns instead of three. -/
theorem C111_description_witness : (rowOf ("A".toList, { value := 1, since := 0, depr := Versions.notYet, description := "R&D".toList })).text true 2 =
    "1 (0x01) & A & R&D".toList ∧ latexEsc "R&D".toList = "R\\&D".toList := by
  decide +kernel

example : latexEsc "50% of {x}_1^2 ~ #3 & $".toList = "50\\% of \\{x\\}\\_1\\^{}2 \\~{} \\#3 \\& \\$".toList := by decide +kernel
example : TexText "50\\% of \\{x\\}\\_1\\^{}2 \\~{} \\#3 \\& \\$".toList "50% of {x}_1^2 ~ #3 & $".toList := by
  have h : latexEsc "50% of {x}_1^2 ~ #3 & $".toList = "50\\% of \\{x\\}\\_1\\^{}2 \\~{} \\#3 \\& \\$".toList := by decide +kernel
  rw [← h]
  exact C111_plain_partial _ (by decide)

end Commsdsl.Props
