import Verif.Model.Cond
import Verif.Spec.Cond
/-!
# Conditions: C36 (expressions), C37 (lists)
-/
namespace Commsdsl.Props
open Commsdsl CondM Spec

/-! ## looking for an operator -/

private theorem getLast?_reverse_cons (p : Char) (t : Str) : ((p :: t).reverse).getLast? = some p := by simp

theorem searchOp_spec (op : Str) (hop : op ≠ []) : ∀ (before rest : Str),
    match searchOp op before rest with
    | .none => ∀ pre post, Unescaped op (before.reverse ++ rest) pre post → pre.length < before.length
    | .invalid => Unescaped op (before.reverse ++ rest) [] ((before.reverse ++ rest).drop op.length)
    | .at b a => Unescaped op (before.reverse ++ rest) b a ∧ b ≠ [] ∧ before.length ≤ b.length ∧
        ∀ pre post, Unescaped op (before.reverse ++ rest) pre post → pre.length < before.length ∨ b.length ≤ pre.length
  | before, [] => by
    simp only [searchOp]
    intro pre post h
    have := congrArg List.length h.1
    have : 0 < op.length := List.length_pos_iff.2 hop
    simp at *
    omega
  | before, c :: cs => by
    have key : ∀ pre post, Unescaped op (before.reverse ++ c :: cs) pre post → pre.length = before.length →
        pre = before.reverse ∧ c :: cs = op ++ post := by
      intro pre post h hl
      have h1 := h.1
      rw [List.append_assoc] at h1
      have := List.append_inj h1 (by simp [hl])
      exact ⟨this.1.symm, this.2⟩
    unfold searchOp
    by_cases hp : op.isPrefixOf (c :: cs) = true
    · rw [if_pos hp]
      obtain ⟨t, ht⟩ := List.isPrefixOf_iff_prefix.1 hp
      cases before with
      | nil =>
        refine ⟨?_, by simp⟩
        simp [← ht]
      | cons p ps =>
        by_cases hpe : p = '\\'
        · simp only [if_pos hpe]
          have ih := searchOp_spec op hop (c :: p :: ps) cs
          have e : (c :: p :: ps).reverse ++ cs = (p :: ps).reverse ++ c :: cs := by simp
          rw [e] at ih
          have step : ∀ pre post, Unescaped op ((p :: ps).reverse ++ c :: cs) pre post → pre.length < (c :: p :: ps).length →
              pre.length < (p :: ps).length := by
            intro pre post h hl
            rcases Nat.lt_or_ge pre.length (p :: ps).length with h' | h'
            · exact h'
            · have he : pre.length = (p :: ps).length := by simp at *; omega
              have := (key pre post h he).1
              exact absurd (by rw [this, getLast?_reverse_cons, hpe]) h.2
          split at ih
          · intro pre post h
            exact step pre post h (ih pre post h)
          · exact ih
          · obtain ⟨h1, h2, h3, h4⟩ := ih
            refine ⟨h1, h2, by simp at *; omega, fun pre post h => ?_⟩
            rcases h4 pre post h with h' | h'
            · exact .inl (step pre post h h')
            · exact .inr h'
        · simp only [if_neg hpe]
          refine ⟨⟨?_, ?_⟩, by simp, by simp, fun pre post h => ?_⟩
          · simp [← ht]
          · rw [getLast?_reverse_cons]; simpa using hpe
          · simp; omega
    · rw [if_neg hp]
      have ih := searchOp_spec op hop (c :: before) cs
      have e : (c :: before).reverse ++ cs = before.reverse ++ c :: cs := by simp
      rw [e] at ih
      have step : ∀ pre post, Unescaped op (before.reverse ++ c :: cs) pre post → pre.length < (c :: before).length →
          pre.length < before.length := by
        intro pre post h hl
        rcases Nat.lt_or_ge pre.length before.length with h' | h'
        · exact h'
        · have he : pre.length = before.length := by simp at *; omega
          have := (key pre post h he).2
          exact absurd (List.isPrefixOf_iff_prefix.2 ⟨post, this.symm⟩) hp
      split at ih
      · intro pre post h
        exact step pre post h (ih pre post h)
      · exact ih
      · obtain ⟨h1, h2, h3, h4⟩ := ih
        refine ⟨h1, h2, by simp at *; omega, fun pre post h => ?_⟩
        rcases h4 pre post h with h' | h'
        · exact .inl (step pre post h h')
        · exact .inr h'

/-- The search from the beginning. -/
theorem searchOp_none (op s : Str) (hop : op ≠ []) : searchOp op [] s = .none ↔ ∀ pre post, ¬ Unescaped op s pre post := by
  have h := searchOp_spec op hop [] s
  constructor
  · intro e pre post hu
    rw [e] at h
    have := h pre post (by simpa using hu)
    simp at this
  · intro hn
    cases e : searchOp op [] s with
    | none => rfl
    | invalid => rw [e] at h; exact absurd (by simpa using h) (hn _ _)
    | «at» b a => rw [e] at h; exact absurd (by simpa using h.1) (hn _ _)

theorem unescaped_inj {op s pre post pre' post' : Str} (h : Unescaped op s pre post) (h' : Unescaped op s pre' post')
    (hl : pre.length = pre'.length) : pre = pre' ∧ post = post' := by
  have := h.1.symm.trans h'.1
  rw [List.append_assoc, List.append_assoc] at this
  obtain ⟨a, b⟩ := List.append_inj this hl
  exact ⟨a, (List.append_cancel_left b)⟩

theorem searchOp_at (op s b a : Str) (hop : op ≠ []) : searchOp op [] s = .at b a ↔
    Unescaped op s b a ∧ b ≠ [] ∧ ∀ pre post, Unescaped op s pre post → b.length ≤ pre.length := by
  have h := searchOp_spec op hop [] s
  constructor
  · intro e
    rw [e] at h
    obtain ⟨h1, h2, _, h4⟩ := h
    refine ⟨by simpa using h1, h2, fun pre post hu => ?_⟩
    rcases h4 pre post (by simpa using hu) with h' | h'
    · simp at h'
    · exact h'
  · rintro ⟨h1, h2, h3⟩
    cases e : searchOp op [] s with
    | none => exact absurd h1 ((searchOp_none op s hop).1 e _ _)
    | invalid =>
      rw [e] at h
      have := h3 _ _ (by simpa using h)
      simp at this
      exact absurd this h2
    | «at» b' a' =>
      rw [e] at h
      obtain ⟨g1, g2, _, g4⟩ := h
      have g1 : Unescaped op s b' a' := by simpa using g1
      have l1 := h3 _ _ g1
      have l2 : b'.length ≤ b.length := by
        rcases g4 b a (by simpa using h1) with h' | h'
        · simp at h'
        · exact h'
      obtain ⟨e1, e2⟩ := unescaped_inj h1 g1 (by omega)
      rw [e1, e2]

/-! ## blanks -/

theorem dropLeftSpaces_spec (s : Str) : ∃ b, s = blanks b ++ dropLeftSpaces s := by
  induction s with
  | nil => exact ⟨0, rfl⟩
  | cons c cs ih =>
    by_cases hc : c = ' '
    · obtain ⟨b, hb⟩ := ih
      refine ⟨b + 1, ?_⟩
      subst hc
      simp only [dropLeftSpaces, blanks, List.replicate_succ] at *
      simp
      exact hb
    · exact ⟨0, by simp [dropLeftSpaces, blanks, hc]⟩

theorem dropLeftSpaces_head (s : Str) : (dropLeftSpaces s).head? ≠ some ' ' := by
  induction s with
  | nil => simp [dropLeftSpaces]
  | cons c cs ih =>
    by_cases hc : c = ' '
    · simpa [dropLeftSpaces, hc] using ih
    · simp [dropLeftSpaces, hc]

theorem dropLeftSpaces_blanks (b : Nat) (r : Str) (h : r.head? ≠ some ' ') : dropLeftSpaces (blanks b ++ r) = r := by
  induction b with
  | zero =>
    cases r with
    | nil => rfl
    | cons c cs => simp [dropLeftSpaces, blanks] at *; simp [h]
  | succ n ih => simpa [dropLeftSpaces, blanks, List.replicate_succ] using ih

theorem dropRightSpaces_eq (s : Str) : dropRightSpaces s = (dropLeftSpaces s.reverse).reverse := rfl

theorem dropRightSpaces_spec (s : Str) : ∃ a, s = dropRightSpaces s ++ blanks a := by
  obtain ⟨b, hb⟩ := dropLeftSpaces_spec s.reverse
  refine ⟨b, ?_⟩
  have := congrArg List.reverse hb
  rw [dropRightSpaces_eq]
  simpa [blanks] using this

theorem dropRightSpaces_last (s : Str) : (dropRightSpaces s).getLast? ≠ some ' ' := by
  rw [dropRightSpaces_eq, List.getLast?_reverse]
  exact dropLeftSpaces_head _

theorem dropRightSpaces_blanks (a : Nat) (l : Str) (h : l.getLast? ≠ some ' ') : dropRightSpaces (l ++ blanks a) = l := by
  rw [dropRightSpaces_eq]
  have : (l ++ blanks a).reverse = blanks a ++ l.reverse := by simp [blanks]
  rw [this, dropLeftSpaces_blanks _ _ (by simpa [List.head?_reverse] using h)]
  simp

/-! ## the chain of operators -/

theorem derefOk_iff (dsl : Nat) (s : Str) : derefOk dsl s = true ↔ Dereference (Dsl.isSupported dsl .interfaceFieldReference) s := by
  unfold derefOk Dereference
  split
  · simp
  · simp
  · rename_i h1 h2
    cases s with
    | nil => simp
    | cons c cs =>
      have a1 : c ≠ '$' := fun h => h1 cs (by rw [h])
      have a2 : c ≠ '%' := fun h => h2 cs (by rw [h])
      simp [a1, a2]

theorem checkComparison_none (dsl : Nat) (s op : Str) (hop : op ≠ []) :
    checkComparison dsl s op = .ok none ↔ ∀ pre post, ¬ Unescaped op s pre post := by
  rw [← searchOp_none op s hop]
  unfold checkComparison
  cases searchOp op [] s with
  | none => simp
  | invalid => simp
  | «at» b a =>
    simp only [reduceCtorEq, iff_false]
    split
    · simp
    · split
      · simp
      · split <;> simp

theorem checkComparison_some (dsl : Nat) (s op : Str) (hop : op ≠ []) (e : Expr) :
    checkComparison dsl s op = .ok (some e) ↔
      e.op = op ∧ derefOk dsl e.left = true ∧ e.left ≠ [] ∧ e.left.getLast? ≠ some ' ' ∧ e.right ≠ [] ∧ e.right.head? ≠ some ' ' ∧
      ∃ a b, Unescaped op s (e.left ++ blanks a) (blanks b ++ e.right) ∧
        ∀ pre post, Unescaped op s pre post → (e.left ++ blanks a).length ≤ pre.length := by
  constructor
  · intro h
    unfold checkComparison at h
    cases hs : searchOp op [] s with
    | none => rw [hs] at h; simp at h
    | invalid => rw [hs] at h; simp at h
    | «at» b a =>
      rw [hs] at h
      obtain ⟨h1, h2, h3⟩ := (searchOp_at op s b a hop).1 hs
      simp only at h
      split at h
      · simp at h
      · split at h
        · simp at h
        · split at h
          · rename_i hl hr hd
            simp only [Res.ok.injEq, Option.some.injEq] at h
            subst h
            obtain ⟨n, hn⟩ := dropRightSpaces_spec b
            obtain ⟨m, hm⟩ := dropLeftSpaces_spec a
            refine ⟨rfl, hd, ?_, dropRightSpaces_last b, ?_, dropLeftSpaces_head a, n, m, ?_, ?_⟩
            · simpa using hl
            · simpa using hr
            · simp only
              rw [← hn, ← hm]; exact h1
            · simp only
              rw [← hn]; exact h3
          · simp at h
  · rintro ⟨rfl, hd, hl, hlt, hr, hrt, a, b, hu, hmin⟩
    have hs := (searchOp_at e.op s _ _ hop).2 ⟨hu, by simp [hl], hmin⟩
    unfold checkComparison
    rw [hs]
    simp only
    rw [dropRightSpaces_blanks _ _ hlt, dropLeftSpaces_blanks _ _ hrt]
    rw [if_neg (by simpa using hl), if_neg (by simpa using hr), if_pos hd]

theorem checkComparison_no_ub (dsl : Nat) (s op : Str) : checkComparison dsl s op ≠ .ub := by
  unfold checkComparison
  split
  · simp
  · simp
  · simp only
    split
    · simp
    · split
      · simp
      · split <;> simp

theorem checkBool_no_ub (dsl : Nat) (s : Str) : checkBool dsl s ≠ .ub := by
  unfold checkBool
  split
  · simp
  · split <;> simp
  · simp only
    split
    · simp
    · split <;> simp
  · simp

theorem checkBool_ok (dsl : Nat) (s : Str) (e : Expr) : checkBool dsl s = .ok e ↔
    e.left = [] ∧ ((e.op = [] ∧ e.right = s ∧ derefOk dsl s = true) ∨
      (e.op = ['!'] ∧ derefOk dsl e.right = true ∧ ∃ n, s = '!' :: blanks n ++ e.right)) := by
  obtain ⟨l, o, r⟩ := e
  unfold checkBool
  split
  · rename_i cs
    simp [derefOk]
    grind
  · rename_i cs
    by_cases h : Dsl.isSupported dsl .interfaceFieldReference = true
    · simp [derefOk, h]; grind
    · simp [derefOk, h]
  · rename_i cs
    have hne : derefOk dsl ('!' :: cs) = false := rfl
    simp only [hne, List.cons_append, List.cons.injEq, true_and, Bool.false_eq_true, and_false, false_or]
    constructor
    · intro h
      split at h
      · simp at h
      · split at h
        · rename_i h1 h2
          simp only [Res.ok.injEq, Expr.mk.injEq] at h
          obtain ⟨rfl, rfl, rfl⟩ := h
          exact ⟨rfl, rfl, h2, dropLeftSpaces_spec cs⟩
        · simp at h
    · rintro ⟨rfl, rfl, hd, n, hn⟩
      have hr : r.head? ≠ some ' ' := by
        intro hh
        rw [derefOk_iff] at hd
        rcases hd with hd | ⟨hd, _⟩ <;> · rw [hh] at hd; simp at hd
      have hr0 : r ≠ [] := by rintro rfl; simp [derefOk] at hd
      rw [hn, dropLeftSpaces_blanks _ _ hr, if_neg (by simpa using hr0), if_pos hd]
  · rename_i h1 h2 h3
    simp only [reduceCtorEq, false_iff]
    rintro ⟨_, ⟨_, _, hd⟩ | ⟨_, _, n, hn⟩⟩
    · rw [derefOk_iff] at hd
      cases s with
      | nil => simp [Dereference] at hd
      | cons c cs =>
        rcases hd with hd | ⟨hd, _⟩
        · simp at hd; exact h1 cs (by rw [hd])
        · simp at hd; exact h2 cs (by rw [hd])
    · exact h3 _ hn

/-- The chain over `ops`: either the expression is a comparison with the first operator that occurs, or no operator occurs. -/
theorem tryOps_ok (dsl : Nat) (s : Str) (e : Expr) : ∀ (os : List Str), (∀ o ∈ os, o ≠ []) →
    (tryOps dsl s os = .ok e ↔
      (∃ hi op lo, os = hi ++ op :: lo ∧ (∀ o ∈ hi, ∀ pre post, ¬ Unescaped o s pre post) ∧ checkComparison dsl s op = .ok (some e)) ∨
      ((∀ o ∈ os, ∀ pre post, ¬ Unescaped o s pre post) ∧ checkBool dsl s = .ok e))
  | [], _ => by simp [tryOps]
  | op :: rest, hne => by
    have ih := tryOps_ok dsl s e rest (fun o ho => hne o (List.mem_cons_of_mem _ ho))
    have hop := hne op (List.mem_cons_self ..)
    unfold tryOps
    cases hc : checkComparison dsl s op with
    | err =>
      have hnn : ¬ ∀ pre post, ¬ Unescaped op s pre post := by rw [← checkComparison_none dsl s op hop, hc]; simp
      simp only [bind, Res.bind, reduceCtorEq, false_iff]
      rintro (⟨hi, o, lo, h1, h2, h3⟩ | ⟨h1, _⟩)
      · cases hi with
        | nil => simp at h1; rw [← h1.1, hc] at h3; simp at h3
        | cons x xs => simp at h1; exact hnn (fun pre post => h2 op (by rw [h1.1]; simp) pre post)
      · exact hnn (h1 op (List.mem_cons_self ..))
    | ub => exact absurd hc (checkComparison_no_ub dsl s op)
    | ok r =>
      cases r with
      | none =>
        have hnn := (checkComparison_none dsl s op hop).1 hc
        simp only [bind, Res.bind]
        rw [ih]
        constructor
        · rintro (⟨hi, o, lo, h1, h2, h3⟩ | ⟨h1, h2⟩)
          · refine .inl ⟨op :: hi, o, lo, by rw [h1]; rfl, ?_, h3⟩
            intro o' ho'
            rcases List.mem_cons.1 ho' with rfl | h'
            · exact hnn
            · exact h2 o' h'
          · refine .inr ⟨?_, h2⟩
            intro o' ho'
            rcases List.mem_cons.1 ho' with rfl | h'
            · exact hnn
            · exact h1 o' h'
        · rintro (⟨hi, o, lo, h1, h2, h3⟩ | ⟨h1, h2⟩)
          · cases hi with
            | nil => simp at h1; rw [← h1.1, hc] at h3; simp at h3
            | cons x xs =>
              simp at h1
              exact .inl ⟨xs, o, lo, h1.2, fun o' ho' => h2 o' (List.mem_cons_of_mem _ ho'), h3⟩
          · exact .inr ⟨fun o' ho' => h1 o' (List.mem_cons_of_mem _ ho'), h2⟩
      | some e' =>
        have hnn : ¬ ∀ pre post, ¬ Unescaped op s pre post := by rw [← checkComparison_none dsl s op hop, hc]; simp
        simp only [bind, Res.bind, pure]
        constructor
        · intro h
          exact .inl ⟨[], op, rest, rfl, by simp, by rw [hc, Res.ok.inj h]⟩
        · rintro (⟨hi, o, lo, h1, h2, h3⟩ | ⟨h1, h2⟩)
          · cases hi with
            | nil => simp at h1; rw [← h1.1, hc] at h3; simp at h3; rw [h3]
            | cons x xs => simp at h1; exact absurd (fun pre post => h2 op (by rw [h1.1]; simp) pre post) hnn
          · exact absurd (h1 op (List.mem_cons_self ..)) hnn

theorem ops_eq : ops = condOps := rfl

theorem ops_ne : ∀ o ∈ ops, o ≠ [] := by decide

/-- C36: a text is accepted as a comparison exactly when it reads as one, and then with these operands and operator. -/
theorem C36_comparison_iff (dsl : Nat) (s : Str) (e : Expr) :
    (parseExpr dsl s = .ok e ∧ e.left ≠ []) ↔
      Comparison s e.left e.op e.right ∧ Dereference (Dsl.isSupported dsl .interfaceFieldReference) e.left := by
  constructor
  · rintro ⟨h, hl⟩
    unfold parseExpr at h
    split at h
    · simp at h
    rw [tryOps_ok dsl s e ops ops_ne] at h
    rcases h with ⟨hi, op, lo, ho, hhi, hc⟩ | ⟨_, hb⟩
    · have hmem : op ∈ ops := by rw [ho]; simp
      obtain ⟨rfl, hd, h1, h2, h3, h4, a, b, hu, hmin⟩ := (checkComparison_some dsl s op (ops_ne op hmem) e).1 hc
      refine ⟨⟨hmem, ⟨a, b, hu, hmin, ?_⟩, h1, h2, h3, h4⟩, (derefOk_iff _ _).1 hd⟩
      intro higher hpre hnot op' hop'
      apply hhi
      obtain ⟨t, ht⟩ := hpre
      rw [← ops_eq, ho] at ht
      rcases List.append_eq_append_iff.1 ht with ⟨u, hu1, _⟩ | ⟨u, hu1, hu2⟩
      · rw [hu1]; exact List.mem_append_left _ hop'
      · cases u with
        | nil => rw [hu1] at hop'; simpa using hop'
        | cons x xs =>
          have : x = e.op := by simp at hu2; exact hu2.1.symm
          exact absurd (by rw [hu1, this]; simp) hnot
    · exact absurd ((checkBool_ok dsl s e).1 hb).1 hl
  · rintro ⟨⟨hmem, ⟨a, b, hu, hmin, hprec⟩, h1, h2, h3, h4⟩, hd⟩
    refine ⟨?_, h1⟩
    unfold parseExpr
    rw [if_neg (by rw [hu.1]; simp [h1])]
    rw [tryOps_ok dsl s e ops ops_ne]
    left
    obtain ⟨hi, lo, ho, hnot⟩ : ∃ hi lo, ops = hi ++ e.op :: lo ∧ e.op ∉ hi := List.eq_append_cons_of_mem hmem
    refine ⟨hi, e.op, lo, ho, hprec hi ⟨e.op :: lo, ho.symm⟩ hnot, ?_⟩
    exact (checkComparison_some dsl s e.op (ops_ne _ hmem) e).2 ⟨rfl, (derefOk_iff _ _).2 hd, h1, h2, h3, h4, a, b, hu, hmin⟩

/-- C36: a text is accepted as a check of a single field exactly when no operator occurs in it and it is a reference, or `!` and a
    reference. -/
theorem C36_single_iff (dsl : Nat) (s : Str) (e : Expr) :
    (parseExpr dsl s = .ok e ∧ e.left = []) ↔
      (∀ op ∈ condOps, ∀ pre post, ¬ Unescaped op s pre post) ∧ e.left = [] ∧
      Dereference (Dsl.isSupported dsl .interfaceFieldReference) e.right ∧
      ((e.op = [] ∧ s = e.right) ∨ (e.op = ['!'] ∧ ∃ n, s = '!' :: blanks n ++ e.right)) := by
  constructor
  · rintro ⟨h, hl⟩
    unfold parseExpr at h
    split at h
    · simp at h
    rw [tryOps_ok dsl s e ops ops_ne] at h
    rcases h with ⟨hi, op, lo, ho, hhi, hc⟩ | ⟨hn, hb⟩
    · have hmem : op ∈ ops := by rw [ho]; simp
      obtain ⟨_, _, h1, _⟩ := (checkComparison_some dsl s op (ops_ne op hmem) e).1 hc
      exact absurd hl h1
    · refine ⟨hn, hl, ?_⟩
      rcases ((checkBool_ok dsl s e).1 hb).2 with ⟨h1, h2, h3⟩ | ⟨h1, h2, h3⟩
      · exact ⟨(derefOk_iff _ _).1 (by rw [h2]; exact h3), .inl ⟨h1, h2.symm⟩⟩
      · exact ⟨(derefOk_iff _ _).1 h2, .inr ⟨h1, h3⟩⟩
  · rintro ⟨hn, hl, hd, h⟩
    refine ⟨?_, hl⟩
    have hd' := (derefOk_iff _ _).2 hd
    unfold parseExpr
    rw [if_neg, tryOps_ok dsl s e ops ops_ne]
    · refine .inr ⟨hn, (checkBool_ok dsl s e).2 ⟨hl, ?_⟩⟩
      rcases h with ⟨h1, h2⟩ | ⟨h1, h2⟩
      · exact .inl ⟨h1, h2.symm, by rw [h2]; exact hd'⟩
      · exact .inr ⟨h1, hd', h2⟩
    · rcases h with ⟨_, h2⟩ | ⟨_, n, h2⟩
      · rw [h2]; intro h0
        have : e.right = [] := by simpa using h0
        rw [this] at hd; simp [Dereference] at hd
      · rw [h2]; simp

/-- C36: no condition text makes the parser misbehave. -/
theorem C36_no_ub (dsl : Nat) (s : Str) : parseExpr dsl s ≠ .ub := by
  unfold parseExpr
  split
  · simp
  · generalize ops = os
    induction os with
    | nil => exact checkBool_no_ub dsl s
    | cons o os ih =>
      unfold tryOps
      have := checkComparison_no_ub dsl s o
      cases h : checkComparison dsl s o with
      | err => simp [bind, Res.bind]
      | ub => exact absurd h this
      | ok r => cases r <;> simp [bind, Res.bind, pure, ih]

/-! ## reading back a printed condition -/

theorem barrier {op post t rest : Str} (hsp : ' ' ∉ op) (h : op ++ post = t ++ ' ' :: rest) :
    ∃ t', t = op ++ t' ∧ post = t' ++ ' ' :: rest := by
  rcases List.append_eq_append_iff.1 h with ⟨u, hu1, hu2⟩ | ⟨u, hu1, hu2⟩
  · exact ⟨u, hu1, hu2⟩
  · cases u with
    | nil => exact ⟨[], by simpa using hu1.symm, by simpa using hu2.symm⟩
    | cons x xs =>
      simp at hu2
      exact absurd (by rw [hu1, ← hu2.1]; simp) hsp

theorem skipBlanks {op post : Str} (hne : op ≠ []) (hsp : ' ' ∉ op) : ∀ {a : Nat} {x t : Str}, blanks a ++ x = t ++ op ++ post →
    ∃ t', t = blanks a ++ t' ∧ x = t' ++ op ++ post
  | 0, x, t, h => ⟨t, rfl, by simpa [blanks] using h⟩
  | a + 1, x, t, h => by
    cases t with
    | nil =>
      cases op with
      | nil => exact absurd rfl hne
      | cons c cs =>
        simp [blanks, List.replicate_succ] at h
        exact absurd (by rw [← h.1]; simp) hsp
    | cons y ys =>
      simp [blanks, List.replicate_succ] at h
      obtain ⟨t', h1, h2⟩ := skipBlanks (a := a) (x := x) (t := ys) hne hsp (by simpa [blanks] using h.2)
      refine ⟨t', ?_, h2⟩
      rw [← h.1, h1]; simp [blanks, List.replicate_succ]

theorem op_facts : ∀ o ∈ condOps, o ≠ [] ∧ ' ' ∉ o ∧ o.getLast? ≠ some '\\' := by decide

theorem last_after_op {op : Str} (hop : op ∈ condOps) (x : Str) (b : Nat) (u : Str) :
    (x ++ op ++ blanks b ++ u).getLast? = some '\\' ↔ u.getLast? = some '\\' := by
  cases u with
  | nil =>
    cases b with
    | zero =>
      obtain ⟨h1, _, h3⟩ := op_facts op hop
      simp only [blanks, List.replicate_zero, List.append_nil, List.getLast?_append]
      constructor
      · intro h
        cases hg : op.getLast? with
        | none => simp at hg; exact absurd hg h1
        | some c => rw [hg] at h h3; simp at h; simp [h] at h3
      · simp
    | succ n => simp [blanks, List.replicate_succ', List.getLast?_append]
  | cons c cs => simp [List.getLast?_append, List.getLast?_cons]

/-- An operator found in `l ++ blanks ++ op ++ blanks ++ r`: in `l`, in `r`, or overlapping `op`. -/
theorem locate {op op' l r pre post : Str} {a b : Nat} (hne : op' ≠ []) (hsp : ' ' ∉ op')
    (h : l ++ blanks (a + 1) ++ op ++ blanks b ++ r = pre ++ op' ++ post) :
    (∃ t, l = pre ++ op' ++ t) ∨
    (∃ t, t.length < op.length ∧ pre = l ++ blanks (a + 1) ++ t ∧ op ++ blanks b ++ r = t ++ op' ++ post) ∨
    (∃ t, pre = l ++ blanks (a + 1) ++ op ++ blanks b ++ t ∧ r = t ++ op' ++ post) := by
  have h' : l ++ (blanks (a + 1) ++ (op ++ (blanks b ++ r))) = pre ++ (op' ++ post) := by simpa using h
  rcases List.append_eq_append_iff.1 h' with ⟨u, hu1, hu2⟩ | ⟨u, hu1, hu2⟩
  · right
    obtain ⟨t, ht1, ht2⟩ := skipBlanks (x := op ++ (blanks b ++ r)) (t := u) (post := post) hne hsp (by rw [hu2]; simp)
    rcases Nat.lt_or_ge t.length op.length with hlt | hge
    · refine .inl ⟨t, hlt, by rw [hu1, ht1]; simp, by simpa using ht2⟩
    · right
      have ht2' : op ++ (blanks b ++ r) = t ++ (op' ++ post) := by simpa using ht2
      rcases List.append_eq_append_iff.1 ht2' with ⟨v, hv1, hv2⟩ | ⟨v, hv1, hv2⟩
      · obtain ⟨w, hw1, hw2⟩ := skipBlanks (x := r) (t := v) (post := post) hne hsp (by rw [hv2]; simp)
        exact ⟨w, by rw [hu1, ht1, hv1, hw1]; simp, hw2⟩
      · have hl := congrArg List.length hv1
        simp at hl
        have : v = [] := List.length_eq_zero_iff.1 (by omega)
        subst this
        simp at hv1 hv2
        have : blanks b ++ r = [] ++ op' ++ post := by simpa using hv2.symm
        obtain ⟨w, hw1, hw2⟩ := skipBlanks hne hsp this
        exact ⟨w, by rw [hu1, ht1, ← hv1]; simp [← hw1], hw2⟩
  · left
    have : op' ++ post = u ++ ' ' :: (blanks a ++ (op ++ (blanks b ++ r))) := by
      rw [hu2]; simp [blanks, List.replicate_succ]
    obtain ⟨t, ht, _⟩ := barrier hsp this
    exact ⟨t, by rw [hu1, ht]; simp⟩

/-- An operator of higher precedence can overlap `op` only as `op` followed by `=`. -/
theorem overlap {op op' : Str} {hi lo : List Str} (ho : condOps = hi ++ op :: lo) (hop' : op' ∈ hi) {t x post : Str}
    (hlt : t.length < op.length) (h : op ++ x = t ++ op' ++ post) : "=".toList ∈ hi ∧ ∃ y, x = '=' :: y := by
  have hcases : op ∈ condOps := by rw [ho]; simp
  simp only [condOps] at ho
  have split6 : ∀ (A : List Str), A = hi ++ op :: lo → hi = A.take hi.length ∧ A[hi.length]? = some op := by
    rintro A rfl; simp
  obtain ⟨e1, e2⟩ := split6 _ ho
  have hlen : hi.length < 6 := by have := congrArg List.length ho; simp at this; omega
  generalize hi.length = n at *
  subst e1
  have : n = 0 ∨ n = 1 ∨ n = 2 ∨ n = 3 ∨ n = 4 ∨ n = 5 := by omega
  rcases this with rfl | rfl | rfl | rfl | rfl | rfl <;> simp at e2 hop' <;> subst e2
  · subst hop'
    rcases t with _ | ⟨t1, _ | ⟨t2, t3⟩⟩ <;> simp at hlt h <;> omega
  · rcases hop' with rfl | rfl <;> rcases t with _ | ⟨t1, _ | ⟨t2, t3⟩⟩ <;> simp at hlt h <;> omega
  · rcases hop' with rfl | rfl | rfl <;> rcases t with _ | ⟨t1, _ | ⟨t2, t3⟩⟩ <;> simp at hlt h <;> omega
  · rcases hop' with rfl | rfl | rfl | rfl <;> rcases t with _ | ⟨t1, _ | ⟨t2, t3⟩⟩ <;> simp at hlt h
    exact ⟨by decide, post, h⟩
  · rcases hop' with rfl | rfl | rfl | rfl | rfl <;> rcases t with _ | ⟨t1, _ | ⟨t2, t3⟩⟩ <;> simp at hlt h
    exact ⟨by decide, post, h⟩

/-- Reading `l op r` off a text with other blanks around the operator. -/
theorem Comparison.respace {s l op r : Str} (h : Comparison s l op r) (a b : Nat) :
    Comparison (l ++ blanks (a + 1) ++ op ++ blanks b ++ r) l op r := by
  obtain ⟨hop, ⟨a0, b0, hu, hmin, hprec⟩, h1, h2, h3, h4⟩ := h
  obtain ⟨hi, lo, ho, hnot⟩ : ∃ hi lo, condOps = hi ++ op :: lo ∧ op ∉ hi := List.eq_append_cons_of_mem hop
  have hsE : s = l ++ blanks a0 ++ op ++ blanks b0 ++ r := by simpa using hu.1
  -- an occurrence in `l` or in `r` is also one in `s`
  have inL : ∀ o pre t, pre.getLast? ≠ some '\\' → l = pre ++ o ++ t → ∃ post, Unescaped o s pre post := by
    intro o pre t hp hl
    exact ⟨t ++ blanks a0 ++ op ++ blanks b0 ++ r, by rw [hsE, hl]; simp, hp⟩
  have inR : ∀ o t post, (l ++ blanks (a + 1) ++ op ++ blanks b ++ t).getLast? ≠ some '\\' → r = t ++ o ++ post →
      Unescaped o s (l ++ blanks a0 ++ op ++ blanks b0 ++ t) post := by
    intro o t post hp hr
    refine ⟨by rw [hsE, hr]; simp, ?_⟩
    rw [Ne, last_after_op hop] at hp ⊢
    exact hp
  have hprec' : ∀ op' ∈ hi, ∀ pre post, ¬ Unescaped op' s pre post := hprec hi ⟨op :: lo, ho.symm⟩ hnot
  refine ⟨hop, ⟨a + 1, b, ⟨by simp, ?_⟩, ?_, ?_⟩, h1, h2, h3, h4⟩
  · simp [blanks, List.replicate_succ', List.getLast?_append]
  · intro pre post hu'
    obtain ⟨hne, hsp, _⟩ := op_facts op hop
    rcases locate (op := op) hne hsp hu'.1 with ⟨t, ht⟩ | ⟨t, _, ht, _⟩ | ⟨t, ht, _⟩
    · obtain ⟨post2, hp2⟩ := inL op pre t hu'.2 ht
      have := hmin _ _ hp2
      have hl := congrArg List.length ht
      have := List.length_pos_iff.2 hne
      simp at *
      omega
    · rw [ht]; simp
    · rw [ht]; simp
  · intro higher hpre hnot2 op' hop' pre post hu'
    have hhi : op' ∈ hi := by
      obtain ⟨t, ht⟩ := hpre
      rw [ho] at ht
      rcases List.append_eq_append_iff.1 ht with ⟨u, hu1, _⟩ | ⟨u, hu1, hu2⟩
      · rw [hu1]; exact List.mem_append_left _ hop'
      · cases u with
        | nil => rw [hu1] at hop'; simpa using hop'
        | cons x xs =>
          have : x = op := by simp at hu2; exact hu2.1.symm
          exact absurd (by rw [hu1, this]; simp) hnot2
    have hmem' : op' ∈ condOps := by rw [ho]; exact List.mem_append_left _ hhi
    obtain ⟨hne, hsp, _⟩ := op_facts op' hmem'
    rcases locate (op := op) hne hsp hu'.1 with ⟨t, ht⟩ | ⟨t, hlt, _, ht⟩ | ⟨t, ht, hr⟩
    · obtain ⟨post2, hp2⟩ := inL op' pre t hu'.2 ht
      exact hprec' op' hhi _ _ hp2
    · rw [List.append_assoc] at ht
      obtain ⟨heq, y, hy⟩ := overlap ho hhi hlt ht
      cases b with
      | succ n => simp [blanks, List.replicate_succ] at hy
      | zero =>
        have hr : r = [] ++ "=".toList ++ y := by simpa [blanks] using hy
        refine hprec' _ heq _ _ (inR _ [] y ?_ hr)
        rw [Ne, last_after_op hop]; simp
    · exact hprec' op' hhi _ _ (inR op' t post (by rw [← ht]; exact hu'.2) hr)

/-- C36: printing an accepted comparison with at least one blank before the operator and reading it back gives the same expression; the
    number of blanks does not matter. -/
theorem C36_comparison_roundtrip (dsl : Nat) (s : Str) (e : Expr) (h : parseExpr dsl s = .ok e) (hl : e.left ≠ []) (a b : Nat) :
    parseExpr dsl (e.left ++ blanks (a + 1) ++ e.op ++ blanks b ++ e.right) = .ok e := by
  obtain ⟨hc, hd⟩ := (C36_comparison_iff dsl s e).1 ⟨h, hl⟩
  exact ((C36_comparison_iff dsl _ e).2 ⟨Comparison.respace hc a b, hd⟩).1

/-- C36: the same for the check of a single field. -/
theorem C36_single_roundtrip (dsl : Nat) (s : Str) (e : Expr) (h : parseExpr dsl s = .ok e) (hl : e.left = []) :
    (e.op = [] ∧ e.right = s) ∨ (e.op = ['!'] ∧ ∀ n, parseExpr dsl ('!' :: blanks n ++ e.right) = .ok e) := by
  obtain ⟨hn, _, hd, h'⟩ := (C36_single_iff dsl s e).1 ⟨h, hl⟩
  rcases h' with ⟨h1, h2⟩ | ⟨h1, m, h2⟩
  · exact .inl ⟨h1, h2.symm⟩
  · refine .inr ⟨h1, fun n => ((C36_single_iff dsl _ e).2 ⟨?_, hl, hd, .inr ⟨h1, n, rfl⟩⟩).1⟩
    intro op hop pre post hu
    obtain ⟨hne, hsp, _⟩ := op_facts op hop
    have hrh : e.right.head? = some '$' ∨ e.right.head? = some '%' := by
      rcases hd with h | ⟨h, _⟩
      · exact .inl h
      · exact .inr h
    -- an occurrence starts at the `!` or lies in the reference
    have hcase : (pre = [] ∧ False) ∨ ∃ t, pre = '!' :: blanks n ++ t ∧ e.right = t ++ op ++ post := by
      cases pre with
      | nil =>
        exfalso
        have h0 := hu.1
        have : (∃ r, e.right = '$' :: r) ∨ ∃ r, e.right = '%' :: r := by
          cases hr : e.right with
          | nil => rw [hr] at hrh; simp at hrh
          | cons c cs => rw [hr] at hrh; simp at hrh; rcases hrh with rfl | rfl <;> simp
        cases n <;> simp [condOps] at hop <;> rcases hop with rfl | rfl | rfl | rfl | rfl | rfl <;>
          rcases this with ⟨r, hr⟩ | ⟨r, hr⟩ <;> rw [hr] at h0 <;> simp [blanks, List.replicate_succ] at h0
      | cons c cs =>
        right
        have h0 := hu.1
        simp at h0
        obtain ⟨t, ht1, ht2⟩ := skipBlanks (t := cs) (x := e.right) (a := n) hne hsp (by simpa using h0.2)
        exact ⟨t, by rw [← h0.1, ht1]; simp, ht2⟩
    rcases hcase with ⟨_, hf⟩ | ⟨t, ht1, ht2⟩
    · exact hf
    · refine hn op hop ('!' :: blanks m ++ t) post ⟨by rw [h2, ht2]; simp, ?_⟩
      have := hu.2
      rw [ht1] at this
      cases t with
      | nil => cases m <;> simp [blanks, List.replicate_succ', List.getLast?_cons, List.getLast?_append]
      | cons c cs => simpa [List.getLast?_append, List.getLast?_cons] using this

example : parseExpr 7 "$flags.bit1   != 0x5".toList = .ok ⟨"$flags.bit1".toList, "!=".toList, "0x5".toList⟩ := by decide
example : parseExpr 7 "!  $a".toList = .ok ⟨[], ['!'], "$a".toList⟩ := by decide
example : parseExpr 7 "$a <= $b".toList = .ok ⟨"$a".toList, "<=".toList, "$b".toList⟩ := by decide
/-- The blank before the operator matters: `$a! = 5` compares the (ill-named) field `a!`, `$a!=5` does not. -/
example : parseExpr 7 "$a! = 5".toList = .ok ⟨"$a!".toList, "=".toList, "5".toList⟩ ∧
    parseExpr 7 "$a!=5".toList = .ok ⟨"$a".toList, "!=".toList, "5".toList⟩ := by decide
/-- Only the character right before an operator escapes it, so escaping `>=` leaves its `=`. -/
example : parseExpr 7 "$a \\>= 5".toList = .ok ⟨"$a \\>".toList, "=".toList, "5".toList⟩ := by decide

/-! ## C37 -/

/-- The elements among the children of a node. -/
def elements (cs : List Xml) : List Xml := cs.filter Xml.isElem

mutual
/-- `c` is what the element says: a `<cond>` (`condStr`) element is the expression of its text, an `<and>`/`<or>` element the list of what
    its child elements say, at least two and in document order. -/
inductive Says (dsl : Nat) (condStr : Str) : Xml → Cond → Prop where
  | expr (n : Xml) (text : Str) (e : Expr) (hn : n.name = condStr) (ht : nodeValue n = some text) (he : parseExpr dsl text = .ok e) :
      Says dsl condStr n (.expr e)
  | list (n : Xml) (t : ListType) (cs : List Cond) (ht : listType n.name = some t)
      (h2 : 2 ≤ cs.length) (hcs : SaysAll dsl condStr (elements n.children) cs) : Says dsl condStr n (.list t cs)
/-- element by element -/
inductive SaysAll (dsl : Nat) (condStr : Str) : List Xml → List Cond → Prop where
  | nil : SaysAll dsl condStr [] []
  | cons {n : Xml} {c : Cond} {ns : List Xml} {cs : List Cond} : Says dsl condStr n c → SaysAll dsl condStr ns cs →
      SaysAll dsl condStr (n :: ns) (c :: cs)
end

theorem SaysAll.length_eq {dsl : Nat} {condStr : Str} : ∀ {ns : List Xml} {cs : List Cond}, SaysAll dsl condStr ns cs → ns.length = cs.length
  | _, _, .nil => rfl
  | _, _, .cons _ h => by simp [h.length_eq]

mutual
theorem parseList_says (dsl : Nat) (condStr : Str) : ∀ (n : Xml) (c : Cond), parseList dsl condStr n = .ok c → Says dsl condStr n c
  | .elem name attrs children, c, h => by
    unfold parseList at h
    split at h
    · simp at h
    · rename_i t ht
      rw [Res.bind_eq_ok] at h
      obtain ⟨cs, h1, h2⟩ := h
      split at h2
      · simp at h2
      · rename_i hlen
        simp only [Res.pure_eq, Res.ok.injEq] at h2
        subst h2
        exact .list _ t cs (by simpa [Xml.name] using ht) (by omega) (by simpa [Xml.children] using parseConds_says dsl condStr children cs h1)
  | .text _, c, h => by simp [parseList] at h
  | .other, c, h => by simp [parseList] at h
theorem parseConds_says (dsl : Nat) (condStr : Str) : ∀ (ns : List Xml) (cs : List Cond), parseConds dsl condStr ns = .ok cs →
    SaysAll dsl condStr (elements ns) cs
  | [], cs, h => by
    simp [parseConds] at h
    subst h
    exact .nil
  | n :: ns, cs, h => by
    unfold parseConds at h
    split at h
    · rename_i hn
      have := parseConds_says dsl condStr ns cs h
      have hf : elements (n :: ns) = elements ns := by simp at hn; simp [elements, hn]
      rw [hf]; exact this
    · rename_i hn
      simp at hn
      have hf : elements (n :: ns) = n :: elements ns := by simp [elements, hn]
      rw [hf]
      split at h
      · rename_i hname
        simp only [Res.bind_eq_ok, Res.ofOption_eq_ok, Res.pure_eq, Res.ok.injEq] at h
        obtain ⟨e, he, x, hx, xs, hxs, rfl⟩ := h
        exact .cons (.expr n e x hname he hx) (parseConds_says dsl condStr ns xs hxs)
      · simp only [Res.bind_eq_ok, Res.pure_eq, Res.ok.injEq] at h
        obtain ⟨x, hx, xs, hxs, rfl⟩ := h
        exact .cons (parseList_says dsl condStr n x hx) (parseConds_says dsl condStr ns xs hxs)
end

mutual
theorem says_parseList (dsl : Nat) (condStr : Str) (hc : listType condStr = none) : ∀ (n : Xml) (c : Cond), n.isElem = true →
    n.name ≠ condStr → Says dsl condStr n c → parseList dsl condStr n = .ok c
  | .elem name attrs children, c, _, hn, h => by
    cases h with
    | expr _ text e hn' ht he => exact absurd hn' hn
    | list _ t cs ht h2 hcs =>
      have hp := says_parseConds dsl condStr hc children cs hcs
      unfold parseList
      have ht : listType name = some t := by simpa [Xml.name] using ht
      rw [ht]
      simp only [hp, bind, Res.bind]
      rw [if_neg (by omega)]
      rfl
  | .text _, c, he, _, _ => by simp [Xml.isElem] at he
  | .other, c, he, _, _ => by simp [Xml.isElem] at he
theorem says_parseConds (dsl : Nat) (condStr : Str) (hc : listType condStr = none) : ∀ (ns : List Xml) (cs : List Cond),
    SaysAll dsl condStr (elements ns) cs → parseConds dsl condStr ns = .ok cs
  | [], cs, h => by
    simp [elements] at h
    cases h
    rfl
  | n :: ns, cs, h => by
    unfold parseConds
    by_cases hn : n.isElem = true
    · have hf : elements (n :: ns) = n :: elements ns := by simp [elements, hn]
      rw [hf] at h
      obtain _ | ⟨h1, h2⟩ := h
      have ih := says_parseConds dsl condStr hc ns _ h2
      rw [if_neg (by simp [hn])]
      by_cases hname : n.name = condStr
      · rw [if_pos hname]
        cases h1 with
        | expr _ text e hn' ht he =>
          simp only [ht, he, ih, Res.ofOption, bind, Res.bind, pure]
        | list _ t cs' ht _ _ => rw [hname, hc] at ht; simp at ht
      · rw [if_neg hname]
        have := says_parseList dsl condStr hc n _ hn hname h1
        simp only [this, ih, bind, Res.bind, pure]
    · have hf : elements (n :: ns) = elements ns := by simp [elements, hn]
      rw [hf] at h
      rw [if_pos (by simpa using hn)]
      exact says_parseConds dsl condStr hc ns cs h
end

/-- C37: an `<and>`/`<or>` element (`condStr` is the other element name: `cond`, `construct`, `readCond`, `validCond`) is accepted as the
    tree `c` exactly when the document says `c`: all its conditions, in document order, at least two in every list. -/
theorem C37_list_iff (dsl : Nat) (condStr : Str) (hc : listType condStr = none) (n : Xml) (he : n.isElem = true)
    (hn : n.name ≠ condStr) (c : Cond) : parseList dsl condStr n = .ok c ↔ Says dsl condStr n c :=
  ⟨parseList_says dsl condStr n c, says_parseList dsl condStr hc n c he hn⟩

mutual
/-- Every list in the tree has at least two elements. -/
def AtLeastTwo : Cond → Prop
  | .expr _ => True
  | .list _ cs => 2 ≤ cs.length ∧ AllAtLeastTwo cs
/-- all of them -/
def AllAtLeastTwo : List Cond → Prop
  | [] => True
  | c :: cs => AtLeastTwo c ∧ AllAtLeastTwo cs
end

mutual
/-- The expressions of a condition tree from left to right. -/
def leaves : Cond → List Expr
  | .expr e => [e]
  | .list _ cs => allLeaves cs
/-- all of them -/
def allLeaves : List Cond → List Expr
  | [] => []
  | c :: cs => leaves c ++ allLeaves cs
end

mutual
/-- The texts of the condition elements of the document from left to right. -/
def condTexts (condStr : Str) : Xml → List (Option Str)
  | .elem name attrs children =>
    if name = condStr then [nodeValue (.elem name attrs children)] else allCondTexts condStr children
  | .text _ => []
  | .other => []
/-- all of them -/
def allCondTexts (condStr : Str) : List Xml → List (Option Str)
  | [] => []
  | c :: cs => condTexts condStr c ++ allCondTexts condStr cs
end

mutual
theorem says_leaves (dsl : Nat) (condStr : Str) (hc : listType condStr = none) : ∀ (n : Xml) (c : Cond), Says dsl condStr n c → n.isElem = true →
    AtLeastTwo c ∧ (condTexts condStr n).map (Option.map (parseExpr dsl)) = (leaves c).map (fun e => some (.ok e))
  | .elem name attrs children, c, h, _ => by
    cases h with
    | expr _ text e hn' ht he =>
      have : name = condStr := by simpa [Xml.name] using hn'
      simp only [AtLeastTwo, condTexts, this, if_true, leaves, true_and]
      rw [this] at ht
      simp [ht, he]
    | list _ t cs ht h2 hcs =>
      have hne : name ≠ condStr := by
        rintro rfl
        simp [Xml.name, hc] at ht
      have := saysAll_leaves dsl condStr hc children cs hcs
      simp only [AtLeastTwo, condTexts, if_neg hne, leaves]
      exact ⟨⟨h2, this.1⟩, this.2⟩
  | .text _, c, _, he => by simp [Xml.isElem] at he
  | .other, c, _, he => by simp [Xml.isElem] at he
theorem saysAll_leaves (dsl : Nat) (condStr : Str) (hc : listType condStr = none) : ∀ (ns : List Xml) (cs : List Cond),
    SaysAll dsl condStr (elements ns) cs →
    AllAtLeastTwo cs ∧ (allCondTexts condStr ns).map (Option.map (parseExpr dsl)) = (allLeaves cs).map (fun e => some (.ok e))
  | [], cs, h => by
    simp [elements] at h
    cases h
    simp [AllAtLeastTwo, allCondTexts, allLeaves]
  | n :: ns, cs, h => by
    by_cases hn : n.isElem = true
    · have hf : elements (n :: ns) = n :: elements ns := by simp [elements, hn]
      rw [hf] at h
      obtain _ | ⟨h1, h2⟩ := h
      have ih := saysAll_leaves dsl condStr hc ns _ h2
      have ih1 := says_leaves dsl condStr hc n _ h1 hn
      simp only [AllAtLeastTwo, allCondTexts, allLeaves]
      exact ⟨⟨ih1.1, ih.1⟩, by rw [List.map_append, List.map_append, ih1.2, ih.2]⟩
    · have hf : elements (n :: ns) = elements ns := by simp [elements, hn]
      rw [hf] at h
      have ih := saysAll_leaves dsl condStr hc ns _ h
      have : condTexts condStr n = [] := by cases n <;> simp [Xml.isElem, condTexts] at *
      simp only [allCondTexts, this, List.nil_append]
      exact ih
end

/-- C37, flattened: an accepted condition tree has at least two sub-conditions at every level and its expressions are, in document order, those
    of all condition elements at any depth. -/
theorem C37_two_and_in_order (dsl : Nat) (condStr : Str) (hc : listType condStr = none) (n : Xml) (he : n.isElem = true) (c : Cond)
    (h : parseList dsl condStr n = .ok c) :
    AtLeastTwo c ∧ (condTexts condStr n).map (Option.map (parseExpr dsl)) = (leaves c).map (fun e => some (.ok e)) :=
  says_leaves dsl condStr hc n c (parseList_says dsl condStr n c h) he

/-- A two-level document. -/
def condDoc : Xml := .elem "and".toList [] [
    .elem "cond".toList [] [.text "$a = 1".toList], .other,
    .elem "or".toList [] [.elem "cond".toList [("value".toList, "!$b".toList)] [], .elem "cond".toList [] [.text "$c > $d".toList]]]

example : listType "cond".toList = none ∧ condDoc.isElem = true ∧ condDoc.name ≠ "cond".toList := by decide
example : (match parseList 7 "cond".toList condDoc with | .ok c => leaves c | _ => []) =
    [⟨"$a".toList, "=".toList, "1".toList⟩, ⟨[], "!".toList, "$b".toList⟩, ⟨"$c".toList, ">".toList, "$d".toList⟩] := by decide +kernel
/-- One sub-condition is not enough. -/
example : (match parseList 7 "cond".toList (.elem "and".toList [] [.elem "cond".toList [] [.text "$a".toList]]) with
    | .err => true | _ => false) = true := by decide +kernel

end Commsdsl.Props
