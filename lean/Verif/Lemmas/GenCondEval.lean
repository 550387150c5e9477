import Verif.Lemmas.GenCond
import Verif.Lemmas.GenMsgs
/-!
# A generated expression has one value
-/
namespace Commsdsl.Props.GCond
open Commsdsl Text Fld Gen Spec

/-- What follows an expression of the level does not continue it. -/
def Ends : CLevel → List Tok → Prop
  | .unary, _ => True
  | .cmp, x => ∀ op y, x ≠ .cmp op :: y
  | .and, x => (∀ op y, x ≠ .cmp op :: y) ∧ ∀ y, x ≠ .and :: y
  | .or, x => (∀ op y, x ≠ .cmp op :: y) ∧ (∀ y, x ≠ .and :: y) ∧ ∀ y, x ≠ .or :: y

theorem parse_one {l : CLevel} {t : List Tok} {e : CExpr} (h : CParse l t e) : ∀ {t' : List Tok} {e' : CExpr} {x x' : List Tok}, CParse l t' e' → t ++ x = t' ++ x' →
    Ends l x → Ends l x' → t = t' ∧ e = e' := by
  induction h with
  | fromAnd h ih =>
    intro t' e' x x' h' heq hx hx'
    cases h' with
    | fromAnd h2 => exact ih h2 heq ⟨hx.1, hx.2.1⟩ ⟨hx'.1, hx'.2.1⟩
    | or h2 h3 =>
      rw [List.append_assoc] at heq
      obtain ⟨rfl, -⟩ := ih h2 heq ⟨hx.1, hx.2.1⟩ ⟨by simp, by simp⟩
      exact absurd (List.append_cancel_left heq) (hx.2.2 _)
  | fromCmp h ih =>
    intro t' e' x x' h' heq hx hx'
    cases h' with
    | fromCmp h2 => exact ih h2 heq hx.1 hx'.1
    | and h2 h3 =>
      rw [List.append_assoc] at heq
      obtain ⟨rfl, -⟩ := ih h2 heq hx.1 (by simp [Ends])
      exact absurd (List.append_cancel_left heq) (hx.2 _)
  | fromUnary h ih =>
    intro t' e' x x' h' heq hx hx'
    cases h' with
    | fromUnary h2 => exact ih h2 heq trivial trivial
    | cmp h2 h3 =>
      rw [List.append_assoc] at heq
      obtain ⟨rfl, -⟩ := ih h2 heq trivial trivial
      exact absurd (List.append_cancel_left heq) (hx _ _)
  | or h1 h2 ih1 ih2 =>
    intro t' e' x x' h' heq hx hx'
    cases h' with
    | fromAnd h3 =>
      rw [List.append_assoc] at heq
      obtain ⟨rfl, -⟩ := ih1 h3 heq ⟨by simp, by simp⟩ ⟨hx'.1, hx'.2.1⟩
      exact absurd (List.append_cancel_left heq).symm (hx'.2.2 _)
    | or h3 h4 =>
      rw [List.append_assoc, List.append_assoc] at heq
      obtain ⟨rfl, rfl⟩ := ih1 h3 heq ⟨by simp, by simp⟩ ⟨by simp, by simp⟩
      have := List.append_cancel_left heq
      simp only [List.cons_append, List.cons.injEq, true_and] at this
      obtain ⟨rfl, rfl⟩ := ih2 h4 this hx hx'
      exact ⟨rfl, rfl⟩
  | and h1 h2 ih1 ih2 =>
    intro t' e' x x' h' heq hx hx'
    cases h' with
    | fromCmp h3 =>
      rw [List.append_assoc] at heq
      obtain ⟨rfl, -⟩ := ih1 h3 heq (by simp [Ends]) hx'.1
      exact absurd (List.append_cancel_left heq).symm (hx'.2 _)
    | and h3 h4 =>
      rw [List.append_assoc, List.append_assoc] at heq
      obtain ⟨rfl, rfl⟩ := ih1 h3 heq (by simp [Ends]) (by simp [Ends])
      have := List.append_cancel_left heq
      simp only [List.cons_append, List.cons.injEq, true_and] at this
      obtain ⟨rfl, rfl⟩ := ih2 h4 this hx hx'
      exact ⟨rfl, rfl⟩
  | cmp h1 h2 ih1 ih2 =>
    intro t' e' x x' h' heq hx hx'
    cases h' with
    | fromUnary h3 =>
      rw [List.append_assoc] at heq
      obtain ⟨rfl, -⟩ := ih1 h3 heq trivial trivial
      exact absurd (List.append_cancel_left heq).symm (hx' _ _)
    | cmp h3 h4 =>
      rw [List.append_assoc, List.append_assoc] at heq
      obtain ⟨rfl, rfl⟩ := ih1 h3 heq trivial trivial
      have := List.append_cancel_left heq
      simp only [List.cons_append, List.cons.injEq, Tok.cmp.injEq] at this
      obtain ⟨rfl, this⟩ := this
      obtain ⟨rfl, rfl⟩ := ih2 h4 this trivial trivial
      exact ⟨rfl, rfl⟩
  | not h ih =>
    intro t' e' x x' h' heq hx hx'
    cases h' <;> simp only [List.cons_append, List.cons.injEq, reduceCtorEq, false_and, true_and] at heq
    rename_i h2
    obtain ⟨rfl, rfl⟩ := ih h2 heq trivial trivial
    exact ⟨rfl, rfl⟩
  | paren h ih =>
    intro t' e' x x' h' heq hx hx'
    cases h' <;> simp only [List.cons_append, List.cons.injEq, reduceCtorEq, false_and, true_and, List.append_assoc, List.nil_append] at heq
    rename_i h2
    obtain ⟨rfl, rfl⟩ := ih h2 heq ⟨by simp, by simp, by simp⟩ ⟨by simp, by simp, by simp⟩
    exact ⟨rfl, rfl⟩
  | cast h ih =>
    intro t' e' x x' h' heq hx hx'
    cases h' <;> simp only [List.cons_append, List.cons.injEq, reduceCtorEq, false_and, List.append_assoc, List.nil_append, Tok.cast.injEq] at heq
    rename_i h2
    obtain ⟨rfl, heq⟩ := heq
    obtain ⟨rfl, rfl⟩ := ih h2 heq ⟨by simp, by simp, by simp⟩ ⟨by simp, by simp, by simp⟩
    exact ⟨rfl, rfl⟩
  | castSize h ih =>
    intro t' e' x x' h' heq hx hx'
    cases h' <;> simp only [List.cons_append, List.cons.injEq, reduceCtorEq, false_and, true_and, List.append_assoc, List.nil_append] at heq
    rename_i h2
    obtain ⟨rfl, rfl⟩ := ih h2 heq ⟨by simp, by simp, by simp⟩ ⟨by simp, by simp, by simp⟩
    exact ⟨rfl, rfl⟩
  | «exists» =>
    intro t' e' x x' h' heq hx hx'
    cases h' <;> simp only [List.cons_append, List.cons.injEq, reduceCtorEq, false_and, Tok.exists.injEq] at heq
    obtain ⟨rfl, -⟩ := heq
    exact ⟨rfl, rfl⟩
  | get =>
    intro t' e' x x' h' heq hx hx'
    cases h' <;> simp only [List.cons_append, List.cons.injEq, reduceCtorEq, false_and, Tok.get.injEq] at heq
    obtain ⟨⟨rfl, rfl⟩, -⟩ := heq
    exact ⟨rfl, rfl⟩
  | empty =>
    intro t' e' x x' h' heq hx hx'
    cases h' <;> simp only [List.cons_append, List.cons.injEq, reduceCtorEq, false_and, Tok.empty.injEq] at heq
    obtain ⟨rfl, -⟩ := heq
    exact ⟨rfl, rfl⟩
  | number =>
    intro t' e' x x' h' heq hx hx'
    cases h' <;> simp only [List.cons_append, List.cons.injEq, reduceCtorEq, false_and, Tok.text.injEq] at heq
    obtain ⟨rfl, -⟩ := heq
    exact ⟨rfl, rfl⟩
  | quoted =>
    intro t' e' x x' h' heq hx hx'
    cases h' <;> simp only [List.cons_append, List.cons.injEq, reduceCtorEq, false_and, Tok.quoted.injEq] at heq
    obtain ⟨rfl, -⟩ := heq
    exact ⟨rfl, rfl⟩

theorem conv_one {ty : CppInt} {x y z : Int} (h : CppConv ty x y) (h' : CppConv ty x z) : y = z := by
  obtain ⟨h0, h1, k, h2⟩ := h
  obtain ⟨-, h3, j, h4⟩ := h'
  unfold CppHolds at h1 h3
  have e : y - z = (j - k) * 2 ^ ty.2 := by rw [Int.sub_mul]; omega
  have hp : (0 : Int) < 2 ^ ty.2 := Int.pow_pos (by omega)
  have hb : -(2 ^ ty.2) < y - z ∧ y - z < 2 ^ ty.2 := by
    split at h1
    · split at h3
      · rename_i hs _
        have hw : ty.2 ≠ 0 := Nat.ne_of_gt (h0 hs)
        · have : (2 : Int) ^ ty.2 = 2 * 2 ^ (ty.2 - 1) := by
            obtain ⟨n, hn⟩ := Nat.exists_eq_succ_of_ne_zero hw
            rw [hn, Int.pow_succ]; simp; omega
          omega
      · contradiction
    · split at h3
      · contradiction
      · omega
  rw [e] at hb
  have : j - k = 0 := by
    by_cases h0 : j - k = 0
    · exact h0
    · exfalso
      rcases Int.lt_or_gt_of_ne h0 with hl | hl
      · have := Int.mul_le_mul_of_nonneg_right (show j - k ≤ -1 by omega) (Int.le_of_lt hp)
        omega
      · have := Int.mul_le_mul_of_nonneg_right (show 1 ≤ j - k by omega) (Int.le_of_lt hp)
        omega
  rw [this] at e
  omega

theorem bool_one {a b : Bool} {P : Prop} (h : a = true ↔ P) (h' : b = true ↔ P) : a = b := by
  cases a <;> cases b <;> simp_all

theorem eval_one {env : List (Str × CObj)} {e : CExpr} {v : CVal} (h : CEval env e v) : ∀ {v' : CVal}, CEval env e v' → v = v' := by
  induction h with
  | «exists» h => intro v' h'; cases h' with | «exists» h2 => rw [h] at h2; cases h2; rfl
  | getNum h =>
    intro v' h'
    cases h' with
    | getNum h2 => rw [h] at h2; cases h2; rfl
    | getSet h2 => rw [h] at h2; cases h2
    | getText h2 => rw [h] at h2; cases h2
  | getSet h =>
    intro v' h'
    cases h' with
    | getNum h2 => rw [h] at h2; cases h2
    | getSet h2 => rw [h] at h2; cases h2; rfl
    | getText h2 => rw [h] at h2; cases h2
  | getText h =>
    intro v' h'
    cases h' with
    | getNum h2 => rw [h] at h2; cases h2
    | getSet h2 => rw [h] at h2; cases h2
    | getText h2 => rw [h] at h2; cases h2; rfl
  | getBit h hi hu =>
    intro v' h'
    cases h' with
    | getBit h2 hi' _ => rw [h] at h2; cases h2; rw [hu _ hi']
  | textSize h =>
    intro v' h'
    cases h' with
    | textSize h2 => rw [h] at h2; cases h2; rfl
    | seqSize h2 => rw [h] at h2; cases h2
  | seqSize h =>
    intro v' h'
    cases h' with
    | textSize h2 => rw [h] at h2; cases h2
    | seqSize h2 => rw [h] at h2; cases h2; rfl
  | textEmpty h =>
    intro v' h'
    cases h' with
    | textEmpty h2 => rw [h] at h2; cases h2; rfl
    | seqEmpty h2 => rw [h] at h2; cases h2
  | seqEmpty h =>
    intro v' h'
    cases h' with
    | textEmpty h2 => rw [h] at h2; cases h2
    | seqEmpty h2 => rw [h] at h2; cases h2; rfl
  | number h => intro v' h'; cases h' with | number h2 => rw [Gen.expr_one h h2]
  | quoted h => intro v' h'; cases h' with | quoted h2 => rfl
  | castLiteral h _ hc ih =>
    intro v' h'
    cases h' with
    | castLiteral h2 h3 hc' => rw [h] at h2; cases h2; cases ih h3; rw [conv_one hc hc']
    | castNum h2 h3 hc' => cases ih h3
    | castSet h2 h3 hc' => rw [h] at h2; cases h2
  | castNum h _ hc ih =>
    intro v' h'
    cases h' with
    | castLiteral h2 h3 hc' => cases ih h3
    | castNum h2 h3 hc' => rw [h] at h2; cases h2; cases ih h3; rw [conv_one hc hc']
    | castSet h2 h3 hc' => rw [h] at h2; cases h2
  | castSet h _ hc ih =>
    intro v' h'
    cases h' with
    | castLiteral h2 h3 hc' => rw [h] at h2; cases h2
    | castNum h2 h3 hc' => cases ih h3
    | castSet h2 h3 hc' => rw [h] at h2; cases h2; cases ih h3; rw [conv_one hc hc']
  | castSize _ hc ih => intro v' h'; cases h' with | castSize h3 hc' => cases ih h3; rw [conv_one hc hc']
  | not _ ih => intro v' h'; cases h' with | not h2 => cases ih h2; rfl
  | cmpNum _ _ hb ih1 ih2 =>
    intro v' h'
    cases h' with
    | cmpNum h2 h3 hb' => cases ih1 h2; cases ih2 h3; rw [bool_one hb hb']
    | cmpSize h2 h3 hb' => cases ih1 h2
    | eqText _ h2 h3 hb' => cases ih1 h2
    | neText _ h2 h3 hb' => cases ih1 h2
  | cmpSize _ _ hb ih1 ih2 =>
    intro v' h'
    cases h' with
    | cmpNum h2 h3 hb' => cases ih1 h2
    | cmpSize h2 h3 hb' => cases ih1 h2; cases ih2 h3; rw [bool_one hb hb']
    | eqText _ h2 h3 hb' => cases ih1 h2
    | neText _ h2 h3 hb' => cases ih1 h2
  | eqText ho _ _ hb ih1 ih2 =>
    intro v' h'
    cases h' with
    | cmpNum h2 h3 hb' => cases ih1 h2
    | cmpSize h2 h3 hb' => cases ih1 h2
    | eqText _ h2 h3 hb' => cases ih1 h2; cases ih2 h3; rw [bool_one hb hb']
    | neText ho' h2 h3 hb' => rw [ho] at ho'; exact absurd ho' (by decide)
  | neText ho _ _ hb ih1 ih2 =>
    intro v' h'
    cases h' with
    | cmpNum h2 h3 hb' => cases ih1 h2
    | cmpSize h2 h3 hb' => cases ih1 h2
    | eqText ho' h2 h3 hb' => rw [ho] at ho'; exact absurd ho' (by decide)
    | neText _ h2 h3 hb' => cases ih1 h2; cases ih2 h3; rw [bool_one hb hb']
  | andFalse _ ih =>
    intro v' h'
    cases h' with
    | andFalse h2 => rfl
    | andTrue h2 h3 => cases ih h2
  | andTrue _ _ ih1 ih2 =>
    intro v' h'
    cases h' with
    | andFalse h2 => cases ih1 h2
    | andTrue h2 h3 => exact ih2 h3
  | orTrue _ ih =>
    intro v' h'
    cases h' with
    | orTrue h2 => rfl
    | orFalse h2 h3 => cases ih h2
  | orFalse _ _ ih1 ih2 =>
    intro v' h'
    cases h' with
    | orTrue h2 => cases ih1 h2
    | orFalse h2 h3 => exact ih2 h3

/-- A list of tokens evaluates to at most one truth value. -/
theorem evaluates_one {env : List (Str × CObj)} {t : List Tok} {a b : Bool} (h : Evaluates env t a) (h' : Evaluates env t b) : a = b := by
  obtain ⟨e, p, v⟩ := h
  obtain ⟨e', p', v'⟩ := h'
  obtain ⟨-, rfl⟩ := parse_one (x := []) (x' := []) p p' rfl (by simp [Ends]) (by simp [Ends])
  cases eval_one v v'
  rfl

end Commsdsl.Props.GCond
