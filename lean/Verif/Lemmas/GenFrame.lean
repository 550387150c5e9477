import Verif.Spec.GenFrame
import Verif.Props.Frame
/-!
# Lemmas on the order of layers
-/
namespace Commsdsl.Props.StackProofs
open Commsdsl Frm Gen Spec Commsdsl.Props.FrameProofs

/-! ## Positions -/

theorem findIdx_append_mid {α : Type} {q : α → Bool} {A B : List α} {x : α} (hA : ∀ a ∈ A, q a = false) (hx : q x = true) :
    (A ++ x :: B).findIdx? q = some A.length := by
  refine findIdx_unique (x := x) (by simp) hx fun j y hj hy => ?_
  rw [List.getElem?_append_left hj] at hy
  exact hA y (List.mem_of_getElem? hy)

theorem posOf_mid {A B : List Nat} {x : Nat} (h : x ∉ A) : posOf (A ++ x :: B) x = some A.length :=
  findIdx_append_mid (fun a ha => by simp; rintro rfl; exact h ha) (by simp)

theorem moveTo_mid (A B C : List Nat) (x : Nat) : moveTo (A ++ (B ++ x :: C)) (A.length + B.length) A.length x = A ++ x :: (B ++ C) := by
  unfold moveTo
  have h1 : (A ++ (B ++ x :: C)).eraseIdx (A.length + B.length) = A ++ (B ++ C) := by
    rw [List.eraseIdx_append_of_length_le (by omega), List.eraseIdx_append_of_length_le (by omega)]
    simp
  rw [h1]
  clear h1
  induction A with
  | nil => simp
  | cons a A ih => simpa using ih

theorem posOf_mem {o : List Nat} {k : Nat} (h : k ∈ o) : ∃ A B, o = A ++ k :: B ∧ k ∉ A := List.eq_append_cons_of_mem h

/-! ## The loop over others -/

theorem adjust_none {o : List Nat} {k i pp : Nat} {ys : List Nat} (h : ∀ y ∈ ys, ∀ j, posOf o y = some j → pp < j ∨ i ≤ j) : adjustLoop o k i pp ys = none := by
  induction ys with
  | nil => rfl
  | cons y ys ih =>
    have ih := ih fun z hz => h z (List.mem_cons_of_mem _ hz)
    rw [adjustLoop]
    cases hp : posOf o y with
    | none => exact ih
    | some j =>
      dsimp only
      rcases h y List.mem_cons_self j hp with h1 | h1
      · rw [if_pos h1]; exact ih
      · split
        · exact ih
        · rw [if_neg (by omega)]; exact ih

theorem adjust_some {o : List Nat} {k i pp y j : Nat} {ys zs : List Nat} (h : ∀ y ∈ ys, ∀ j, posOf o y = some j → pp < j ∨ i ≤ j) (hy : posOf o y = some j) (h1 : ¬ pp < j) (h2 : j < i) :
    adjustLoop o k i pp (ys ++ y :: zs) = some (moveTo o i j k) := by
  induction ys with
  | nil => rw [List.nil_append, adjustLoop, hy]; dsimp only; rw [if_neg h1, if_pos h2]
  | cons z ys ih =>
    have ih := ih fun x hx => h x (List.mem_cons_of_mem _ hx)
    rw [List.cons_append, adjustLoop]
    cases hp : posOf o z with
    | none => exact ih
    | some j' =>
      dsimp only
      rcases h z List.mem_cons_self j' hp with h3 | h3
      · rw [if_pos h3]; exact ih
      · split
        · exact ih
        · rw [if_neg (by omega)]; exact ih

/-! ## Orders -/

/-- What is known of two layers, the first of which wraps the second; `tgt` is where a layer behind the payload `p` begins, `lb` a bound for it; `e` is not in its place yet. -/
def Rel (p : Nat) (tgt lb : Nat → Nat) (e a b : Nat) : Prop :=
  (a ≤ p → b ≤ p → a < b) ∧ (p < a → p < b → b < a ∨ b = e) ∧ (p < b → tgt b ≠ a) ∧ (p < a → b ≤ p → lb a ≤ b)

structure Good (p : Nat) (tgt lb : Nat → Nat) (H : List Nat) (m e : Nat) : Prop where
  nodup : H.Nodup
  mem : ∀ a, a ∈ H ↔ a ≤ m
  last : H.getLast? = some p
  rel : H.Pairwise (Rel p tgt lb e)

/-- The bounds are sound: layers begin before themselves. -/
structure Tgts (p n : Nat) (tgt lb : Nat → Nat) : Prop where
  lt : ∀ k, p < k → k < n → tgt k < k
  le : ∀ k, p < k → k < n → tgt k ≤ p → lb k ≤ tgt k
  anti : ∀ a b, p < a → a < b → b < n → lb b ≤ lb a

variable {p n : Nat} {tgt lb : Nat → Nat}

theorem last_insert {A B : List Nat} {t x p : Nat} (h : (A ++ t :: B).getLast? = some p) : (A ++ x :: t :: B).getLast? = some p := by
  rw [List.getLast?_append, List.getLast?_cons_cons, ← List.getLast?_append]
  exact h

/-- A layer is put before the one where it begins. -/
theorem Good.insert (ht : Tgts p n tgt lb) {A B : List Nat} {t m : Nat} (hm : m + 1 < n) (hp : p ≤ m) (h : Good p tgt lb (A ++ t :: B) m 0) (hx : tgt (m + 1) = t) :
    Good p tgt lb (A ++ (m + 1) :: t :: B) (m + 1) (m + 1) := by
  have hnd := h.nodup
  have hrel := h.rel
  rw [List.nodup_append] at hnd
  have hle : ∀ a ∈ A ++ t :: B, a ≤ m := fun a ha => (h.mem a).1 ha
  refine ⟨?_, fun a => ?_, last_insert h.last, ?_⟩
  · rw [List.nodup_append]
    refine ⟨hnd.1, List.nodup_cons.2 ⟨fun hc => ?_, hnd.2.1⟩, fun a ha b hb => ?_⟩
    · have := hle (m + 1) (List.mem_append_right _ hc); omega
    · rcases List.mem_cons.1 hb with rfl | hb
      · have := hle a (List.mem_append_left _ ha); omega
      · exact hnd.2.2 a ha b hb
  · have := h.mem a
    simp only [List.mem_append, List.mem_cons] at this ⊢
    constructor
    · rintro (h1 | rfl | h1)
      · have := this.1 (.inl h1); omega
      · omega
      · have := this.1 (.inr h1); omega
    · intro h1
      by_cases he : a = m + 1
      · exact .inr (.inl he)
      · rcases this.2 (by omega) with h2 | h2
        · exact .inl h2
        · exact .inr (.inr h2)
  · rw [List.pairwise_append] at hrel ⊢
    obtain ⟨r1, r2, r3⟩ := hrel
    have weak : ∀ {a b}, Rel p tgt lb 0 a b → Rel p tgt lb (m + 1) a b := by
      rintro a b ⟨x1, x2, x3, x4⟩
      refine ⟨x1, fun y1 y2 => ?_, x3, x4⟩
      rcases x2 y1 y2 with h | h
      · exact .inl h
      · omega
    refine ⟨r1.imp weak, List.pairwise_cons.2 ⟨fun b hb => ⟨by omega, fun _ hpb => .inl ?_, fun hpb he => ?_, fun _ hb2 => ?_⟩, r2.imp weak⟩, fun a ha b hb => ?_⟩
    · have := hle b (List.mem_append_right _ hb); omega
    · have h1 := hle b (List.mem_append_right _ hb)
      have := ht.lt b hpb (by omega)
      omega
    · -- a layer before the payload behind the target
      by_cases htp : t ≤ p
      · have h1 := ht.le (m + 1) (by omega) hm (by omega)
        rcases List.mem_cons.1 hb with rfl | hb
        · omega
        · have := ((List.pairwise_cons.1 r2).1 b hb).1 htp hb2
          omega
      · have htm : t ≤ m := hle t (by simp)
        have h1 := ht.anti t (m + 1) (by omega) (by omega) hm
        rcases List.mem_cons.1 hb with rfl | hb
        · omega
        · have := ((List.pairwise_cons.1 r2).1 b hb).2.2.2 (by omega) hb2
          omega
    · rcases List.mem_cons.1 hb with rfl | hb
      · refine ⟨by omega, fun _ _ => .inr rfl, fun _ he => ?_, by omega⟩
        exact hnd.2.2 a ha t List.mem_cons_self (by omega)
      · exact weak (r3 a ha b hb)

/-- It is moved before another one behind the payload. -/
theorem Good.move (ht : Tgts p n tgt lb) {A B C : List Nat} {y x : Nat} (hx : p < x) (hxn : x < n) (hy : p < y) (h : Good p tgt lb (A ++ (y :: B ++ x :: C)) x x) :
    Good p tgt lb (A ++ x :: (y :: B ++ C)) x x := by
  have hperm : (A ++ x :: (y :: B ++ C)).Perm (A ++ (y :: B ++ x :: C)) := List.Perm.append_left A (List.perm_middle).symm
  have hnd := h.nodup
  have hle : ∀ a ∈ A ++ (y :: B ++ x :: C), a ≤ x := fun a ha => (h.mem a).1 ha
  have hrel := h.rel
  rw [List.pairwise_append] at hrel
  obtain ⟨r1, r2, r3⟩ := hrel
  rw [List.pairwise_append] at r2
  obtain ⟨r4, r5, r6⟩ := r2
  rw [List.pairwise_cons] at r5
  have hne : ∀ b ∈ y :: B ++ C, b ≠ x := by
    intro b hb he
    have h1 := (hperm.nodup_iff).2 hnd
    rw [List.nodup_append] at h1
    exact (List.nodup_cons.1 h1.2.1).1 (he ▸ hb)
  have hle2 : ∀ b ∈ y :: B ++ C, b ≤ x := by
    intro b hb
    refine hle b (hperm.mem_iff.1 (List.mem_append_right _ (List.mem_cons_of_mem _ hb)))
  refine ⟨(hperm.nodup_iff).2 hnd, fun a => (hperm.mem_iff).trans (h.mem a), ?_, ?_⟩
  · have := h.last
    rw [List.getLast?_append] at this ⊢
    have hl : (x :: (y :: B ++ C)).getLast? = (y :: B ++ x :: C).getLast? := by
      cases C with
      | nil =>
        exfalso
        have h1 : (A ++ (y :: B ++ [x])).getLast? = some x := by rw [← List.append_assoc, List.getLast?_concat]
        have h2 := h.last
        rw [h1] at h2
        cases h2
        omega
      | cons c C =>
        rw [List.getLast?_append, List.getLast?_cons_cons]
        rw [List.cons_append, List.getLast?_cons_cons, ← List.cons_append, List.getLast?_append]
    rw [hl]
    exact this
  · rw [List.pairwise_append]
    refine ⟨r1, List.pairwise_cons.2 ⟨fun b hb => ⟨by omega, fun _ hpb => .inl ?_, fun hpb he => ?_, fun _ hb2 => ?_⟩, ?_⟩, fun a ha b hb => ?_⟩
    · have := hle2 b hb; have := hne b hb; omega
    · have := hle2 b hb
      have := ht.lt b hpb (by omega)
      omega
    · have hyx : y < x := by have := hle2 y (by simp); have := hne y (by simp); omega
      have h1 := ht.anti y x hy hyx hxn
      have h2 : lb y ≤ b := by
        rw [List.cons_append] at hb
        rcases List.mem_cons.1 hb with rfl | hb
        · omega
        · rcases List.mem_append.1 hb with hb | hb
          · exact ((List.pairwise_cons.1 r4).1 b hb).2.2.2 hy hb2
          · exact (r6 y List.mem_cons_self b (List.mem_cons_of_mem _ hb)).2.2.2 hy hb2
      omega
    · rw [List.pairwise_append]
      exact ⟨r4, r5.2, fun a ha b hb => r6 a ha b (List.mem_cons_of_mem _ hb)⟩
    · refine r3 a ha b ?_
      rcases List.mem_cons.1 hb with rfl | hb
      · simp
      · rcases List.mem_append.1 hb with hb | hb
        · exact List.mem_append_left _ hb
        · exact List.mem_append_right _ (List.mem_cons_of_mem _ hb)

/-- It is in its place once nothing of its kind wraps it. -/
theorem Good.settle {G R : List Nat} {x : Nat} (h : Good p tgt lb (G ++ x :: R) x x) (hG : ∀ a ∈ G, a ≤ p) : Good p tgt lb (G ++ x :: R) x 0 := by
  refine ⟨h.nodup, h.mem, h.last, ?_⟩
  have hrel := h.rel
  have hnd := h.nodup
  rw [List.nodup_append, List.nodup_cons] at hnd
  rw [List.pairwise_append, List.pairwise_cons] at hrel ⊢
  obtain ⟨r1, ⟨r2, r3⟩, r4⟩ := hrel
  have hR : ∀ {a b}, b ≠ x → Rel p tgt lb x a b → Rel p tgt lb 0 a b := by
    rintro a b hb ⟨x1, x2, x3, x4⟩
    refine ⟨x1, fun y1 y2 => ?_, x3, x4⟩
    rcases x2 y1 y2 with h | h
    · exact .inl h
    · exact absurd h hb
  refine ⟨?_, ⟨fun b hb => hR (fun he => hnd.2.1.1 (he ▸ hb)) (r2 b hb), ?_⟩, fun a ha b hb => ?_⟩
  · refine r1.imp_of_mem fun {a b} ha hb hr => hR (fun he => ?_) hr
    exact hnd.2.2 b hb x List.mem_cons_self he
  · exact r3.imp_of_mem fun {a b} ha hb hr => hR (fun he => hnd.2.1.1 (he ▸ hb)) hr
  · obtain ⟨x1, x2, x3, x4⟩ := r4 a ha b hb
    exact ⟨x1, fun y1 _ => by have := hG a ha; omega, x3, x4⟩

/-- In place, the layers give the order of the schema on the wire. -/
theorem wire_of {behind : Nat → Prop} (hbe : ∀ k, behind k ↔ p < k) (K : List Nat) : ∀ j m, j ≤ p → p ≤ m → (∀ a, a ∈ K ↔ j ≤ a ∧ a ≤ m) → K.Nodup → K.getLast? = some p →
    K.Pairwise (Rel p tgt lb 0) → WireOrder behind p K (List.range' j (m + 1 - j)) := by
  induction K with
  | nil => intro j m _ _ _ _ hl; cases hl
  | cons a K ih =>
    intro j m hj hm hmem hnd hl hrel
    rw [List.pairwise_cons] at hrel
    rw [List.nodup_cons] at hnd
    have ham := (hmem a).1 List.mem_cons_self
    cases K with
    | nil =>
      simp at hl
      subst hl
      have h1 : j = a := by have := (hmem j).2 ⟨Nat.le_refl _, by omega⟩; simpa using this
      have h2 : m = a := by have := (hmem m).2 ⟨by omega, Nat.le_refl _⟩; simpa using this
      subst h1
      subst h2
      rw [show m + 1 - m = 1 by omega]
      exact .payload
    | cons c K =>
      rw [List.getLast?_cons_cons] at hl
      have hpK : p ∈ c :: K := List.mem_of_getLast? hl
      by_cases hap : a ≤ p
      · have haj : a = j := by
          rcases List.mem_cons.1 ((hmem j).2 ⟨Nat.le_refl _, by omega⟩) with h | h
          · exact h.symm
          · have := (hrel.1 j h).1 hap (by omega)
            omega
        subst haj
        have hap' : a < p := by
          rcases Nat.lt_or_eq_of_le hap with h | h
          · exact h
          · exact absurd (h ▸ hpK) hnd.1
        have hrec := ih (a + 1) m (by omega) hm (fun b => ?_) hnd.2 hl hrel.2
        · rw [show m + 1 - a = (m + 1 - (a + 1)) + 1 by omega, List.range'_succ]
          exact .before (fun h => by have := (hbe a).1 h; omega) hrec
        · constructor
          · intro hb
            have h1 := (hmem b).1 (List.mem_cons_of_mem _ hb)
            have : b ≠ a := fun he => hnd.1 (he ▸ hb)
            omega
          · intro hb
            rcases List.mem_cons.1 ((hmem b).2 ⟨by omega, hb.2⟩) with h | h
            · omega
            · exact h
      · have hamm : a = m := by
          rcases List.mem_cons.1 ((hmem m).2 ⟨by omega, Nat.le_refl _⟩) with h | h
          · exact h.symm
          · rcases (hrel.1 m h).2.1 (by omega) (by omega) with h1 | h1
            · omega
            · omega
        subst hamm
        have hrec := ih j (a - 1) hj (by omega) (fun b => ?_) hnd.2 hl hrel.2
        · rw [show a + 1 - j = (a - 1 + 1 - j) + 1 by omega, List.range'_concat]
          rw [show j + 1 * (a - 1 + 1 - j) = a by omega]
          exact .behind ((hbe a).2 (by omega)) hrec
        · constructor
          · intro hb
            have h1 := (hmem b).1 (List.mem_cons_of_mem _ hb)
            have : b ≠ a := fun he => hnd.1 (he ▸ hb)
            omega
          · intro hb
            rcases List.mem_cons.1 ((hmem b).2 ⟨hb.1, by omega⟩) with h | h
            · omega
            · exact h

/-- What a layer behind the payload wraps. -/
theorem covers {behind : Nat → Prop} (hbe : ∀ k, behind k ↔ p < k) {A B : List Nat} {k m : Nat} (h : Good p tgt lb (A ++ k :: B) m 0) (hk : p < k) (ht : tgt k ≤ p) (hl : lb k = tgt k) :
    WireOrder behind p B (List.range' (tgt k) (k - tgt k)) := by
  have hrel := h.rel
  have hnd := h.nodup
  rw [List.pairwise_append, List.pairwise_cons] at hrel
  rw [List.nodup_append, List.nodup_cons] at hnd
  obtain ⟨r1, ⟨r2, r3⟩, r4⟩ := hrel
  have hkm : k ≤ m := (h.mem k).1 (by simp)
  have hB : B ≠ [] := by
    rintro rfl
    have := h.last
    simp at this
    omega
  have hlast : B.getLast? = some p := by
    have := h.last
    rw [List.getLast?_append, List.getLast?_cons] at this
    cases hb : B.getLast? with
    | none => simp at hb; exact absurd hb hB
    | some q => rw [hb] at this; simpa using this
  have htB : tgt k ∈ B := by
    have h1 : tgt k ∈ A ++ k :: B := (h.mem _).2 (by omega)
    rcases List.mem_append.1 h1 with h2 | h2
    · exact absurd rfl ((r4 _ h2 k List.mem_cons_self).2.2.1 hk)
    · rcases List.mem_cons.1 h2 with h2 | h2
      · omega
      · exact h2
  have := wire_of (behind := behind) hbe B (tgt k) (k - 1) ht (by omega) (fun a => ?_) hnd.2.1.2 hlast r3
  · rwa [show k - 1 + 1 - tgt k = k - tgt k by omega] at this
  · constructor
    · intro ha
      have hne : a ≠ k := fun he => hnd.2.1.1 (he ▸ ha)
      have h1 := r2 a ha
      by_cases hap : a ≤ p
      · have := h1.2.2.2 hk hap; omega
      · rcases h1.2.1 hk (by omega) with h2 | h2 <;> omega
    · rintro ⟨h1, h2⟩
      have h3 : a ∈ A ++ k :: B := (h.mem _).2 (by omega)
      rcases List.mem_append.1 h3 with h4 | h4
      · by_cases hap : a ≤ p
        · have := (r4 a h4 (tgt k) (List.mem_cons_of_mem _ htB)).1 hap ht
          omega
        · rcases (r4 a h4 k List.mem_cons_self).2.1 (by omega) hk with h5 | h5 <;> omega
      · rcases List.mem_cons.1 h4 with h5 | h5
        · omega
        · exact h5

/-! ## The loops -/

/-- The loops end with a result of this kind. -/
def Goal (ls : List Layer) (Q : Res (List Nat) → Prop) (o : List Nat) (i : Nat) : Prop := ∃ fuel r, orderRun ls fuel o i = some r ∧ Q r

theorem goal_end {ls : List Layer} {Q : Res (List Nat) → Prop} {o : List Nat} {i : Nat} (h : o[i]? = none) (hq : Q (.ok o)) : Goal ls Q o i :=
  ⟨1, .ok o, by rw [orderRun, h], hq⟩

theorem goal_err {ls : List Layer} {Q : Res (List Nat) → Prop} {o : List Nat} {i k : Nat} (h : o[i]? = some k) (hf : forceOrder ls o k = .err) (hq : Q .err) : Goal ls Q o i :=
  ⟨1, .err, by rw [orderRun, h]; dsimp only; rw [hf], hq⟩

theorem goal_true {ls : List Layer} {Q : Res (List Nat) → Prop} {o o' : List Nat} {i k : Nat} (h : o[i]? = some k) (hf : forceOrder ls o k = .ok (true, o')) (hg : Goal ls Q o' 0) :
    Goal ls Q o i := by
  obtain ⟨n, r, h1, h2⟩ := hg
  exact ⟨n + 1, r, by rw [orderRun, h]; dsimp only; rw [hf]; exact h1, h2⟩

theorem goal_false {ls : List Layer} {Q : Res (List Nat) → Prop} {o o' : List Nat} {i k : Nat} (h : o[i]? = some k) (hf : forceOrder ls o k = .ok (false, o')) (hg : Goal ls Q o' (i + 1)) :
    Goal ls Q o i := by
  obtain ⟨n, r, h1, h2⟩ := hg
  exact ⟨n + 1, r, by rw [orderRun, h]; dsimp only; rw [hf]; exact h1, h2⟩

/-- What the layers ask for, in terms of their indices. -/
structure Asks (ls : List Layer) (p n : Nat) (tgt : Nat → Nat) (bad : Nat → Prop) : Prop where
  len : ls.length = n
  payload : ∀ (k : Nat) l, ls[k]? = some l → (l.kind = .payload ↔ k = p)
  hp : p < n
  low : ∀ (o A B : List Nat) (k : Nat), (∀ a, a ∈ o ↔ a < n) → o = A ++ k :: B → k ∉ A → p ∈ k :: B → k ≤ p →
    (bad k → forceOrder ls o k = .err) ∧ (¬ bad k → forceOrder ls o k = .ok (false, o))
  high : ∀ (o : List Nat) (k : Nat), (∀ a, a ∈ o ↔ a < n) → p < k → k < n →
    (∀ A B, o = A ++ k :: B → k ∉ A → p ∉ k :: B → bad k → forceOrder ls o k = .err) ∧ (¬ bad k → forceOrder ls o k = beforeOrder ls o k (posOf o (tgt k)))

theorem Asks.kindIdx {ls : List Layer} {bad : Nat → Prop} (h : Asks ls p n tgt bad) : kindIdx ls .payload = some p := by
  obtain ⟨l, hl⟩ : ∃ l, ls[p]? = some l := ⟨_, List.getElem?_eq_getElem (by rw [h.len]; exact h.hp)⟩
  refine findIdx_unique hl (by simpa using (h.payload p l hl).2 rfl) fun j y hj hy => ?_
  have : ¬ y.kind = .payload := fun hc => by have := (h.payload j y hy).1 hc; omega
  simpa using this

theorem Asks.posPayload {ls : List Layer} {bad : Nat → Prop} (h : Asks ls p n tgt bad) {A B : List Nat} (hA : ∀ a ∈ A, a < n) (hp : p ∉ A) :
    posPayload ls (A ++ p :: B) = some A.length := by
  refine findIdx_append_mid (fun a ha => ?_) ?_
  · obtain ⟨l, hl⟩ : ∃ l, ls[a]? = some l := ⟨_, List.getElem?_eq_getElem (by rw [h.len]; exact hA a ha)⟩
    rw [hl]
    have : ¬ l.kind = .payload := fun hc => by have := (h.payload a l hl).1 hc; subst this; exact hp ha
    simpa using this
  · obtain ⟨l, hl⟩ : ∃ l, ls[p]? = some l := ⟨_, List.getElem?_eq_getElem (by rw [h.len]; exact h.hp)⟩
    rw [hl]
    simpa using (h.payload p l hl).2 rfl

/-- The layers not looked at yet. -/
abbrev rest (n m : Nat) : List Nat := List.range' (m + 1) (n - 1 - m)

theorem Good.all {H : List Nat} {m e : Nat} (h : Good p tgt lb H m e) (hm : m < n) (a : Nat) : a ∈ H ++ rest n m ↔ a < n := by
  rw [List.mem_append, h.mem, List.mem_range'_1]
  omega

theorem last_split {H : List Nat} {p : Nat} (h : H.getLast? = some p) : ∃ F, H = F ++ [p] := by
  obtain ⟨F, hF⟩ := List.getLast?_eq_some_iff.1 h
  exact ⟨F, hF⟩

/-- The last layer behind the payload that is too far outside. -/
theorem last_high (p : Nat) (G : List Nat) : (∀ a ∈ G, a ≤ p) ∨ ∃ A y B, G = A ++ y :: B ∧ p < y ∧ ∀ b ∈ B, b ≤ p := by
  induction G with
  | nil => exact .inl (by simp)
  | cons a G ih =>
    rcases ih with h | ⟨A, y, B, rfl, h1, h2⟩
    · by_cases ha : a ≤ p
      · exact .inl (by simpa using ⟨ha, h⟩)
      · exact .inr ⟨[], a, G, rfl, by omega, h⟩
    · exact .inr ⟨a :: A, y, B, rfl, h1, h2⟩

/-- The layers before and at the payload. -/
theorem Good.notMem {G R : List Nat} {x m e : Nat} (h : Good p tgt lb (G ++ x :: R) m e) : x ∉ G ∧ x ∉ R ∧ p ∉ G := by
  have hnd := h.nodup
  rw [List.nodup_append, List.nodup_cons] at hnd
  refine ⟨fun hx => hnd.2.2 x hx x List.mem_cons_self rfl, hnd.2.1.1, fun hp => ?_⟩
  have hl := h.last
  have : p ∈ x :: R := by
    rw [List.getLast?_append, List.getLast?_cons] at hl
    cases hr : R.getLast? with
    | none =>
      rw [hr] at hl
      simp at hl
      simp [hl]
    | some q =>
      rw [hr] at hl
      simp at hl
      subst hl
      exact List.mem_cons_of_mem _ (List.mem_of_getLast? hr)
  exact hnd.2.2 p hp p this rfl

theorem pos_ge {A B : List Nat} {y j : Nat} (hy : y ∉ A) (h : posOf (A ++ B) y = some j) : A.length ≤ j := by
  unfold posOf at h
  obtain ⟨⟨x, h1, h2⟩, _⟩ := findIdx_some h
  rcases Nat.lt_or_ge j A.length with h3 | h3
  · rw [List.getElem?_append_left h3] at h1
    have : x = y := by simpa using h2
    subst this
    exact absurd (List.mem_of_getElem? h1) hy
  · exact h3

/-- Positions of the payload. -/
theorem Good.payloadPos {ls : List Layer} {bad : Nat → Prop} (ha : Asks ls p n tgt bad) {G R : List Nat} {x m e : Nat} (hm : m < n) (h : Good p tgt lb (G ++ x :: R) m e) :
    ∃ q, Gen.posPayload ls (G ++ x :: R ++ rest n m) = some q ∧ G.length ≤ q := by
  obtain ⟨F, hF⟩ := last_split h.last
  rw [hF, List.append_assoc, List.singleton_append]
  have hpF : p ∉ F := by
    have := h.nodup
    rw [hF, List.nodup_append] at this
    exact fun hc => this.2.2 p hc p List.mem_cons_self rfl
  refine ⟨F.length, ha.posPayload (fun a hm' => ?_) hpF, ?_⟩
  · have := (h.mem a).1 (by rw [hF]; exact List.mem_append_left _ hm'); omega
  · have := congrArg List.length hF
    simp only [List.length_append, List.length_cons, List.length_nil] at this
    omega

/-- One layer that is not in its place yet. -/
theorem adjust_run {ls : List Layer} {bad : Nat → Prop} (ha : Asks ls p n tgt bad) {G R : List Nat} {x : Nat} (hx : p < x) (hxn : x < n) (h : Good p tgt lb (G ++ x :: R) x x) :
    ((∀ a ∈ G, a ≤ p) → adjustOrder ls (G ++ x :: R ++ rest n x) x = .ok (false, G ++ x :: R ++ rest n x)) ∧
    ∀ A y B, G = A ++ y :: B → p < y → (∀ b ∈ B, b ≤ p) → adjustOrder ls (G ++ x :: R ++ rest n x) x = .ok (true, A ++ x :: (y :: B ++ R) ++ rest n x) := by
  obtain ⟨q, hq, hq2⟩ := h.payloadPos ha hxn
  obtain ⟨hxG, hxR, hpG⟩ := h.notMem
  have hpos : posOf (G ++ x :: R ++ rest n x) x = some G.length := by
    rw [List.append_assoc, List.cons_append]
    exact posOf_mid hxG
  constructor
  · intro hG
    unfold adjustOrder
    simp only [ha.kindIdx, hpos, hq, Option.getD_some, hx, if_true]
    rw [adjust_none]
    intro y hy j hj
    rw [List.mem_range'_1] at hy
    refine .inr ?_
    rw [List.append_assoc] at hj
    exact pos_ge (fun hc => by have := hG y hc; omega) hj
  · intro A y B hGe hy hB
    have hyG : y ∈ G := by rw [hGe]; simp
    have hyx : y < x := by
      have h1 := (h.mem y).1 (List.mem_append_left _ hyG)
      have h2 : y ≠ x := fun he => hxG (he ▸ hyG)
      omega
    have hyA : y ∉ A := by
      have := h.nodup
      rw [hGe, List.append_assoc, List.nodup_append] at this
      exact fun hc => this.2.2 y hc y (by simp) rfl
    have hposy : posOf (G ++ x :: R ++ rest n x) y = some A.length := by
      rw [hGe]
      simp only [List.append_assoc, List.cons_append]
      exact posOf_mid hyA
    have hsplit : List.range' (p + 1) (x - (p + 1)) = List.range' (p + 1) (y - (p + 1)) ++ y :: List.range' (y + 1) (x - (y + 1)) := by
      have h1 : x - (p + 1) = (y - (p + 1)) + ((x - (y + 1)) + 1) := by omega
      rw [h1, ← List.range'_append_1, show p + 1 + (y - (p + 1)) = y by omega, List.range'_succ]
    unfold adjustOrder
    simp only [ha.kindIdx, hpos, hq, Option.getD_some, hx, if_true]
    have hrelG := h.rel
    have hlen : A.length < G.length := by rw [hGe]; simp
    rw [hsplit, adjust_some (j := A.length) ?_ hposy (by omega) hlen]
    · have hm := moveTo_mid A (y :: B) (R ++ rest n x) x
      have he : G ++ x :: R ++ rest n x = A ++ (y :: B ++ x :: (R ++ rest n x)) := by rw [hGe]; simp
      have hl : G.length = A.length + (y :: B).length := by rw [hGe]; simp
      rw [he, hl, hm]
      simp
    · intro z hz j hj
      rw [List.mem_range'_1] at hz
      refine .inr ?_
      rw [List.append_assoc] at hj
      refine pos_ge (fun hc => ?_) hj
      rw [hGe] at hc
      rcases List.mem_append.1 hc with hc | hc
      · rw [hGe, List.append_assoc, List.pairwise_append] at hrelG
        rcases (hrelG.2.2 z hc y (by simp)).2.1 (by omega) hy with h1 | h1 <;> omega
      · rcases List.mem_cons.1 hc with hc | hc
        · omega
        · have := hB z hc; omega

/-- A layer in its place is left there. -/
theorem pass {ls : List Layer} {bad : Nat → Prop} (hT : Tgts p n tgt lb) (ha : Asks ls p n tgt bad) {A B : List Nat} {a m e : Nat} (hm : m < n) (h : Good p tgt lb (A ++ a :: B) m e)
    (hb : ¬ bad a) (hA : p < a → ∀ y ∈ A, p < y → a < y) : forceOrder ls (A ++ a :: B ++ rest n m) a = .ok (false, A ++ a :: B ++ rest n m) := by
  have hall := h.all hm
  obtain ⟨haA, _, hpA⟩ := h.notMem
  have ham := (h.mem a).1 (by simp)
  by_cases hap : a ≤ p
  · have hp : p ∈ a :: (B ++ rest n m) := by
      have h1 : p ∈ A ++ a :: B ++ rest n m := (hall p).2 ha.hp
      rw [List.append_assoc] at h1
      rcases List.mem_append.1 h1 with h1 | h1
      · exact absurd h1 hpA
      · exact h1
    exact (ha.low (A ++ a :: B ++ rest n m) A (B ++ rest n m) a hall (by simp) haA hp hap).2 hb
  · have hap : p < a := by omega
    rw [(ha.high _ a hall hap (by omega)).2 hb]
    have hpos : posOf (A ++ a :: B ++ rest n m) a = some A.length := by
      rw [List.append_assoc, List.cons_append]
      exact posOf_mid haA
    have hta := hT.lt a hap (by omega)
    have htA : tgt a ∉ A := by
      have := h.rel
      rw [List.pairwise_append] at this
      exact fun hc => (this.2.2 _ hc a List.mem_cons_self).2.2.1 hap rfl
    obtain ⟨j, hj⟩ : ∃ j, posOf (A ++ a :: B ++ rest n m) (tgt a) = some j := by
      obtain ⟨X, Y, hXY, hX⟩ := posOf_mem ((hall (tgt a)).2 (by omega))
      rw [hXY]
      exact ⟨_, posOf_mid hX⟩
    have hj2 : A.length ≤ j := by
      rw [List.append_assoc] at hj
      exact pos_ge htA hj
    unfold beforeOrder
    rw [hpos, hj]
    dsimp only
    rw [if_neg (by omega)]
    obtain ⟨q, hq, _⟩ := h.payloadPos ha hm
    unfold adjustOrder
    simp only [ha.kindIdx, hpos, hq, Option.getD_some, hap, if_true]
    rw [adjust_none]
    intro y hy j' hj'
    rw [List.mem_range'_1] at hy
    refine .inr ?_
    rw [List.append_assoc] at hj'
    refine pos_ge (fun hc => ?_) hj'
    have := hA hap y hc (by omega)
    omega

/-- A part of the layers is in its place. -/
theorem pass_all {ls : List Layer} {bad : Nat → Prop} {Q : Res (List Nat) → Prop} (hT : Tgts p n tgt lb) (ha : Asks ls p n tgt bad) {m e : Nat} (hm : m < n) (C : List Nat) : ∀ (A B H : List Nat),
    H = A ++ (C ++ B) → Good p tgt lb H m e → (∀ a ∈ C, ¬ bad a ∧ (p < a → a ≠ e)) →
    Goal ls Q (H ++ rest n m) (A.length + C.length) → Goal ls Q (H ++ rest n m) A.length := by
  induction C with
  | nil => intro A B H _ _ _ hg; exact hg
  | cons a C ih =>
    intro A B H hH h hC hg
    have hH2 : H = (A ++ [a]) ++ (C ++ B) := by rw [hH]; simp
    have hg2 : Goal ls Q (H ++ rest n m) ((A ++ [a]).length + C.length) := by
      rwa [List.length_append, List.length_singleton, show A.length + 1 + C.length = A.length + (a :: C).length by simp; omega]
    have hrec := ih (A ++ [a]) B H hH2 h (fun x hx => hC x (List.mem_cons_of_mem _ hx)) hg2
    obtain ⟨hba, hae⟩ := hC a List.mem_cons_self
    have hH3 : H = A ++ a :: (C ++ B) := by rw [hH]; simp
    have hp := pass hT ha (A := A) (B := C ++ B) (a := a) hm (hH3 ▸ h) hba (fun hpa y hy hpy => by
      have := h.rel
      rw [hH3, List.pairwise_append] at this
      rcases (this.2.2 y hy a List.mem_cons_self).2.1 hpy hpa with h1 | h1
      · exact h1
      · exact absurd h1 (hae hpa))
    rw [← hH3] at hp
    refine goal_false (k := a) ?_ hp (by simpa using hrec)
    rw [hH3]
    simp

/-- A layer is moved until it is in its place. -/
theorem settle_run {ls : List Layer} {bad : Nat → Prop} {Q : Res (List Nat) → Prop} (hT : Tgts p n tgt lb) (ha : Asks ls p n tgt bad) {x : Nat} (hx : p < x) (hxn : x < n)
    (hbad : ∀ k, k ≤ x → ¬ bad k) (hnext : ∀ H, Good p tgt lb H x 0 → Goal ls Q (H ++ rest n x) H.length) (len : Nat) : ∀ G R : List Nat, G.length = len →
    Good p tgt lb (G ++ x :: R) x x → Goal ls Q (G ++ x :: R ++ rest n x) 0 := by
  induction len using Nat.strongRecOn with
  | _ len ih =>
    intro G R hlen h
    have hle : ∀ a ∈ G ++ x :: R, a ≤ x := fun a ha => (h.mem a).1 ha
    obtain ⟨hxG, hxR, hpG⟩ := h.notMem
    rcases last_high p G with hG | ⟨A, y, B, hGe, hy, hB⟩
    · have h0 := h.settle hG
      refine pass_all (e := 0) hT ha hxn (G ++ x :: R) [] [] _ (by simp) h0 (fun a hm => ⟨hbad a (hle a hm), fun _ => by omega⟩) ?_
      simpa using hnext _ h0
    · refine pass_all (e := x) hT ha hxn G [] (x :: R) _ (by simp) h (fun a hm => ⟨hbad a (hle a (List.mem_append_left _ hm)), fun _ he => hxG (he ▸ hm)⟩) ?_
      have hpos : posOf (G ++ x :: R ++ rest n x) x = some G.length := by
        rw [List.append_assoc, List.cons_append]
        exact posOf_mid hxG
      have hall := h.all hxn
      have hta := hT.lt x hx hxn
      have htG : tgt x ∉ G := by
        have := h.rel
        rw [List.pairwise_append] at this
        exact fun hc => (this.2.2 _ hc x List.mem_cons_self).2.2.1 hx rfl
      obtain ⟨j, hj⟩ : ∃ j, posOf (G ++ x :: R ++ rest n x) (tgt x) = some j := by
        obtain ⟨X, Y, hXY, hX⟩ := posOf_mem ((hall (tgt x)).2 (by omega))
        rw [hXY]
        exact ⟨_, posOf_mid hX⟩
      have hj2 : G.length ≤ j := by
        rw [List.append_assoc] at hj
        exact pos_ge htG hj
      refine goal_true (k := x) (o' := A ++ x :: (y :: B ++ R) ++ rest n x) ?_ ?_ ?_
      · simp
      · rw [(ha.high _ x hall hx hxn).2 (hbad x (Nat.le_refl _))]
        unfold beforeOrder
        rw [hpos, hj]
        dsimp only
        rw [if_neg (by omega)]
        exact (adjust_run ha hx hxn h).2 A y B hGe hy hB
      · refine ih A.length ?_ A (y :: B ++ R) rfl ?_
        · rw [← hlen, hGe]; simp
        · refine Good.move hT hx hxn hy ?_
          have : A ++ (y :: B ++ x :: R) = G ++ x :: R := by rw [hGe]; simp
          rw [this]; exact h

theorem rest_succ {n m : Nat} (h : m + 1 < n) : rest n m = (m + 1) :: rest n (m + 1) := by
  unfold rest
  rw [show n - 1 - m = (n - 1 - (m + 1)) + 1 by omega, List.range'_succ]

/-- The layers behind the payload, one after the other. -/
theorem main_run {ls : List Layer} {bad : Nat → Prop} {Q : Res (List Nat) → Prop} (hT : Tgts p n tgt lb) (ha : Asks ls p n tgt bad) (hQerr : ∀ k, k < n → bad k → Q .err)
    (hQok : ∀ H, Good p tgt lb H (n - 1) 0 → (∀ k, k < n → ¬ bad k) → Q (.ok H)) (d : Nat) : ∀ (m : Nat) (H : List Nat), n - 1 - m = d → p ≤ m → m < n → Good p tgt lb H m 0 →
    (∀ k, k ≤ m → ¬ bad k) → Goal ls Q (H ++ rest n m) H.length := by
  induction d with
  | zero =>
    intro m H hd hpm hm h hb
    have hmn : m = n - 1 := by omega
    have hr : rest n m = [] := by unfold rest; rw [hd]; rfl
    rw [hr, List.append_nil]
    refine goal_end (by simp) (hQok H (hmn ▸ h) fun k hk => hb k (by omega))
  | succ d ih =>
    intro m H hd hpm hm h hb
    have hx : m + 1 < n := by omega
    have hall := h.all hm
    rw [rest_succ hx] at hall ⊢
    have hget : (H ++ (m + 1) :: rest n (m + 1))[H.length]? = some (m + 1) := by simp
    by_cases hbx : bad (m + 1)
    · refine goal_err hget ((ha.high _ _ hall (by omega) hx).1 H _ rfl (fun hc => by have := (h.mem _).1 hc; omega) ?_ hbx) (hQerr _ hx hbx)
      simp only [List.mem_cons, List.mem_range'_1]
      omega
    have hb2 : ∀ k, k ≤ m + 1 → ¬ bad k := by
      intro k hk
      rcases Nat.lt_or_eq_of_le hk with h1 | h1
      · exact hb k (by omega)
      · exact h1 ▸ hbx
    have hf := (ha.high _ _ hall (by omega) hx).2 hbx
    have htx := hT.lt (m + 1) (by omega) hx
    obtain ⟨A, B, hAB, htA⟩ := posOf_mem ((h.mem (tgt (m + 1))).2 (by omega))
    have hxH : m + 1 ∉ H := fun hc => by have := (h.mem _).1 hc; omega
    have hpx : posOf (H ++ (m + 1) :: rest n (m + 1)) (m + 1) = some H.length := posOf_mid hxH
    have hpt : posOf (H ++ (m + 1) :: rest n (m + 1)) (tgt (m + 1)) = some A.length := by
      rw [hAB, List.append_assoc, List.cons_append]
      exact posOf_mid htA
    have hlen : H.length = A.length + (tgt (m + 1) :: B).length := by
      have := congrArg List.length hAB
      rwa [List.length_append] at this
    have hmove : moveTo (H ++ (m + 1) :: rest n (m + 1)) H.length A.length (m + 1) = A ++ (m + 1) :: (tgt (m + 1) :: B) ++ rest n (m + 1) := by
      have := moveTo_mid A (tgt (m + 1) :: B) (rest n (m + 1)) (m + 1)
      rw [hlen]
      have he : H ++ (m + 1) :: rest n (m + 1) = A ++ (tgt (m + 1) :: B ++ (m + 1) :: rest n (m + 1)) := by
        conv => lhs; rw [hAB]
        simp
      rw [he, this]
      simp
    have hins := Good.insert hT hx hpm (hAB ▸ h) rfl
    have hnext : ∀ H, Good p tgt lb H (m + 1) 0 → Goal ls Q (H ++ rest n (m + 1)) H.length := fun H hH => ih (m + 1) H (by omega) (by omega) hx hH hb2
    have hrun := adjust_run ha (by omega) hx hins
    have hf2 : forceOrder ls (H ++ (m + 1) :: rest n (m + 1)) (m + 1) = adjustOrder ls (A ++ (m + 1) :: (tgt (m + 1) :: B) ++ rest n (m + 1)) (m + 1) := by
      rw [hf]
      unfold beforeOrder
      rw [hpx, hpt]
      dsimp only
      rw [if_pos (by rw [hlen]; simp), hmove]
    rcases last_high p A with hA | ⟨A', y, B', hGe, hy, hB⟩
    · refine goal_false hget (hf2.trans (hrun.1 hA)) ?_
      have := hnext _ (hins.settle hA)
      have hl : (A ++ (m + 1) :: (tgt (m + 1) :: B)).length = H.length + 1 := by rw [hlen]; simp; omega
      rwa [hl] at this
    · refine goal_true hget (hf2.trans (hrun.2 A' y B' hGe hy hB)) ?_
      refine settle_run hT ha (by omega) hx hb2 hnext A'.length A' (y :: B' ++ tgt (m + 1) :: B) rfl ?_
      refine Good.move hT (by omega) hx hy ?_
      have : A' ++ (y :: B' ++ (m + 1) :: tgt (m + 1) :: B) = A ++ (m + 1) :: tgt (m + 1) :: B := by rw [hGe]; simp
      rw [this]
      exact hins

theorem good_init : Good p tgt lb (List.range (p + 1)) p 0 := by
  refine ⟨List.nodup_range, fun a => by rw [List.mem_range]; omega, by rw [List.range_succ, List.getLast?_concat], ?_⟩
  refine List.pairwise_lt_range.imp_of_mem fun {a b} ha hb h => ?_
  rw [List.mem_range] at ha hb
  exact ⟨fun _ _ => h, by omega, by omega, by omega⟩

/-- The loops end. -/
theorem full_run {ls : List Layer} {bad : Nat → Prop} {Q : Res (List Nat) → Prop} (hT : Tgts p n tgt lb) (ha : Asks ls p n tgt bad) (hQerr : ∀ k, k < n → bad k → Q .err)
    (hQok : ∀ H, Good p tgt lb H (n - 1) 0 → (∀ k, k < n → ¬ bad k) → Q (.ok H)) : Goal ls Q (List.range n) 0 := by
  have hp := ha.hp
  have hsplit : List.range n = List.range (p + 1) ++ rest n p := by
    rw [List.range_eq_range', List.range_eq_range', rest]
    have := @List.range'_append_1 0 (p + 1) (n - 1 - p)
    rw [Nat.zero_add] at this
    rw [this, show p + 1 + (n - 1 - p) = n by omega]
  have hg : Good p tgt lb (List.range (p + 1)) p 0 := good_init
  rw [hsplit]
  by_cases hall : ∀ k, k ≤ p → ¬ bad k
  · refine pass_all (e := 0) hT ha hp (List.range (p + 1)) [] [] _ (by simp) hg (fun a hm => ⟨hall a (by rw [List.mem_range] at hm; omega), fun _ => by omega⟩) ?_
    have := main_run hT ha hQerr hQok _ p _ rfl (Nat.le_refl _) hp hg hall
    simpa using this
  · have hex : ∃ k, k ≤ p ∧ bad k := Classical.byContradiction fun hc => hall fun k hk hb => hc ⟨k, hk, hb⟩
    have hmin : ∃ k, k ≤ p ∧ bad k ∧ ∀ j, j < k → ¬ bad j := by
      obtain ⟨k, hk⟩ := hex
      clear hg hsplit hall
      induction k using Nat.strongRecOn with
      | _ k ih =>
        by_cases hc : ∃ j, j < k ∧ bad j
        · obtain ⟨j, h1, h2⟩ := hc
          exact ih j h1 ⟨by omega, h2⟩
        · exact ⟨k, hk.1, hk.2, fun j hj hb => hc ⟨j, hj, hb⟩⟩
    obtain ⟨k, hk, hbk, hlt⟩ := hmin
    have hrk : List.range (p + 1) = List.range k ++ k :: List.range' (k + 1) (p - k) := by
      rw [List.range_eq_range', List.range_eq_range']
      have := @List.range'_append_1 0 k (p - k + 1)
      rw [Nat.zero_add, List.range'_succ] at this
      rw [this, show k + (p - k + 1) = p + 1 by omega]
    refine pass_all (e := 0) hT ha hp (List.range k) [] (k :: List.range' (k + 1) (p - k)) _ (by simpa using hrk) hg
      (fun a hm => ⟨hlt a (by simpa using hm), fun _ => by omega⟩) ?_
    have hall2 := hg.all hp
    have hp2 : p ∈ k :: (List.range' (k + 1) (p - k) ++ rest n p) := by
      simp only [List.mem_cons, List.mem_append, List.mem_range'_1]
      omega
    refine goal_err (k := k) ?_ ((ha.low _ (List.range k) (List.range' (k + 1) (p - k) ++ rest n p) k hall2 (by rw [hrk]; simp) (by simp) hp2 hk).1 hbk) (hQerr k (by omega) hbk)
    rw [hrk]
    simp

/-! ## More rounds give the same -/

theorem orderRun_mono {ls : List Layer} (a : Nat) : ∀ (b : Nat) (o : List Nat) (i : Nat) (r : Res (List Nat)), a ≤ b → orderRun ls a o i = some r → orderRun ls b o i = some r := by
  induction a with
  | zero => intro b o i r _ h; simp [orderRun] at h
  | succ a ih =>
    intro b o i r hab h
    obtain ⟨b, rfl⟩ : ∃ c, b = c + 1 := ⟨b - 1, by omega⟩
    rw [orderRun] at h ⊢
    split at h
    · next h1 => exact h
    · next k h1 =>
      split at h
      · next h2 => exact ih b _ _ r (by omega) h
      · next h2 => exact ih b _ _ r (by omega) h
      · next h2 => exact h
      · next h2 => exact h

end Commsdsl.Props.StackProofs
