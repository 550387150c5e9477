import Verif.Lemmas.FieldInv
import Verif.Spec.Field
import Verif.Props.SetField
import Verif.Props.EnumField
import Verif.Props.IntField
/-!
# Invariants of field objects
-/
namespace Commsdsl.Fld
open Commsdsl Text

/-- The way to prove something about all field objects. -/
theorem obj_hered {P : Field → Prop} (hc : ∀ f, Hered P f → P (clone f)) (hl : ∀ s f, P f → P (liftSince s f))
    (hstep : ∀ (env : FEnv) (pc : ParentInfo → Xml → Res Field) (parent : ParentInfo) (node : Xml) (f : Field),
      parseStep env pc parent node = .ok f → (∀ s g, env.findField s = some g → Hered P g) →
      (∀ p n g, pc p n = .ok g → Hered P g) → (∀ g ∈ f.subs, Hered P g) → P f) :
    ∀ f, Spec.Obj f → Hered P f := by
  have hacc : ∀ f, Spec.Accepted f → Hered P f := by
    intro f h
    induction h with
    | parse _ h ih =>
      refine parseField_induction (P := Hered P) ?_ _ _ _ _ h
      intro pc hpc parent node f hf
      have hs := parseStep_subs hf hpc ih (fun g hg => hg.clone hc) (fun s g hg => hg.lift hl s) (fun g hg => hg.subs)
      exact .mk (hstep _ pc parent node f hf ih hpc hs) hs
  intro f h
  induction h with
  | acc h => exact hacc _ h
  | inner _ hg ih => exact ih.subs _ hg
  | copy _ ih => exact ih.clone hc
  | lift s _ ih => exact ih.lift hl s

/-! ## The states of leaves, sizes, fields that must be there -/

/-- Local facts about a field object. -/
def Leaf : Field → Prop
  | .int _ st => IntF.Accepted st
  | .enum _ st => ∃ b, EnumF.Accepted b st
  | .set _ st => SetF.Accepted st
  | .float _ st => FloatF.Accepted st
  | .string _ st _ => st.length < 4294967296
  | .data _ st _ => st.length < 4294967296
  | .list _ st e _ _ _ _ => st.count < 4294967296 ∧ e.has = true
  | .ref _ _ t => t.has = true
  | .optional _ _ fs _ => fs.has = true
  | .bitfield .. | .bundle .. | .variant .. => True

theorem cloneSlot_has (s : Slot Field) : (cloneSlot s).has = s.has := by cases s <;> rfl

theorem leaf_clone (f : Field) (h : Leaf f) : Leaf (clone f) := by
  cases f <;> simp only [Leaf, clone, cloneSlot_has] at h ⊢ <;> exact h

theorem leaf_lift (s : Nat) (f : Field) (h : Leaf f) : Leaf (liftSince s f) := by
  cases f <;> exact h

theorem strToUnsigned_lt {s : Str} {n : Nat} (h : strToUnsigned s = some n) : n < 4294967296 := by
  simp only [strToUnsigned, Option.map_eq_some_iff] at h
  obtain ⟨a, _, rfl⟩ := h
  unfold castU32
  omega

theorem seqUpdateLength_lt {α : Type} {b : BCtx} {p : Slot Field} {st st' : SeqState α} (h : seqUpdateLength b p st = .ok st')
    (h0 : st.length < 4294967296) : st'.length < 4294967296 := by
  unfold seqUpdateLength at h
  split at h
  · simp at h
  · split at h
    · cases h; exact h0
    · split at h
      · simp at h
      · rename_i n hn
        have := strToUnsigned_lt hn
        split at h
        · simp at h
        · split at h
          · cases h; exact h0
          · split at h
            · simp at h
            · split at h
              · simp at h
              · cases h; exact this

theorem updateEncoding_len {α : Type} {b : BCtx} {st st' : SeqState α} (h : updateEncoding b st = .ok st') :
    ∃ e, st' = { st with encoding := e } := by
  unfold updateEncoding at h
  split at h
  · simp at h
  · split at h <;> cases h
    · exact ⟨_, rfl⟩
    · exact ⟨_, rfl⟩

theorem seqUpdatePrefix_frame {α : Type} {env : FEnv} {b : BCtx} {st st' : SeqState α} {p p' : Slot Field}
    (h : seqUpdatePrefix env b st p = .ok (st', p')) : ∃ d, st' = { st with detached := d } ∧
      updatePfx env b "lengthPrefix".toList ⟨st.detached, p⟩ = .ok ⟨d, p'⟩ ∧ (p'.has = true → st.length = 0 ∧ st.zeroSuffix = false) := by
  simp only [seqUpdatePrefix, Res.bind_eq_ok, Res.pure_eq] at h
  obtain ⟨q, h1, _, h3, _, h4, h2⟩ := h
  cases h2
  refine ⟨q.detached, rfl, h1, ?_⟩
  intro hp
  have a := Res.check_ok h3
  have b := Res.check_ok h4
  rw [hp] at a b
  simpa using And.intro a b

theorem updateZeroTerm_frame {α : Type} {b : BCtx} {st st' : SeqState α} {p : Slot Field} (h : updateZeroTerm b p st = .ok st') :
    ∃ z, st' = { st with zeroSuffix := z } ∧ (z = true → st.zeroSuffix = true ∨ (st.length = 0 ∧ p.has = false)) := by
  unfold updateZeroTerm at h
  split at h
  · simp at h
  · split at h
    · cases h; exact ⟨st.zeroSuffix, rfl, fun h => Or.inl h⟩
    · split at h
      · simp at h
      · rename_i v hv
        split at h
        · cases h; exact ⟨st.zeroSuffix, rfl, fun h => Or.inl h⟩
        · split at h
          · cases h; rename_i hv; refine ⟨_, rfl, ?_⟩; intro hz; simp [hz] at hv
          · split at h
            · simp at h
            · split at h
              · simp at h
              · cases h
                rename_i h1 h2
                exact ⟨_, rfl, fun _ => Or.inr ⟨by simpa using h1, by simpa using h2⟩⟩

theorem seqUpdateDefault_frame {α : Type} {val : Str → Option (List α)} {b : BCtx} {st st' : SeqState α}
    (h : seqUpdateDefault val b st = .ok st') : ∃ d, st' = { st with default := d } := by
  unfold seqUpdateDefault at h
  split at h
  · simp at h
  · split at h
    · cases h; exact ⟨_, rfl⟩
    · split at h
      · simp at h
      · cases h; exact ⟨_, rfl⟩

theorem seqUpdateDefaultValid_frame {α : Type} {dsl : Nat} {val : Str → Option (List α)} {b : BCtx} {st st' : SeqState α}
    (h : seqUpdateDefaultValid dsl val b st = .ok st') : ∃ d v, st' = { st with default := d, valid := v } := by
  unfold seqUpdateDefaultValid at h
  split at h
  · simp at h
  · split at h
    · cases h; exact ⟨_, _, rfl⟩
    · split at h
      · cases h; exact ⟨_, _, rfl⟩
      · split at h
        · simp at h
        · cases h; exact ⟨_, _, rfl⟩

theorem validChildren_frame {α : Type} {env : FEnv} {val : Str → Option (List α)} {b : BCtx} {ns : List Xml} {st st' : SeqState α}
    (h : validChildren env val b ns st = .ok st') : ∃ v, st' = { st with valid := v } := by
  induction ns generalizing st with
  | nil => cases h; exact ⟨_, rfl⟩
  | cons n ns ih =>
    simp only [validChildren, Res.bind_eq_ok] at h
    obtain ⟨s1, h1, h2⟩ := h
    have : ∃ v, s1 = { st with valid := v } := by
      simp only [validAsChild, Res.bind_eq_ok] at h1
      obtain ⟨_, _, h1⟩ := h1
      split at h1
      · cases h1; exact ⟨_, rfl⟩
      · simp only [Res.bind_eq_ok, Res.pure_eq] at h1
        obtain ⟨_, _, _, _, h1⟩ := h1
        cases h1; exact ⟨_, rfl⟩
    obtain ⟨v, rfl⟩ := this
    obtain ⟨v', h3⟩ := ih h2
    exact ⟨v', by rw [h3]⟩

theorem seqUpdateValid_frame {α : Type} {env : FEnv} {val : Str → Option (List α)} {lt : α → α → Bool} {b : BCtx} {st st' : SeqState α}
    (h : seqUpdateValid env val lt b st = .ok st') : ∃ v, st' = { st with valid := sortBy (fun x y => lexLt lt x.1 y.1) v } := by
  simp only [seqUpdateValid, Res.bind_eq_ok, Res.pure_eq] at h
  obtain ⟨s1, h1, s2, h2, h3⟩ := h
  cases h3
  have : ∃ v, s1 = { st with valid := v } := by
    unfold validAsAttr at h1
    split at h1
    · cases h1; exact ⟨_, rfl⟩
    · split at h1
      · cases h1; exact ⟨_, rfl⟩
      · split at h1
        · simp at h1
        · cases h1; exact ⟨_, rfl⟩
  obtain ⟨v, rfl⟩ := this
  obtain ⟨v', rfl⟩ := validChildren_frame h2
  exact ⟨v', rfl⟩

/-- What `parseImpl` of strings does to everything but values. -/
theorem stringImpl_frame {env : FEnv} {b : BCtx} {st : SeqState Char} {p : Slot Field} {x : SeqState Char × Slot Field}
    (h : stringImpl env b st p = .ok x) : ∃ s1, seqUpdateLength b p s1 = .ok { x.1 with
        default := st.default, valid := st.valid, zeroSuffix := st.zeroSuffix, detached := st.detached } ∧
      (∃ e, s1 = { st with encoding := e }) ∧ updatePfx env b "lengthPrefix".toList ⟨st.detached, p⟩ = .ok ⟨x.1.detached, x.2⟩ ∧
      (x.2.has = true → x.1.length = 0 ∧ st.zeroSuffix = false) ∧
      (x.1.zeroSuffix = true → st.zeroSuffix = true ∨ (x.1.length = 0 ∧ x.2.has = false)) ∧
      ∃ v, x.1.valid = sortBy (fun x y => lexLt (fun a b => decide (a < b)) x.1 y.1) v := by
  simp only [stringImpl, Res.bind_eq_ok, Res.pure_eq] at h
  obtain ⟨st1, h1, st2, h2, ⟨st3, p3⟩, h3, st4, h4, st5, h5, st6, h6, st7, h7, h⟩ := h
  cases h
  obtain ⟨e, rfl⟩ := updateEncoding_len h1
  obtain ⟨d, rfl, hd, hp⟩ := seqUpdatePrefix_frame h3
  obtain ⟨z, rfl, hz⟩ := updateZeroTerm_frame h4
  obtain ⟨df, rfl⟩ := seqUpdateDefault_frame h5
  obtain ⟨df2, v2, rfl⟩ := seqUpdateDefaultValid_frame h6
  obtain ⟨v3, rfl⟩ := seqUpdateValid_frame h7
  have key : st2.default = st.default ∧ st2.valid = st.valid ∧ st2.zeroSuffix = st.zeroSuffix ∧ st2.detached = st.detached := by
    unfold seqUpdateLength at h2
    split at h2
    · simp at h2
    · split at h2
      · cases h2; exact ⟨rfl, rfl, rfl, rfl⟩
      · split at h2
        · simp at h2
        · split at h2
          · simp at h2
          · split at h2
            · cases h2; exact ⟨rfl, rfl, rfl, rfl⟩
            · split at h2
              · simp at h2
              · split at h2
                · simp at h2
                · cases h2; exact ⟨rfl, rfl, rfl, rfl⟩
  obtain ⟨k1, k2, k3, k4⟩ := key
  refine ⟨_, ?_, ⟨e, rfl⟩, ?_, ?_, ?_, v3, rfl⟩
  · rw [h2]
    congr 1
    cases st2
    simp_all
  · rw [k4] at hd; exact hd
  · rw [k3] at hp; exact hp
  · rw [k3] at hz; exact hz

theorem dataImpl_frame {env : FEnv} {b : BCtx} {st : SeqState Nat} {p : Slot Field} {x : SeqState Nat × Slot Field}
    (h : dataImpl env b st p = .ok x) : seqUpdateLength b p st = .ok { x.1 with
        default := st.default, valid := st.valid, detached := st.detached } ∧ x.1.zeroSuffix = st.zeroSuffix ∧
      updatePfx env b "lengthPrefix".toList ⟨st.detached, p⟩ = .ok ⟨x.1.detached, x.2⟩ ∧
      (x.2.has = true → x.1.length = 0) ∧
      ∃ v, x.1.valid = sortBy (fun x y => lexLt (fun a b => decide (a < b)) x.1 y.1) v := by
  simp only [dataImpl, Res.bind_eq_ok, Res.pure_eq] at h
  obtain ⟨st2, h2, ⟨st3, p3⟩, h3, st5, h5, st6, h6, st7, h7, h⟩ := h
  cases h
  obtain ⟨d, rfl, hd, hp⟩ := seqUpdatePrefix_frame h3
  obtain ⟨df, rfl⟩ := seqUpdateDefault_frame h5
  obtain ⟨df2, v2, rfl⟩ := seqUpdateDefaultValid_frame h6
  obtain ⟨v3, rfl⟩ := seqUpdateValid_frame h7
  have key : st2.default = st.default ∧ st2.valid = st.valid ∧ st2.zeroSuffix = st.zeroSuffix ∧ st2.detached = st.detached := by
    unfold seqUpdateLength at h2
    split at h2
    · simp at h2
    · split at h2
      · cases h2; exact ⟨rfl, rfl, rfl, rfl⟩
      · split at h2
        · simp at h2
        · split at h2
          · simp at h2
          · split at h2
            · cases h2; exact ⟨rfl, rfl, rfl, rfl⟩
            · split at h2
              · simp at h2
              · split at h2
                · simp at h2
                · cases h2; exact ⟨rfl, rfl, rfl, rfl⟩
  obtain ⟨k1, k2, k3, k4⟩ := key
  refine ⟨?_, k3, ?_, fun h => (hp h).1, v3, rfl⟩
  · rw [h2]
    congr 1
    cases st2
    simp_all
  · rw [k4] at hd; exact hd

theorem updateCount_frame {b : BCtx} {sl : ListSlots} {st st' : ListState} (h : updateCount b sl st = .ok st') :
    ∃ n, st' = { st with count := n } ∧ (n = st.count ∨ (0 < n ∧ n < 4294967296 ∧ sl.cnt.has = false ∧ sl.len.has = false ∧
      sl.term.has = false ∧ st.detachedCount = [] ∧ st.detachedLen = [] ∧ st.detachedElemLen = [] ∧ st.detachedTerm = [])) := by
  unfold updateCount at h
  split at h
  · simp at h
  · split at h
    · cases h; exact ⟨st.count, rfl, Or.inl rfl⟩
    · split at h
      · simp at h
      · rename_i n hn
        have := strToUnsigned_lt hn
        split at h
        · simp at h
        · split at h
          · simp at h
          · cases h
            rename_i h0 h1
            refine ⟨n, rfl, Or.inr ⟨by omega, this, ?_⟩⟩
            simpa [and_assoc] using h1

theorem updateElemFixed_frame {b : BCtx} {e : Slot Field} {st st' : ListState} (h : updateElemFixed b e st = .ok st') :
    ∃ v, st' = { st with elemFixedLength := v } ∧ (v = true → ∃ n, minOrUb e = .ok n ∧ maxOrUb e = .ok n) := by
  simp only [updateElemFixed, Res.bind_eq_ok] at h
  obtain ⟨v, _, h⟩ := h
  split at h
  · rename_i hv
    cases h
    exact ⟨v, rfl, fun h => by simp [h] at hv⟩
  · simp only [Res.bind_eq_ok, Res.pure_eq] at h
    obtain ⟨mn, h1, mx, h2, _, h3, h4⟩ := h
    cases h4
    have := Res.check_ok h3
    simp only [decide_eq_true_eq] at this
    exact ⟨v, rfl, fun _ => ⟨mn, h1, this ▸ h2⟩⟩

theorem leaf_step (env : FEnv) (pc : ParentInfo → Xml → Res Field) (parent : ParentInfo) (node : Xml) (f : Field)
    (h : parseStep env pc parent node = .ok f) (henv : ∀ s g, env.findField s = some g → Hered Leaf g) : Leaf f := by
  cases f with
  | int c st =>
    obtain ⟨ic, st0, h1, h2⟩ := int_inv h
    rcases h1 with rfl | ⟨s, c0, h1⟩
    · exact .fresh h2
    · exact .reuse (henv _ _ h1).self h2
  | enum c st =>
    obtain ⟨ic, st0, h1, h2⟩ := enum_inv h
    rcases h1 with rfl | ⟨s, c0, h1⟩
    · exact ⟨_, .fresh h2⟩
    · obtain ⟨b, hb⟩ := (henv _ _ h1).self
      exact ⟨_, .reuse hb h2⟩
  | set c st =>
    obtain ⟨ic, st0, h1, h2⟩ := set_inv h
    rcases h1 with rfl | ⟨s, c0, h1⟩
    · exact .fresh h2
    · exact .reuse (henv _ _ h1).self h2
  | float c st =>
    obtain ⟨ic, st0, h1, h2⟩ := float_inv h
    rcases h1 with rfl | ⟨s, c0, h1⟩
    · exact .fresh h2
    · exact .reuse (henv _ _ h1).self h2
  | string c st p =>
    obtain ⟨b, st0, p0, h1, h2⟩ := string_inv h
    obtain ⟨s1, ha, ⟨e, rfl⟩, _⟩ := stringImpl_frame h2
    have h0 : st0.length < 4294967296 := by
      rcases h1 with ⟨rfl, _⟩ | ⟨s, c0, p1, h1, _⟩
      · decide
      · exact (henv _ _ h1).self
    have := seqUpdateLength_lt ha h0
    exact this
  | data c st p =>
    obtain ⟨b, st0, p0, h1, h2⟩ := data_inv h
    obtain ⟨ha, _⟩ := dataImpl_frame h2
    have h0 : st0.length < 4294967296 := by
      rcases h1 with ⟨rfl, _⟩ | ⟨s, c0, p1, h1, _⟩
      · decide
      · exact (henv _ _ h1).self
    have := seqUpdateLength_lt ha h0
    exact this
  | list c st e cn l el t =>
    obtain ⟨b, st0, sl, h1, h2⟩ := list_inv h
    have h0 : st0.count < 4294967296 := by
      rcases h1 with ⟨rfl, _⟩ | ⟨s, c0, e1, c1, l1, el1, t1, h1, _⟩
      · decide
      · exact (henv _ _ h1).self.1
    obtain ⟨e', st1, x2, x3, st4, x5, q1, q2, q3, q4, q5, q6, q7⟩ := listImpl_ok h2
    obtain ⟨n, rfl, hn⟩ := updateCount_frame q2
    obtain ⟨p2, _, rfl⟩ := updateCountPrefix_ok q3
    obtain ⟨p3, _, rfl⟩ := updateLengthPrefix_ok q4
    obtain ⟨v, rfl, _⟩ := updateElemFixed_frame q5
    obtain ⟨p5, _, rfl⟩ := updateElemLenPrefix_ok q6
    obtain ⟨p7, _, q8⟩ := updateTermSuffix_ok q7
    have : n < 4294967296 := by omega
    have he := updateElement_has q1
    rcases q8 with q8 | q8 <;> (cases q8; exact ⟨this, he⟩)
  | ref c bl t =>
    obtain ⟨b, c0, bl0, t0, h1, h2⟩ := ref_inv h
    rcases refImpl_ok h2 with ⟨h3, h4⟩ | ⟨s, t', bl', h3, _, h4⟩
    · cases h3; exact h4
    · cases h4; rfl
  | optional c st fs cd =>
    obtain ⟨b, st0, f0, cd0, h1, h2⟩ := optional_inv h
    simp only [optionalImpl, Res.bind_eq_ok, Res.pure_eq] at h2
    obtain ⟨_, _, _, _, _, _, fs', hf, _, _, _, _, h⟩ := h2
    cases h
    exact optField_has hf
  | bitfield | bundle | variant => trivial

/-- Local facts hold of all field objects. -/
theorem obj_leaf {f : Field} (h : Spec.Obj f) : Hered Leaf f :=
  obj_hered (fun f h => leaf_clone f h.self) leaf_lift (fun env pc parent node f hf henv _ _ => leaf_step env pc parent node f hf henv) f h

end Commsdsl.Fld
