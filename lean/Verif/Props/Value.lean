import Verif.Spec.Value
import Verif.Lemmas.FieldObj
import Verif.Props.IntField
import Verif.Props.EnumField
import Verif.Props.SetField
import Verif.Props.FloatField
import Verif.Props.FieldMembers
import Verif.Props.FieldChecks
import Verif.Props.Protocol
import Verif.Props.ProtocolCalls
/-!
# C72: references to values
-/
namespace Commsdsl.Props
open Commsdsl Text Fld Spec Proto

namespace ValueProofs
open ProtoProofs

theorem words_cons {w : Str} {p : List Str} (h : Words (w :: p)) : (w ≠ [] ∧ '.' ∉ w) ∧ Words p :=
  ⟨h w (by simp), fun x hx => h x (by simp [hx])⟩

theorem join_cons {w : Str} {p : List Str} (h : Words (w :: p)) :
    joinDots (w :: p) ≠ [] ∧ beforeDot (joinDots (w :: p)) = w ∧ afterDot (joinDots (w :: p)) = joinDots p := by
  obtain ⟨⟨h1, h2⟩, h3⟩ := words_cons h
  cases p with
  | nil =>
    refine ⟨h1, CheckProofs.beforeDot_self h2, ?_⟩
    show afterDot w = []
    unfold afterDot
    have : w.dropWhile (fun c => c != '.') = [] := by
      clear h h1 h3
      induction w with
      | nil => rfl
      | cons a w ih =>
        have ha : (a != '.') = true := by
          have : a ≠ '.' := fun e => h2 (by simp [e])
          simpa using this
        rw [List.dropWhile_cons, if_pos ha]
        exact ih (fun e => h2 (List.mem_cons_of_mem _ e))
    rw [this]; rfl
  | cons a r =>
    obtain ⟨e1, e2⟩ := CheckProofs.beforeDot_append (t := joinDots (a :: r)) h2
    exact ⟨by simp [joinDots], e1, e2⟩

theorem join_nil {p : List Str} (h : Words p) (e : joinDots p = []) : p = [] := by
  cases p with
  | nil => rfl
  | cons a r => exact absurd e (join_cons h).1

theorem join_one {p : List Str} {n : Str} (h : Words p) (hn : '.' ∉ n) (e : joinDots p = n) : p = [n] ∨ (p = [] ∧ n = []) := by
  cases p with
  | nil => exact .inr ⟨rfl, e.symm⟩
  | cons a r =>
    cases r with
    | nil => exact .inl (by rw [← e]; rfl)
    | cons b r =>
      exfalso; apply hn; rw [← e]; simp [joinDots]

/-- Fields whose values are asked for through their members. -/
def Passes : Field → Prop
  | .bitfield .. | .bundle .. | .variant .. | .optional .. | .ref .. => True
  | _ => False

theorem memberValue_iff {α : Type} {dsl : Nat} {leaf : Field → Str → Option α} {ms : List Field} (hn : (ms.map Field.name).Nodup) (n rest : Str)
    (a : α) : memberValue dsl leaf ms n rest = some a ↔ ∃ m ∈ ms, m.name = n ∧ fieldValue dsl leaf m rest = some a := by
  induction ms with
  | nil => simp [memberValue]
  | cons m ms ih =>
    simp only [List.map_cons, List.nodup_cons] at hn
    unfold memberValue
    split
    · rename_i e
      constructor
      · intro h; exact ⟨m, by simp, e, h⟩
      · rintro ⟨m', hm, e', h⟩
        rcases List.mem_cons.1 hm with rfl | hm
        · exact h
        · exact absurd (List.mem_map.2 ⟨m', hm, e'.trans e.symm⟩) hn.1
    · rename_i e
      rw [ih hn.2]
      constructor
      · rintro ⟨m', hm, h⟩; exact ⟨m', by simp [hm], h⟩
      · rintro ⟨m', hm, e', h⟩
        rcases List.mem_cons.1 hm with rfl | hm
        · exact absurd e' e
        · exact ⟨m', hm, e', h⟩

/-- One step of `LeadsTo`. -/
theorem leads_inv {f g : Field} {p q : List Str} (h : LeadsTo f p g q) : (g = f ∧ q = p) ∨
    (∃ m ∈ f.members, ∃ p', p = m.name :: p' ∧ LeadsTo m p' g q) ∨
    (∃ c st k m p', f = .optional c st (.own m) k ∧ p = m.name :: p' ∧ LeadsTo m p' g q) ∨
    (∃ c b t, f = .ref c b t ∧ ∃ m ∈ t.toList, LeadsTo m p g q) := by
  cases h with
  | here => exact .inl ⟨rfl, rfl⟩
  | member hm h => exact .inr (.inl ⟨_, hm, _, rfl, h⟩)
  | inOptional h => exact .inr (.inr (.inl ⟨_, _, _, _, _, rfl, rfl, h⟩))
  | target hm h => exact .inr (.inr (.inr ⟨_, _, _, rfl, _, hm, h⟩))

theorem fieldValue_iff {α : Type} {dsl : Nat} (hd : refOk dsl = true) {leaf : Field → Str → Option α} (hl : ∀ f s, Passes f → leaf f s = none)
    (f : Field) : Obj f → ∀ (p : List Str) (a : α), Words p →
    (fieldValue dsl leaf f (joinDots p) = some a ↔ ∃ g q, LeadsTo f p g q ∧ leaf g (joinDots q) = some a) := by
  refine Field.induction (P := fun f => Obj f → ∀ (p : List Str) (a : α), Words p →
    (fieldValue dsl leaf f (joinDots p) = some a ↔ ∃ g q, LeadsTo f p g q ∧ leaf g (joinDots q) = some a)) ?_ f
  intro f ih hf p a hw
  have hmem : ∀ (ms : List Field), f.members = ms → ms ⊆ f.subs → Passes f → (∀ c st t k, f ≠ .optional c st t k) → (∀ c b t, f ≠ .ref c b t) →
      ((if (joinDots p).isEmpty || !refOk dsl then none else memberValue dsl leaf ms (beforeDot (joinDots p)) (afterDot (joinDots p))) = some a ↔
        ∃ g q, LeadsTo f p g q ∧ leaf g (joinDots q) = some a) := by
    intro ms hms hsub hp hno hnr
    cases p with
    | nil =>
      rw [if_pos (by simp [joinDots])]
      constructor
      · intro h; cases h
      · rintro ⟨g, q, h, h'⟩
        rcases leads_inv h with ⟨rfl, rfl⟩ | ⟨m, _, p', e, _⟩ | ⟨c, st, k, m, p', e, _⟩ | ⟨c, b, t, e, _⟩
        · rw [hl _ _ hp] at h'; cases h'
        · cases e
        · exact absurd e (hno _ _ _ _)
        · exact absurd e (hnr _ _ _)
    | cons w p =>
      obtain ⟨e0, e1, e2⟩ := join_cons hw
      obtain ⟨_, hw'⟩ := words_cons hw
      rw [if_neg (by rw [hd]; simpa using e0), e1, e2, memberValue_iff (hms ▸ C48_field_members_unique f hf)]
      constructor
      · rintro ⟨m, hm, rfl, h⟩
        obtain ⟨g, q, h1, h2⟩ := (ih m (hsub hm) (.inner hf (hsub hm)) p a hw').1 h
        exact ⟨g, q, .member (hms ▸ hm) h1, h2⟩
      · rintro ⟨g, q, h, h'⟩
        rcases leads_inv h with ⟨rfl, rfl⟩ | ⟨m, hm, p', e, h⟩ | ⟨c, st, k, m, p', e, _⟩ | ⟨c, b, t, e, _⟩
        · rw [hl _ _ hp] at h'; cases h'
        · cases e
          rw [hms] at hm
          exact ⟨m, hm, rfl, (ih m (hsub hm) (.inner hf (hsub hm)) p a hw').2 ⟨g, q, h, h'⟩⟩
        · exact absurd e (hno _ _ _ _)
        · exact absurd e (hnr _ _ _)
  have hleaf : f.members = [] → ¬ Passes f → (leaf f (joinDots p) = some a ↔ ∃ g q, LeadsTo f p g q ∧ leaf g (joinDots q) = some a) := by
    intro hm hp
    constructor
    · intro h; exact ⟨f, p, .here, h⟩
    · rintro ⟨g, q, h, h'⟩
      rcases leads_inv h with ⟨rfl, rfl⟩ | ⟨m, hm', p', e, h⟩ | ⟨c, st, k, m, p', e, _⟩ | ⟨c, b, t, e, _⟩
      · exact h'
      · rw [hm] at hm'; cases hm'
      · subst e; exact absurd trivial hp
      · subst e; exact absurd trivial hp
  cases f with
  | int c st => simp only [fieldValue]; exact hleaf rfl id
  | enum c st => simp only [fieldValue]; exact hleaf rfl id
  | set c st => simp only [fieldValue]; exact hleaf rfl id
  | float c st => simp only [fieldValue]; exact hleaf rfl id
  | string c st p => simp only [fieldValue]; exact hleaf rfl id
  | data c st p => simp only [fieldValue]; exact hleaf rfl id
  | list c st a b d e t => simp only [fieldValue]; exact hleaf rfl id
  | bitfield c e ms cd => simp only [fieldValue]; exact hmem ms rfl (fun _ h => h) trivial (by simp) (by simp)
  | bundle c ms al cd => simp only [fieldValue]; exact hmem ms rfl (fun _ h => h) trivial (by simp) (by simp)
  | variant c d ms => simp only [fieldValue]; exact hmem ms rfl (fun _ h => h) trivial (by simp) (by simp)
  | ref c b t =>
    simp only [fieldValue, hd, Bool.not_true, Bool.false_eq_true, if_false]
    have key : slotValue dsl leaf t (joinDots p) = some a ↔ ∃ m ∈ t.toList, fieldValue dsl leaf m (joinDots p) = some a := by
      cases t <;> simp [slotValue, Slot.toList]
    rw [key]
    constructor
    · rintro ⟨m, hm, h⟩
      obtain ⟨g, q, h1, h2⟩ := (ih m hm (.inner hf hm) p a hw).1 h
      exact ⟨g, q, .target hm h1, h2⟩
    · rintro ⟨g, q, h, h'⟩
      rcases leads_inv h with ⟨rfl, rfl⟩ | ⟨m, hm, p', e, h⟩ | ⟨c, st, k, m, p', e, _⟩ | ⟨c, b, t, e, m, hm, h⟩
      · rw [hl _ _ (by simp [Passes])] at h'; cases h'
      · simp [Field.members] at hm
      · cases e
      · cases e
        exact ⟨m, hm, (ih m hm (.inner hf hm) p a hw).2 ⟨g, q, h, h'⟩⟩
  | optional c st t k =>
    simp only [fieldValue]
    cases p with
    | nil =>
      rw [if_pos (by simp [joinDots])]
      constructor
      · intro h; cases h
      · rintro ⟨g, q, h, h'⟩
        rcases leads_inv h with ⟨rfl, rfl⟩ | ⟨m, hm, p', e, _⟩ | ⟨c, st, k, m, p', _, e, _⟩ | ⟨c, b, t, e, _⟩
        · rw [hl _ _ (by simp [Passes])] at h'; cases h'
        · cases e
        · cases e
        · cases e
    | cons w p =>
      obtain ⟨e0, e1, e2⟩ := join_cons hw
      obtain ⟨_, hw'⟩ := words_cons hw
      rw [if_neg (by rw [hd]; simpa using e0)]
      have key : optValue dsl leaf t (joinDots (w :: p)) = some a ↔ ∃ m, t = .own m ∧ m.name = w ∧ fieldValue dsl leaf m (joinDots p) = some a := by
        cases t with
        | none => simp [optValue]
        | ext m => simp [optValue]
        | own m =>
          simp only [optValue, e1, e2]
          constructor
          · intro h
            split at h
            · rename_i e; exact ⟨m, rfl, e, h⟩
            · cases h
          · rintro ⟨m', e, rfl, h⟩
            cases e
            rw [if_pos rfl]; exact h
      rw [key]
      constructor
      · rintro ⟨m, rfl, rfl, h⟩
        have hs : m ∈ (Field.optional c st (.own m) k).subs := by simp [Field.subs, Slot.toList]
        obtain ⟨g, q, h1, h2⟩ := (ih m hs (.inner hf hs) p a hw').1 h
        exact ⟨g, q, .inOptional h1, h2⟩
      · rintro ⟨g, q, h, h'⟩
        rcases leads_inv h with ⟨rfl, rfl⟩ | ⟨m, hm, p', e, h⟩ | ⟨c, st, k, m, p', e, e', h⟩ | ⟨c, b, t, e, m, hm, h⟩
        · rw [hl _ _ (by simp [Passes])] at h'; cases h'
        · simp [Field.members] at hm
        · cases e; cases e'
          have hs : m ∈ (Field.optional c st (.own m) k).subs := by simp [Field.subs, Slot.toList]
          exact ⟨m, rfl, rfl, (ih m hs (.inner hf hs) p a hw').2 ⟨g, q, h, h'⟩⟩
        · cases e

theorem leads_obj {f g : Field} {p q : List Str} (h : LeadsTo f p g q) (hf : Obj f) (hw : Words p) : Obj g ∧ Words q := by
  induction h with
  | here => exact ⟨hf, hw⟩
  | member hm _ ih => exact ih (.inner hf (members_subs hm)) (words_cons hw).2
  | inOptional _ ih => exact ih (.inner hf (by simp [Field.subs, Slot.toList])) (words_cons hw).2
  | target hm _ ih => exact ih (.inner hf hm) hw

/-! ### The kinds with values -/

theorem find_name {β : Type} {l : List (Str × β)} (hn : (l.map Prod.fst).Nodup) (hv : ∀ p ∈ l, isValidName p.1 = true) {w : Str} {r : List Str}
    (hw : Words (w :: r)) (i : β) : (l.find? fun p => p.1 == joinDots (w :: r)).map Prod.snd = some i ↔ ∃ n, w :: r = [n] ∧ (n, i) ∈ l := by
  constructor
  · intro h
    obtain ⟨⟨n, j⟩, h1, rfl⟩ := Option.map_eq_some_iff.1 h
    have hm := List.mem_of_find?_eq_some h1
    have he := List.find?_some h1
    simp only [beq_iff_eq] at he
    rcases join_one hw (name_facts (hv _ hm)).1 he.symm with e | ⟨e, _⟩
    · exact ⟨n, e, hm⟩
    · cases e
  · rintro ⟨n, e, hm⟩
    rw [e]
    show (l.find? fun p => p.1 == n).map Prod.snd = some i
    clear hw e hv
    induction l with
    | nil => cases hm
    | cons a l ih =>
      simp only [List.map_cons, List.nodup_cons] at hn
      rcases List.mem_cons.1 hm with rfl | hm
      · simp
      · have : (a.1 == n) = false := by
          have : a.1 ≠ n := fun e => hn.1 (List.mem_map.2 ⟨_, hm, e.symm⟩)
          simpa using this
        rw [List.find?_cons_of_neg (by simp [this])]
        exact ih hn.2 hm

theorem big_iff (t : Option IntF.IntType) (v : Int) :
    ((match t with | some t => IntF.isBigUnsigned t | none => false) && decide (9223372036854775807 < castU64 v)) = true ↔ Large t v := by
  unfold Large
  rw [Bool.and_eq_true, decide_eq_true_eq]
  have h2 : 9223372036854775807 < castU64 v ↔ 2 ^ 63 ≤ v % 2 ^ 64 := by
    unfold castU64; omega
  rw [h2]
  have h1 : (match t with | some t => IntF.isBigUnsigned t | none => false) = true ↔ t = some .uint64 ∨ t = some .uintvar := by
    cases t with
    | none => simp
    | some t => cases t <;> simp [IntF.isBigUnsigned]
  rw [h1]

theorem obj_leafStates {f : Field} (h : Obj f) : Leaf f := (obj_leaf h).self

theorem set_iff {st : SetF.State} (h : SetF.Accepted st) {dsl : Nat} (hd : refOk dsl = true) {q : List Str} (hq : Words q) (v : Bool) :
    setBool dsl st (joinDots q) = some v ↔ (q = [] ∧ v = st.defaultBit) ∨ ∃ n i, q = [n] ∧ (n, i) ∈ st.bits ∧ v = i.default := by
  unfold setBool
  rw [if_neg (by rw [hd]; simp)]
  cases q with
  | nil =>
    rw [if_pos (show List.isEmpty (joinDots []) = true from rfl)]
    simp [eq_comm]
  | cons w r =>
    rw [if_neg (by simpa using (join_cons hq).1), Option.map_eq_some_iff]
    constructor
    · rintro ⟨i, h1, rfl⟩
      obtain ⟨n, e, hm⟩ := (find_name (C18_names_unique st h) (C18_names_valid st h) hq i).1 h1
      exact .inr ⟨n, i, e, hm, rfl⟩
    · rintro (⟨e, _⟩ | ⟨n, i, e, hm, rfl⟩)
      · cases e
      · exact ⟨i, (find_name (C18_names_unique st h) (C18_names_valid st h) hq i).2 ⟨n, e, hm⟩, rfl⟩

theorem numericLeaf_iff {dsl : Nat} (hd : refOk dsl = true) {g : Field} (hg : Obj g) {q : List Str} (hq : Words q) (v : Int) (big : Bool) :
    numericLeaf dsl g (joinDots q) = some (v, big) ↔ NumberOf g q v big := by
  have hl := obj_leafStates hg
  have bb : ∀ t, (big = true ↔ Large t v) ↔
      ((match t with | some t => IntF.isBigUnsigned t | none => false) && decide (9223372036854775807 < castU64 v)) = big := by
    intro t
    rw [← big_iff t v]
    generalize ((match t with | some t => IntF.isBigUnsigned t | none => false) && decide (9223372036854775807 < castU64 v)) = x
    cases x <;> cases big <;> simp
  cases g with
  | int c st =>
    simp only [numericLeaf, intNumeric, NumberOf]
    rw [if_neg (by rw [hd]; simp), bb]
    cases q with
    | nil =>
      rw [if_pos (show List.isEmpty (joinDots []) = true from rfl)]
      simp only [withBig, Option.some.injEq, Prod.mk.injEq]
      constructor
      · rintro ⟨rfl, rfl⟩; exact ⟨.inl ⟨by simp, rfl⟩, rfl⟩
      · rintro ⟨⟨_, rfl⟩ | ⟨n, i, e, _⟩, rfl⟩
        · exact ⟨rfl, rfl⟩
        · cases e
    | cons w r =>
      rw [if_neg (by simpa using (join_cons hq).1), Option.map_eq_some_iff]
      constructor
      · rintro ⟨i, h1, e⟩
        simp only [withBig, Prod.mk.injEq] at e
        obtain ⟨rfl, rfl⟩ := e
        obtain ⟨n, e, hm⟩ := (find_name (C14_names_unique st hl) (C14_names_valid st hl) hq i).1 h1
        exact ⟨.inr ⟨n, i, e, hm, rfl⟩, rfl⟩
      · rintro ⟨⟨e, _⟩ | ⟨n, i, e, hm, rfl⟩, rfl⟩
        · cases e
        · exact ⟨i, (find_name (C14_names_unique st hl) (C14_names_valid st hl) hq i).2 ⟨n, e, hm⟩, rfl⟩
  | enum c st =>
    obtain ⟨b, hl⟩ := hl
    simp only [numericLeaf, EnumF.strToNumeric, NumberOf]
    rw [if_neg (by simp only [refOk] at hd; rw [hd]; simp), bb]
    cases q with
    | nil =>
      rw [if_pos (show List.isEmpty (joinDots []) = true from rfl)]
      simp only [Option.some.injEq, Prod.mk.injEq]
      constructor
      · rintro ⟨rfl, rfl⟩; exact ⟨.inl ⟨by simp, rfl⟩, rfl⟩
      · rintro ⟨⟨_, rfl⟩ | ⟨n, i, e, _⟩, rfl⟩
        · exact ⟨rfl, rfl⟩
        · cases e
    | cons w r =>
      rw [if_neg (by simpa using (join_cons hq).1), Option.map_eq_some_iff]
      constructor
      · rintro ⟨i, h1, e⟩
        simp only [Prod.mk.injEq] at e
        obtain ⟨rfl, rfl⟩ := e
        obtain ⟨n, e, hm⟩ := (find_name (C16_names_unique b st hl) (C16_names_valid b st hl) hq i).1 h1
        exact ⟨.inr ⟨n, i, e, hm, rfl⟩, rfl⟩
      · rintro ⟨⟨e, _⟩ | ⟨n, i, e, hm, rfl⟩, rfl⟩
        · cases e
        · exact ⟨i, (find_name (C16_names_unique b st hl) (C16_names_valid b st hl) hq i).2 ⟨n, e, hm⟩, rfl⟩
  | set c st =>
    simp only [numericLeaf, setNumeric, NumberOf, Option.map_eq_some_iff]
    constructor
    · rintro ⟨b, h1, e⟩
      simp only [Prod.mk.injEq] at e
      obtain ⟨rfl, rfl⟩ := e
      rcases (set_iff hl hd hq b).1 h1 with ⟨e, rfl⟩ | ⟨n, i, e, hm, rfl⟩
      · exact ⟨.inl ⟨e, rfl⟩, rfl⟩
      · exact ⟨.inr ⟨n, i, e, hm, rfl⟩, rfl⟩
    · rintro ⟨⟨e, rfl⟩ | ⟨n, i, e, hm, rfl⟩, rfl⟩
      · exact ⟨_, (set_iff hl hd hq _).2 (.inl ⟨e, rfl⟩), rfl⟩
      · exact ⟨_, (set_iff hl hd hq _).2 (.inr ⟨n, i, e, hm, rfl⟩), rfl⟩
  | _ => simp [numericLeaf, NumberOf]

theorem boolLeaf_iff {dsl : Nat} (hd : refOk dsl = true) {g : Field} (hg : Obj g) {q : List Str} (hq : Words q) (v : Bool) :
    boolLeaf dsl g (joinDots q) = some v ↔ TruthOf g q v := by
  have hl := obj_leafStates hg
  cases g with
  | set c st => exact set_iff hl hd hq v
  | _ => simp [boolLeaf, TruthOf]

theorem stringLeaf_iff {dsl : Nat} (hd : refOk dsl = true) {g : Field} {q : List Str} (hq : Words q) (v : Str) :
    stringLeaf dsl g (joinDots q) = some v ↔ TextOf g q v := by
  cases g with
  | string c st p =>
    simp only [stringLeaf, TextOf, hd, Bool.true_and]
    constructor
    · intro h
      split at h
      · rename_i e
        cases h
        exact ⟨join_nil hq (by simpa using e), rfl⟩
      · cases h
    · rintro ⟨rfl, rfl⟩; rfl
  | _ => simp [stringLeaf, TextOf]

theorem dataLeaf_iff {dsl : Nat} (hd : refOk dsl = true) {g : Field} {q : List Str} (hq : Words q) (v : List Nat) :
    dataLeaf dsl g (joinDots q) = some v ↔ BytesOf g q v := by
  cases g with
  | data c st p =>
    simp only [dataLeaf, BytesOf, hd, Bool.true_and]
    constructor
    · intro h
      split at h
      · rename_i e
        cases h
        exact ⟨join_nil hq (by simpa using e), rfl⟩
      · cases h
    · rintro ⟨rfl, rfl⟩; rfl
  | _ => simp [dataLeaf, BytesOf]

theorem fpLeaf_iff {dsl : Nat} (hd : refOk dsl = true) {g : Field} (hg : Obj g) {q : List Str} (hq : Words q) (v : FloatF.Dbl) :
    fpLeaf dsl g (joinDots q) = some v ↔ FpOf g q v := by
  have hl := obj_leafStates hg
  have other : (numericLeaf dsl g (joinDots q)).map FloatF.ofNumeric = some v ↔ ∃ x big, NumberOf g q x big ∧ v = FloatF.ofNumeric (x, big) := by
    rw [Option.map_eq_some_iff]
    constructor
    · rintro ⟨⟨x, big⟩, h, rfl⟩
      exact ⟨x, big, (numericLeaf_iff hd hg hq x big).1 h, rfl⟩
    · rintro ⟨x, big, h, rfl⟩
      exact ⟨(x, big), (numericLeaf_iff hd hg hq x big).2 h, rfl⟩
  cases g with
  | float c st =>
    simp only [fpLeaf, FpOf]
    rw [if_neg (by rw [hd]; simp)]
    obtain ⟨hn, hv⟩ := C74_names st hl
    cases q with
    | nil =>
      rw [if_pos (show List.isEmpty (joinDots []) = true from rfl)]
      simp [eq_comm]
    | cons w r =>
      rw [if_neg (by simpa using (join_cons hq).1), Option.map_eq_some_iff]
      constructor
      · rintro ⟨i, h1, rfl⟩
        obtain ⟨n, e, hm⟩ := (find_name hn hv hq i).1 h1
        exact .inr ⟨n, i, e, hm, rfl⟩
      · rintro (⟨e, _⟩ | ⟨n, i, e, hm, rfl⟩)
        · cases e
        · exact ⟨i, (find_name hn hv hq i).2 ⟨n, e, hm⟩, rfl⟩
  | _ => exact other

/-! ### The way through the namespaces -/

theorem value_iff {s : Schema} (hi : SchemaInv s) {α : Type} (ask : Field → Str → Option α) (words : List Str) (hw : Words words) (a : α) :
    ∀ path : Path, (path ≠ [] → path ∈ s.nss) → (s.value ask path words = some a ↔
      ∃ (ns : Path) (f : Field) (rest : List Str), words = ns ++ f.name :: rest ∧ (path ++ ns, f) ∈ s.fields ∧
        (rest ≠ [] → path ++ ns ++ [f.name] ∉ s.nss) ∧ ask f (joinDots rest) = some a) := by
  have look : ∀ (path : Path) (x : Str) (f : Field), lookup Field.name s.fields path x = some f ↔ (path, f) ∈ s.fields ∧ f.name = x := by
    intro path x f
    constructor
    · exact lookup_mem
    · rintro ⟨h1, rfl⟩; exact lookup_of_mem hi.fields.2 h1
  /- a path of namespaces with a field below is one of the namespaces or empty -/
  have up : ∀ (ns : Path) (path : Path) , path ≠ [] → path ++ ns ∈ s.nss → path ∈ s.nss := by
    intro ns
    induction hn : ns.length generalizing ns with
    | zero => intro path _ h; rw [List.length_eq_zero_iff.1 hn] at h; simpa using h
    | succ k ih =>
      intro path hp h
      have hne : ns ≠ [] := by rintro rfl; cases hn
      rw [← List.dropLast_concat_getLast hne, ← List.append_assoc] at h
      have := hi.nsUp _ _ h (by simp [hp])
      exact ih ns.dropLast (by rw [List.length_dropLast, hn]; rfl) path hp this
  induction words with
  | nil =>
    intro path _
    simp only [Schema.value]
    constructor
    · intro h; cases h
    · rintro ⟨ns, f, rest, e, _⟩
      cases ns <;> cases e
  | cons x r ih =>
    intro path hpath
    cases r with
    | nil =>
      simp only [Schema.value, Option.bind_eq_some_iff]
      constructor
      · rintro ⟨f, h1, h2⟩
        obtain ⟨h3, rfl⟩ := (look _ _ _).1 h1
        exact ⟨[], f, [], rfl, by simpa using h3, by simp, h2⟩
      · rintro ⟨ns, f, rest, e, h1, h2, h3⟩
        cases ns with
        | nil =>
          simp only [List.nil_append, List.cons.injEq] at e
          obtain ⟨rfl, rfl⟩ := e
          exact ⟨f, (look _ _ _).2 ⟨by simpa using h1, rfl⟩, h3⟩
        | cons b ns =>
          exfalso
          have := congrArg List.length e
          simp at this
    | cons y r =>
      have hw' := (words_cons hw).2
      simp only [Schema.value]
      split
      · rename_i hc
        have hc' : path ++ [x] ∈ s.nss := by simpa using hc
        rw [ih hw' (path ++ [x]) (fun _ => hc')]
        constructor
        · rintro ⟨ns, f, rest, e, h1, h2, h3⟩
          exact ⟨x :: ns, f, rest, by rw [e]; rfl, by simpa using h1, by simpa using h2, h3⟩
        · rintro ⟨ns, f, rest, e, h1, h2, h3⟩
          cases ns with
          | nil =>
            simp only [List.nil_append, List.cons.injEq] at e
            obtain ⟨rfl, rfl⟩ := e
            exact absurd hc' (by simpa using h2 (by simp))
          | cons b ns =>
            simp only [List.cons_append, List.cons.injEq] at e
            obtain ⟨rfl, e⟩ := e
            exact ⟨ns, f, rest, e, by simpa using h1, by simpa using h2, h3⟩
      · rename_i hc
        have hc' : path ++ [x] ∉ s.nss := by simpa using hc
        simp only [Option.bind_eq_some_iff]
        constructor
        · rintro ⟨f, h1, h2⟩
          obtain ⟨h3, rfl⟩ := (look _ _ _).1 h1
          refine ⟨[], f, y :: r, rfl, by simpa using h3, fun _ => by simpa using hc', ?_⟩
          rw [← dotJoin_eq]; exact h2
        · rintro ⟨ns, f, rest, e, h1, h2, h3⟩
          cases ns with
          | nil =>
            simp only [List.nil_append, List.cons.injEq] at e
            obtain ⟨rfl, rfl⟩ := e
            exact ⟨f, (look _ _ _).2 ⟨by simpa using h1, rfl⟩, by rw [dotJoin_eq]; exact h3⟩
          | cons b ns =>
            exfalso
            simp only [List.cons_append, List.cons.injEq] at e
            obtain ⟨rfl, e⟩ := e
            refine hc' (up ns (path ++ [x]) (by simp) ?_)
            have := (hi.fields.1 _ h1).1
            simpa using this

theorem externalRef_of {p : Proto} (hi : ProtoInv p) {ref : Str} {s : Schema} {w : Str} {ws : List Str} (hw : isValidName w = true)
    (h : SchemaOf p ref s (w :: ws)) : ∃ i, p.schemas[i]? = some s ∧ p.externalRef ref = some (i, joinDots (w :: ws)) := by
  obtain ⟨hsm, ⟨rfl, i, hc, hs⟩ | rfl⟩ := h
  · refine ⟨i, hs, ?_⟩
    obtain ⟨_, h2, h3⟩ := name_facts hw
    have hh : (joinDots (w :: ws)).head? ≠ some '@' := by
      cases hw0 : w with
      | nil => exact absurd hw0 h2
      | cons x xs => rw [hw0] at h3; cases ws <;> exact h3
    unfold Proto.externalRef
    split
    · rename_i r e
      rw [e] at hh
      exact absurd rfl hh
    · rw [hc]; rfl
  · obtain ⟨i, hil, hs⟩ := List.mem_iff_getElem.1 hsm
    have hs' : p.schemas[i]? = some s := by rw [List.getElem?_eq_getElem hil, hs]
    refine ⟨i, hs', ?_⟩
    have hj : joinDots (s.name :: w :: ws) = s.name ++ '.' :: joinDots (w :: ws) := rfl
    obtain ⟨h1, _, _⟩ := name_facts (hi.valid s hsm)
    obtain ⟨h2, h3⟩ := takeWhile_nodot h1 (joinDots (w :: ws))
    unfold Proto.externalRef
    simp only [hj]
    rw [h2, h3, schemaIdx_of hi.names hs']
    simp

end ValueProofs
open ValueProofs

/-- Names of a reference to a value that are the names of things: at least one. -/
def Named (words : List Str) : Prop := words ≠ [] ∧ ∀ w ∈ words, isValidName w = true

theorem ValueProofs.words_of_named {words : List Str} (h : Named words) : Words words :=
  fun w hw => ⟨(ProtoProofs.name_facts (h.2 w hw)).2.1, (ProtoProofs.name_facts (h.2 w hw)).1⟩

theorem ValueProofs.proto_value_iff {p : Proto} (hi : ProtoInv p) {α : Type} (ask : Field → Str → Option α) (check : Bool) {ref : Str}
    {s : Schema} {words : List Str} (hw : Named words) (h : SchemaOf p ref s words) (a : α) : p.value ask check ref = some a ↔
      ∃ f rest, FieldAt s words f rest ∧ ask f (joinDots rest) = some a := by
  have hws := words_of_named hw
  cases words with
  | nil => exact absurd rfl hw.1
  | cons w ws =>
    obtain ⟨i, hs, he⟩ := externalRef_of hi (hw.2 w (by simp)) h
    have hval : isValidRefName ref = true := by
      obtain ⟨h1, h2⟩ := C03_paths_accepted_partial w ws (fun x hx => (C02_name_iff x).1 (hw.2 x hx))
      obtain ⟨hsm, ⟨rfl, _⟩ | rfl⟩ := h
      · exact h1
      · exact (C03_paths_accepted_partial s.name (w :: ws) (fun x hx => (C02_name_iff x).1 (by
          rcases List.mem_cons.1 hx with rfl | hx
          · exact hi.valid s hsm
          · exact hw.2 x hx))).2
    unfold Proto.value
    rw [if_neg (by rw [hval]; simp), he]
    simp only [hs, Option.bind_some]
    rw [if_neg (by simpa using (join_cons hws).1), ProtoProofs.split_join (by simp) (fun x hx => (hws x hx).2),
      value_iff (hi.each s h.1) ask (w :: ws) hws a [] (by simp)]
    constructor
    · rintro ⟨ns, f, rest, e, h1, h2, h3⟩
      exact ⟨f, rest, ⟨ns, e, h1, h2⟩, h3⟩
    · rintro ⟨f, rest, ⟨ns, e, h1, h2⟩, h3⟩
      exact ⟨ns, f, rest, e, h1, h2, h3⟩


/-! ## Values of a field -/

/-- C72: following names from a field gives a number exactly if they lead to a field that declares that number. -/
theorem C72_field_number (dsl : Nat) (hd : Dsl.isSupported dsl .fieldValueReference = true) (f : Field) (hf : Obj f) (p : List Str) (hp : Words p)
    (v : Int) (big : Bool) : f.numeric dsl (joinDots p) = some (v, big) ↔ ∃ g q, LeadsTo f p g q ∧ NumberOf g q v big := by
  unfold Field.numeric
  rw [fieldValue_iff hd (fun f s h => by cases f <;> simp [Passes] at h <;> rfl) f hf p _ hp]
  constructor
  · rintro ⟨g, q, h1, h2⟩
    obtain ⟨hg, hq⟩ := leads_obj h1 hf hp
    exact ⟨g, q, h1, (numericLeaf_iff hd hg hq v big).1 h2⟩
  · rintro ⟨g, q, h1, h2⟩
    obtain ⟨hg, hq⟩ := leads_obj h1 hf hp
    exact ⟨g, q, h1, (numericLeaf_iff hd hg hq v big).2 h2⟩

/-- The same for truth values. -/
theorem C72_field_truth (dsl : Nat) (hd : Dsl.isSupported dsl .fieldValueReference = true) (f : Field) (hf : Obj f) (p : List Str) (hp : Words p)
    (v : Bool) : f.boolVal dsl (joinDots p) = some v ↔ ∃ g q, LeadsTo f p g q ∧ TruthOf g q v := by
  unfold Field.boolVal
  rw [fieldValue_iff hd (fun f s h => by cases f <;> simp [Passes] at h <;> rfl) f hf p _ hp]
  constructor
  · rintro ⟨g, q, h1, h2⟩
    obtain ⟨hg, hq⟩ := leads_obj h1 hf hp
    exact ⟨g, q, h1, (boolLeaf_iff hd hg hq v).1 h2⟩
  · rintro ⟨g, q, h1, h2⟩
    obtain ⟨hg, hq⟩ := leads_obj h1 hf hp
    exact ⟨g, q, h1, (boolLeaf_iff hd hg hq v).2 h2⟩

/-- The same for texts. -/
theorem C72_field_text (dsl : Nat) (hd : Dsl.isSupported dsl .fieldValueReference = true) (f : Field) (hf : Obj f) (p : List Str) (hp : Words p)
    (v : Str) : f.stringVal dsl (joinDots p) = some v ↔ ∃ g q, LeadsTo f p g q ∧ TextOf g q v := by
  unfold Field.stringVal
  rw [fieldValue_iff hd (fun f s h => by cases f <;> simp [Passes] at h <;> rfl) f hf p _ hp]
  constructor
  · rintro ⟨g, q, h1, h2⟩
    exact ⟨g, q, h1, (stringLeaf_iff hd (leads_obj h1 hf hp).2 v).1 h2⟩
  · rintro ⟨g, q, h1, h2⟩
    exact ⟨g, q, h1, (stringLeaf_iff hd (leads_obj h1 hf hp).2 v).2 h2⟩

/-- The same for raw data. -/
theorem C72_field_bytes (dsl : Nat) (hd : Dsl.isSupported dsl .fieldValueReference = true) (f : Field) (hf : Obj f) (p : List Str) (hp : Words p)
    (v : List Nat) : f.dataVal dsl (joinDots p) = some v ↔ ∃ g q, LeadsTo f p g q ∧ BytesOf g q v := by
  unfold Field.dataVal
  rw [fieldValue_iff hd (fun f s h => by cases f <;> simp [Passes] at h <;> rfl) f hf p _ hp]
  constructor
  · rintro ⟨g, q, h1, h2⟩
    exact ⟨g, q, h1, (dataLeaf_iff hd (leads_obj h1 hf hp).2 v).1 h2⟩
  · rintro ⟨g, q, h1, h2⟩
    exact ⟨g, q, h1, (dataLeaf_iff hd (leads_obj h1 hf hp).2 v).2 h2⟩

/-- The same for floating point values. -/
theorem C72_field_fp (dsl : Nat) (hd : Dsl.isSupported dsl .fieldValueReference = true) (f : Field) (hf : Obj f) (p : List Str) (hp : Words p)
    (v : FloatF.Dbl) : f.fpVal dsl (joinDots p) = some v ↔ ∃ g q, LeadsTo f p g q ∧ FpOf g q v := by
  unfold Field.fpVal
  rw [fieldValue_iff hd (fun f s h => by cases f <;> simp [Passes] at h <;> rfl) f hf p _ hp]
  constructor
  · rintro ⟨g, q, h1, h2⟩
    obtain ⟨hg, hq⟩ := leads_obj h1 hf hp
    exact ⟨g, q, h1, (fpLeaf_iff hd hg hq v).1 h2⟩
  · rintro ⟨g, q, h1, h2⟩
    obtain ⟨hg, hq⟩ := leads_obj h1 hf hp
    exact ⟨g, q, h1, (fpLeaf_iff hd hg hq v).2 h2⟩

/-- In schemas of an older DSL, the only numbers are the values of an enum, by their names. -/
theorem C72_old_dsl (dsl : Nat) (hd : Dsl.isSupported dsl .fieldValueReference = false) (f : Field) (hf : Obj f) (p : List Str) (hp : Words p)
    (v : Int) (big : Bool) : f.numeric dsl (joinDots p) = some (v, big) ↔
      ∃ c st n i, f = .enum c st ∧ p = [n] ∧ (n, i) ∈ st.values ∧ v = i.value ∧ (big = true ↔ Large st.num.type v) := by
  have hd' : refOk dsl = false := hd
  unfold Field.numeric
  cases f with
  | enum c st =>
    simp only [fieldValue, numericLeaf, EnumF.strToNumeric, hd, Bool.not_false, Bool.and_true]
    obtain ⟨b, hl⟩ := obj_leafStates hf
    cases p with
    | nil => simp [joinDots]
    | cons w r =>
      have e0 := (join_cons hp).1
      rw [if_neg (by simpa using e0), if_neg (by simpa using e0), Option.map_eq_some_iff]
      constructor
      · rintro ⟨i, h1, e⟩
        simp only [Prod.mk.injEq] at e
        obtain ⟨rfl, rfl⟩ := e
        obtain ⟨n, e, hm⟩ := (find_name (C16_names_unique b st hl) (C16_names_valid b st hl) hp i).1 h1
        exact ⟨c, st, n, i, rfl, e, hm, rfl, big_iff _ _⟩
      · rintro ⟨c', st', n, i, e, e2, hm, rfl, hb⟩
        cases e
        refine ⟨i, (find_name (C16_names_unique b st hl) (C16_names_valid b st hl) hp i).2 ⟨n, e2, hm⟩, ?_⟩
        rw [Prod.mk.injEq]
        refine ⟨rfl, ?_⟩
        rw [← big_iff] at hb
        revert hb
        generalize ((match st.num.type with | some t => IntF.isBigUnsigned t | none => false) && decide (9223372036854775807 < castU64 i.value)) = x
        cases x <;> cases big <;> simp
  | _ => simp [fieldValue, numericLeaf, intNumeric, setNumeric, setBool, hd']

/-! ## Values in a protocol -/

/-- C72: while documents are processed, a reference to a value (without schema name: in the current schema; with `@schema.`: in that schema) gives a
    number exactly if its names are namespaces, a field in the last of them, and names that lead from it to a field that declares that number. -/
theorem C72_number (fo : FloatOps) (p : Proto) (h : During fo p) (hd : Dsl.isSupported p.cur.dsl .fieldValueReference = true) (ref : Str) (s : Schema)
    (words : List Str) (hw : Named words) (hs : SchemaOf p ref s words) (v : Int) (big : Bool) :
    (p.fldEnv fo).int.strToNumeric ref = some (v, big) ↔
      ∃ f rest g q, FieldAt s words f rest ∧ LeadsTo f rest g q ∧ NumberOf g q v big := by
  have hi := during_inv h
  show p.value (fun f s => f.numeric p.cur.dsl s) false ref = some (v, big) ↔ _
  rw [proto_value_iff hi _ false hw hs]
  have hacc : ∀ f rest, FieldAt s words f rest → Obj f ∧ Words rest := by
    rintro f rest ⟨ns, e, hm, _⟩
    refine ⟨.acc ((C34_recorded_accepted fo p h s hs.1).1 _ hm), ?_⟩
    intro w hwr
    exact words_of_named hw w (by rw [e]; simp [hwr])
  constructor
  · rintro ⟨f, rest, h1, h2⟩
    obtain ⟨a, b⟩ := hacc f rest h1
    obtain ⟨g, q, h3, h4⟩ := (C72_field_number _ hd f a rest b v big).1 h2
    exact ⟨f, rest, g, q, h1, h3, h4⟩
  · rintro ⟨f, rest, g, q, h1, h3, h4⟩
    obtain ⟨a, b⟩ := hacc f rest h1
    exact ⟨f, rest, h1, (C72_field_number _ hd f a rest b v big).2 ⟨g, q, h3, h4⟩⟩

/-- The same for truth values, texts, raw data and floating point values. -/
theorem C72_others (fo : FloatOps) (p : Proto) (h : During fo p) (hd : Dsl.isSupported p.cur.dsl .fieldValueReference = true) (ref : Str) (s : Schema)
    (words : List Str) (hw : Named words) (hs : SchemaOf p ref s words) :
    (∀ v, (p.fldEnv fo).int.strToBool ref = some v ↔ ∃ f rest g q, FieldAt s words f rest ∧ LeadsTo f rest g q ∧ TruthOf g q v) ∧
    (∀ v, (p.fldEnv fo).int.strToString ref = some v ↔ ∃ f rest g q, FieldAt s words f rest ∧ LeadsTo f rest g q ∧ TextOf g q v) ∧
    (∀ v, (p.fldEnv fo).strToData ref = some v ↔ ∃ f rest g q, FieldAt s words f rest ∧ LeadsTo f rest g q ∧ BytesOf g q v) ∧
    (∀ v, (p.fldEnv fo).fp.strToFp ref = some v ↔ ∃ f rest g q, FieldAt s words f rest ∧ LeadsTo f rest g q ∧ FpOf g q v) := by
  have hi := during_inv h
  have hacc : ∀ f rest, FieldAt s words f rest → Obj f ∧ Words rest := by
    rintro f rest ⟨ns, e, hm, _⟩
    refine ⟨.acc ((C34_recorded_accepted fo p h s hs.1).1 _ hm), ?_⟩
    intro w hwr
    exact words_of_named hw w (by rw [e]; simp [hwr])
  have key : ∀ {α : Type} (ask : Field → Str → Option α) (D : Field → List Str → α → Prop) (check : Bool) (v : α),
      (∀ f, Obj f → ∀ rest, Words rest → (ask f (joinDots rest) = some v ↔ ∃ g q, LeadsTo f rest g q ∧ D g q v)) →
      (p.value ask check ref = some v ↔ ∃ f rest g q, FieldAt s words f rest ∧ LeadsTo f rest g q ∧ D g q v) := by
    intro α ask D check v hD
    rw [proto_value_iff hi _ check hw hs]
    constructor
    · rintro ⟨f, rest, h1, h2⟩
      obtain ⟨a, b⟩ := hacc f rest h1
      obtain ⟨g, q, h3, h4⟩ := (hD f a rest b).1 h2
      exact ⟨f, rest, g, q, h1, h3, h4⟩
    · rintro ⟨f, rest, g, q, h1, h3, h4⟩
      obtain ⟨a, b⟩ := hacc f rest h1
      exact ⟨f, rest, h1, (hD f a rest b).2 ⟨g, q, h3, h4⟩⟩
  refine ⟨fun v => ?_, fun v => ?_, fun v => ?_, fun v => ?_⟩
  · exact key _ TruthOf true v (fun f a rest b => C72_field_truth _ hd f a rest b v)
  · exact key _ TextOf true v (fun f a rest b => C72_field_text _ hd f a rest b v)
  · exact key _ BytesOf false v (fun f a rest b => C72_field_bytes _ hd f a rest b v)
  · exact key _ FpOf false v (fun f a rest b => C72_field_fp _ hd f a rest b v)

/-- What a property of an `<int>` means that is such a reference and not the name of a special value of that field: the declared number, unless
    it is negative or too large for the type. -/
theorem C72_int (fo : FloatOps) (p : Proto) (h : During fo p) (hd : Dsl.isSupported p.cur.dsl .fieldValueReference = true) (ref : Str) (s : Schema)
    (words : List Str) (hw : Named words) (hs : SchemaOf p ref s words) (t : IntF.IntType) (specials : List (Str × IntF.SpecialInfo))
    (hn : ref ∉ specials.map Prod.fst) (v : Int) :
    IntF.strToValue (p.fldEnv fo).int t specials ref = some v ↔ ∃ f rest g q big, FieldAt s words f rest ∧ LeadsTo f rest g q ∧ NumberOf g q v big ∧
      (big = false → IntF.isUnsigned t = true → 0 ≤ v) ∧ (big = true → t = .uint64 ∨ t = .uintvar) := by
  have hi := during_inv h
  have hval : isValidRefName ref = true := by
    cases words with
    | nil => exact absurd rfl hw.1
    | cons w ws =>
      obtain ⟨h1, h2⟩ := C03_paths_accepted_partial w ws (fun x hx => (C02_name_iff x).1 (hw.2 x hx))
      obtain ⟨hsm, ⟨rfl, _⟩ | rfl⟩ := hs
      · exact h1
      · exact (C03_paths_accepted_partial s.name (w :: ws) (fun x hx => (C02_name_iff x).1 (by
          rcases List.mem_cons.1 hx with rfl | hx
          · exact hi.valid s hsm
          · exact hw.2 x hx))).2
  have hfind : (if isValidName ref then IntF.findSpecial specials ref else none) = none := by
    split
    · unfold IntF.findSpecial
      rw [Option.map_eq_none_iff, List.find?_eq_none]
      intro x hx e
      exact hn (List.mem_map.2 ⟨x, hx, by simpa using e⟩)
    · rfl
  have hbig : IntF.isBigUnsigned t = true ↔ t = .uint64 ∨ t = .uintvar := by cases t <;> simp [IntF.isBigUnsigned]
  have key := C72_number fo p h hd ref s words hw hs
  unfold IntF.strToValue
  rw [hfind]
  simp only [hval, if_true]
  constructor
  · intro h1
    split at h1
    · cases h1
    · rename_i val big he
      split at h1
      · cases h1
      · rename_i c1
        split at h1
        · cases h1
        · rename_i c2
          cases h1
          obtain ⟨f, rest, g, q, h2, h3, h4⟩ := (key v big).1 he
          refine ⟨f, rest, g, q, big, h2, h3, h4, ?_, ?_⟩
          · rintro rfl hu
            simp only [Bool.not_false, Bool.true_and, hu, Bool.and_true, decide_eq_true_eq] at c1
            omega
          · rintro rfl
            rw [← hbig]
            simpa using c2
  · rintro ⟨f, rest, g, q, big, h2, h3, h4, h5, h6⟩
    rw [(key v big).2 ⟨f, rest, g, q, h2, h3, h4⟩]
    simp only
    rw [if_neg, if_neg]
    · intro hc
      simp only [Bool.and_eq_true, Bool.not_eq_true'] at hc
      rw [hbig.2 (h6 hc.1)] at hc
      simp at hc
    · intro hc
      simp only [Bool.and_eq_true, Bool.not_eq_true', decide_eq_true_eq] at hc
      have := h5 hc.1.1 hc.2
      omega

/-! ## Cases -/

open Sample in
/-- A schema with values: the global fields `x` and `b`, the field `y` of the namespace `N`, and a namespace that may be called like `x`. -/
def valueDocs (ns : String) : List Xml := [schemaEl "S" [
  el "fields" [] [
    el "int" [("name", "x"), ("type", "uint8"), ("defaultValue", "5")] [el "special" [("name", "A"), ("val", "7")]],
    el "bundle" [("name", "b")] [el "members" [] [el "set" [("name", "m"), ("length", "1")] [el "bit" [("name", "B"), ("idx", "2"), ("defaultValue", "true")]],
      el "ref" [("name", "r"), ("field", "x")]]]],
  nsEl "N" [el "fields" [] [el "int" [("name", "y"), ("type", "int8"), ("defaultValue", "-3")]]],
  nsEl ns [el "fields" [] [el "int" [("name", "z"), ("type", "uint64"), ("defaultValue", "0xffffffffffffffff")]]]]]

/-- The hypotheses are met, and references of all forms give what is declared. -/
example : During fo0 (after (valueDocs "M")) ∧ (after (valueDocs "M")).validated = true ∧
    Dsl.isSupported (after (valueDocs "M")).cur.dsl .fieldValueReference = true ∧ Named ["N".toList, "y".toList] ∧
    (let num := ((after (valueDocs "M")).fldEnv fo0).int.strToNumeric
     num "x".toList = some (5, false) ∧ num "x.A".toList = some (7, false) ∧ num "b.m.B".toList = some (1, false) ∧ num "b.m".toList = some (0, false) ∧
     num "b.r.A".toList = some (7, false) ∧ num "N.y".toList = some (-3, false) ∧ num "@S.N.y".toList = some (-3, false) ∧
     num "M.z".toList = some (-1, true) ∧ num "b".toList = none ∧ num "y".toList = none) := by
  refine ⟨.between (after_reachable _), ?_, ?_, ⟨by simp, ?_⟩, ?_⟩ <;> decide +kernel

/-- The reference `x.A` to the special value `A` of the global field `x` does not resolve, though the value is there, if there is a namespace `x`:
    the namespace is preferred and the field is not tried. -/
theorem C72_shadow_witness : Reachable fo0 (after (valueDocs "x")) ∧ (after (valueDocs "x")).validated = true ∧
    ((after (valueDocs "x")).findField "x".toList).any (fun f => match f with
      | .int _ st => (IntF.findSpecial st.specials "A".toList).any fun i => i.value == 7
      | _ => false) = true ∧
    ((after (valueDocs "x")).fldEnv fo0).int.strToNumeric "x.A".toList = none ∧
    ((after (valueDocs "M")).fldEnv fo0).int.strToNumeric "x.A".toList = some (7, false) := by
  refine ⟨after_reachable _, ?_, ?_, ?_, ?_⟩ <;> decide +kernel

end Commsdsl.Props
