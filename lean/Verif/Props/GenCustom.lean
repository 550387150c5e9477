import Verif.Spec.GenCustom
import Verif.Props.GenScopeFields
import Verif.Props.GenRead
import Verif.Props.GenMsgs
import Verif.Props.Frame
/-!
# C108: the options of the generated protocol
-/
namespace Commsdsl.Props
open Commsdsl Text Gen Spec Fld Msg Frm Proto

namespace CustomProofs
open ScopeProofs

/-! ## Declarations -/

/-- The texts are declared, behind the names of the structs around. -/
def Covers (pre : List Str) (refs : List Str) (ds : List Decl) : Prop := ∀ t ∈ refs, ∃ rel, t = joinWith scopeSep (pre ++ rel) ∧ HasType ds rel

/-- The declarations extend others, behind the names of the structs around. -/
def Ext (pre : List Str) (ds ds0 : List Decl) : Prop :=
  ∀ rel d, FoundAt ds rel d → ∃ d0, FoundAt ds0 rel d0 ∧ SameDecl d d0 ∧ declBase d = some (joinWith scopeSep (pre ++ rel))

theorem declared_mono {a b : List Decl} (h : ∀ d ∈ a, d ∈ b) {p : List Str} {d : Decl} (hd : FoundAt a p d) : FoundAt b p d := by
  cases hd with
  | here h1 => exact .here (h _ h1)
  | inside h1 h2 => exact .inside (h _ h1) h2

theorem declared_append {a b : List Decl} {p : List Str} {d : Decl} : FoundAt (a ++ b) p d ↔ FoundAt a p d ∨ FoundAt b p d := by
  constructor
  · intro h
    cases h with
    | here h1 => exact (List.mem_append.1 h1).imp .here .here
    | inside h1 h2 => exact (List.mem_append.1 h1).imp (.inside · h2) (.inside · h2)
  · rintro (h | h)
    · exact declared_mono (fun _ => List.mem_append_left _) h
    · exact declared_mono (fun _ => List.mem_append_right _) h

theorem not_declared_nil {p : List Str} {d : Decl} : ¬ FoundAt [] p d := by
  intro h
  cases h with
  | here h1 => cases h1
  | inside h1 => cases h1

theorem declared_single {n : Str} {b : Option Str} {body : List Decl} {p : List Str} {d : Decl} :
    FoundAt [.struct n b body] p d ↔ (p = [n] ∧ d = .struct n b body) ∨ ∃ q, p = n :: q ∧ FoundAt body q d := by
  constructor
  · intro h
    cases h with
    | here h1 => cases List.mem_singleton.1 h1; exact .inl ⟨rfl, rfl⟩
    | inside h1 h2 => cases List.mem_singleton.1 h1; exact .inr ⟨_, rfl, h2⟩
  · rintro (⟨rfl, rfl⟩ | ⟨q, rfl, h⟩)
    · exact .here (List.mem_singleton.2 rfl)
    · exact .inside (List.mem_singleton.2 rfl) h

theorem declared_alias {n : Str} {o : List Str} {b : Option Str} {p : List Str} {d : Decl} : FoundAt [.alias n o b] p d ↔ p = [n] ∧ d = .alias n o b := by
  constructor
  · intro h
    cases h with
    | here h1 => cases List.mem_singleton.1 h1; exact ⟨rfl, rfl⟩
    | inside h1 h2 => cases List.mem_singleton.1 h1
  · rintro ⟨rfl, rfl⟩
    exact .here (List.mem_singleton.2 rfl)

theorem declared_flatMap {α : Type} {f : α → List Decl} {l : List α} {p : List Str} {d : Decl} : FoundAt (l.flatMap f) p d ↔ ∃ x ∈ l, FoundAt (f x) p d := by
  induction l with
  | nil => simp [not_declared_nil]
  | cons a l ih => simp [List.flatMap_cons, declared_append, ih]

theorem declared_struct {n : Str} {b : Option Str} {body : List Decl} {p : List Str} {d : Decl} (h : FoundAt body p d) : FoundAt (structOf n b body) (n :: p) d := by
  unfold structOf
  rw [if_neg]
  · exact .inside (List.mem_singleton.2 rfl) h
  · intro h0
    rw [List.isEmpty_iff.1 h0] at h
    exact not_declared_nil h

theorem Ext.nil {pre : List Str} {ds0 : List Decl} : Ext pre [] ds0 := fun _ _ h => absurd h not_declared_nil

theorem Ext.append {pre : List Str} {a b a0 b0 : List Decl} (h1 : Ext pre a a0) (h2 : Ext pre b b0) : Ext pre (a ++ b) (a0 ++ b0) := by
  intro rel d hd
  rcases declared_append.1 hd with hd | hd
  · obtain ⟨d0, h, r⟩ := h1 rel d hd
    exact ⟨d0, declared_append.2 (.inl h), r⟩
  · obtain ⟨d0, h, r⟩ := h2 rel d hd
    exact ⟨d0, declared_append.2 (.inr h), r⟩

theorem Ext.flatMap {α : Type} {pre : List Str} {f f0 : α → List Decl} {l : List α} (h : ∀ x ∈ l, Ext pre (f x) (f0 x)) : Ext pre (l.flatMap f) (l.flatMap f0) := by
  intro rel d hd
  obtain ⟨x, hx, hd⟩ := declared_flatMap.1 hd
  obtain ⟨d0, h', r⟩ := h x hx rel d hd
  exact ⟨d0, declared_flatMap.2 ⟨x, hx, h'⟩, r⟩

theorem Ext.ne {pre : List Str} {a a0 : List Decl} (h : Ext pre a a0) (hne : a ≠ []) : a0 ≠ [] := by
  cases a with
  | nil => exact absurd rfl hne
  | cons d a =>
    obtain ⟨d0, h1, _⟩ := h _ _ (.here List.mem_cons_self)
    rintro rfl
    exact not_declared_nil h1

theorem Ext.single {pre : List Str} {n : Str} {b : Str} {b0 : Option Str} {a a0 : List Decl} (h : Ext (pre ++ [n]) a a0) (hb : b = joinWith scopeSep (pre ++ [n])) :
    Ext pre [.struct n (some b) a] [.struct n b0 a0] := by
  intro rel d hd
  rcases declared_single.1 hd with ⟨rfl, rfl⟩ | ⟨q, rfl, hq⟩
  · exact ⟨.struct n b0 a0, .here List.mem_cons_self, trivial, by rw [hb]; rfl⟩
  · obtain ⟨d0, h1, h2, h3⟩ := h q d hq
    exact ⟨d0, .inside List.mem_cons_self h1, h2, by rw [h3]; simp⟩

theorem Ext.struct {pre : List Str} {n : Str} {b : Str} {b0 : Option Str} {a a0 : List Decl} (h : Ext (pre ++ [n]) a a0) (hb : b = joinWith scopeSep (pre ++ [n])) :
    Ext pre (structOf n (some b) a) (structOf n b0 a0) := by
  unfold structOf
  by_cases ha : a = []
  · rw [if_pos (by simp [ha])]; exact .nil
  · rw [if_neg (by simpa using ha), if_neg (by simpa using h.ne ha)]
    exact h.single hb

theorem Ext.own {pre : List Str} {c : Bool} {extra : List Str} {name scope scope' : Str} (hb : scope = joinWith scopeSep (pre ++ [className name])) :
    Ext pre (ownOptions c true extra name scope) (ownOptions c false [] name scope') := by
  unfold ownOptions
  cases c with
  | false => exact .nil
  | true =>
    simp only [Bool.not_true, Bool.false_eq_true, if_false, Bool.and_true, List.isEmpty_nil, Bool.and_false, if_true]
    by_cases he : extra.isEmpty = true
    · rw [if_pos he]; exact .nil
    · rw [if_neg he, if_neg he]
      intro rel d hd
      obtain ⟨rfl, rfl⟩ := declared_alias.1 hd
      exact ⟨_, .here List.mem_cons_self, trivial, by rw [hb]; rfl⟩

theorem Covers.append {pre : List Str} {a b : List Str} {a0 b0 : List Decl} (h1 : Covers pre a a0) (h2 : Covers pre b b0) : Covers pre (a ++ b) (a0 ++ b0) := by
  intro t ht
  rcases List.mem_append.1 ht with ht | ht
  · obtain ⟨rel, h, n, o, b, h'⟩ := h1 t ht
    exact ⟨rel, h, n, o, b, declared_append.2 (.inl h')⟩
  · obtain ⟨rel, h, n, o, b, h'⟩ := h2 t ht
    exact ⟨rel, h, n, o, b, declared_append.2 (.inr h')⟩

theorem Covers.flatMap {α : Type} {pre : List Str} {f : α → List Str} {f0 : α → List Decl} {l : List α} (h : ∀ x ∈ l, Covers pre (f x) (f0 x)) :
    Covers pre (l.flatMap f) (l.flatMap f0) := by
  intro t ht
  obtain ⟨x, hx, ht⟩ := List.mem_flatMap.1 ht
  obtain ⟨rel, h1, n, o, b, h2⟩ := h x hx t ht
  exact ⟨rel, h1, n, o, b, declared_flatMap.2 ⟨x, hx, h2⟩⟩

theorem Covers.struct {pre : List Str} {n : Str} {b0 : Option Str} {a : List Str} {a0 : List Decl} (h : Covers (pre ++ [n]) a a0) : Covers pre a (structOf n b0 a0) := by
  intro t ht
  obtain ⟨rel, h1, m, o, b, h2⟩ := h t ht
  exact ⟨n :: rel, by rw [h1]; simp, m, o, b, declared_struct h2⟩

theorem Covers.own {pre : List Str} {c : Bool} {name scope : Str} (hb : scope = joinWith scopeSep (pre ++ [className name])) :
    Covers pre (if c then [scope] else []) (ownOptions c false [] name scope) := by
  cases c with
  | false => intro t ht; cases ht
  | true =>
    intro t ht
    simp only [if_true, List.mem_singleton] at ht
    subst ht
    exact ⟨[className name], hb, className name, [emptyOption], none, .here (List.mem_singleton.2 rfl)⟩

/-! ## Fields -/

theorem fieldsOpts_eq (cfg : OptCfg) (s : OptSet) (up : Chain) (fs : List Field) : fieldsOpts cfg s up fs = fs.flatMap (fieldOpts cfg s up) := by
  induction fs with
  | nil => rfl
  | cons f fs ih => rw [fieldsOpts, ih, List.flatMap_cons]

theorem slotOpts_eq (cfg : OptCfg) (s : OptSet) (up : Chain) (x : Slot Field) : slotOpts cfg s up x = (ownSlot x).flatMap (fieldOpts cfg s up) := by
  cases x <;> simp [slotOpts, ownSlot]

theorem fieldOpts_eq (cfg : OptCfg) (s : OptSet) (up : Chain) (f : Field) :
    fieldOpts cfg s up f = wrapOpts cfg s up f ((innerFields f).1.flatMap (fieldOpts cfg s ({ ty := .field, name := f.name } :: up))) := by
  cases f <;> simp only [fieldOpts, innerFields, fieldsOpts_eq, slotOpts_eq, List.flatMap_append, List.flatMap_nil] <;> rfl

theorem fieldsRefs_eq (cfg : OptCfg) (up : Chain) (fs : List Field) : fieldsRefs cfg up fs = fs.flatMap (fieldRefs cfg up) := by
  induction fs with
  | nil => rfl
  | cons f fs ih => rw [fieldsRefs, ih, List.flatMap_cons]

theorem slotRefs_eq (cfg : OptCfg) (up : Chain) (x : Slot Field) : slotRefs cfg up x = (ownSlot x).flatMap (fieldRefs cfg up) := by
  cases x <;> simp [slotRefs, ownSlot]

theorem fieldRefs_eq (cfg : OptCfg) (up : Chain) (f : Field) :
    fieldRefs cfg up f = refsOf cfg up f ((innerFields f).1.flatMap (fieldRefs cfg ({ ty := .field, name := f.name } :: up))) := by
  cases f <;> simp only [fieldRefs, innerFields, fieldsRefs_eq, slotRefs_eq, List.flatMap_append, List.flatMap_nil] <;> rfl

theorem ownSlot_sub {x : Slot Field} {g : Field} (h : g ∈ ownSlot x) : g ∈ x.toList := by
  cases x <;> simp [ownSlot, Slot.toList] at h ⊢; exact h

theorem inner_sub {f g : Field} (h : g ∈ (innerFields f).1) : g ∈ f.subs := by
  cases f <;> simp only [innerFields, Field.subs, List.mem_append, List.not_mem_nil] at h ⊢
  all_goals first | exact h | exact ownSlot_sub h | skip
  rcases h with h | h | h | h | h
  · exact .inl (ownSlot_sub h)
  · exact .inr (.inl (ownSlot_sub h))
  · exact .inr (.inr (.inl (ownSlot_sub h)))
  · exact .inr (.inr (.inr (.inl (ownSlot_sub h))))
  · exact .inr (.inr (.inr (.inr (ownSlot_sub h))))

theorem obj_named {f : Field} (h : Obj f) : f.name ≠ [] := by
  have := (C02_name_iff _).2 (C02_field_names f h)
  rintro h0
  rw [h0] at this
  cases this

theorem obj_hered_named {f : Field} (h : Obj f) : Hered (fun g => g.name ≠ []) f := by
  have := obj_leaf h
  induction this with
  | @mk f _ _ ih => exact .mk (obj_named h) fun g hg => ih g hg (.inner h hg)

/-- The main namespace, when it is part of the scopes. -/
def top (cfg : OptCfg) : List Str := if cfg.inOptions then [cfg.main] else []

/-- The names of the structs around a field. -/
def around (cfg : OptCfg) (h : Holder) (rs : List Str) : List Str := top cfg ++ h.scopes [] ++ rs.reverse.map fun n => className n ++ "Members".toList

/-- The chain of the fields around a field and their holder. -/
def chain (h : Holder) (rs : List Str) : Chain := (rs.map fun n => ({ ty := .field, name := n } : GElem)) ++ h.chain

theorem chain_cons (h : Holder) (r : Str) (rs : List Str) : ({ ty := .field, name := r } : GElem) :: chain h rs = chain h (r :: rs) := rfl

theorem around_snoc (cfg : OptCfg) (h : Holder) (r : Str) (rs : List Str) : around cfg h (r :: rs) = around cfg h rs ++ [className r ++ "Members".toList] := by
  simp [around]

theorem field_scope {cfg : OptCfg} (hm : cfg.main ≠ []) {h : Holder} (hn : h.Named) {rs : List Str} (hr : ∀ x ∈ rs, x ≠ []) {n : Str} (hne : n ≠ []) :
    cfg.scope ({ ty := .field, name := n } :: chain h rs) = joinWith scopeSep (around cfg h rs ++ [className n]) := by
  have := C96_field cfg.main hm cfg.inOptions h hn rs.reverse n (fun x hx => hr x (List.mem_reverse.1 hx)) hne
  unfold fieldChain at this
  rw [List.reverse_reverse] at this
  exact this

theorem join_suffix (sep : Str) (l : List Str) (a b : Str) : joinWith sep (l ++ [a]) ++ b = joinWith sep (l ++ [a ++ b]) := by
  induction l with
  | nil => rfl
  | cons x l ih =>
    cases l with
    | nil => simp [joinWith]
    | cons y l => simp only [List.cons_append, joinWith, List.append_assoc] at ih ⊢; rw [ih]

theorem join_snoc (sep : Str) (l : List Str) (a : Str) (h : l ≠ []) : joinWith sep (l ++ [a]) = joinWith sep l ++ sep ++ a := by
  induction l with
  | nil => exact absurd rfl h
  | cons x l ih =>
    cases l with
    | nil => simp [joinWith]
    | cons y l =>
      have := ih (by simp)
      simp only [List.cons_append, joinWith, List.append_assoc] at this ⊢; rw [this]

theorem join_field (l : List Str) (h : l ≠ []) : joinWith scopeSep l ++ "::Field".toList = joinWith scopeSep (l ++ ["Field".toList]) := by
  rw [join_snoc scopeSep l _ h, List.append_assoc]
  rfl

theorem extra_dflt (f : Field) : extraFieldOpts .dflt f = [] := by cases f <;> rfl

theorem hasBase_ne {s : OptSet} (hs : s ≠ .dflt) : s.hasBase = true := by cases s <;> first | rfl | exact absurd rfl hs

theorem field_ext {cfg : OptCfg} (hm : cfg.main ≠ []) {s : OptSet} (hs : s ≠ .dflt) {h : Holder} (hn : h.Named) {f : Field} (hf : Hered (fun g => g.name ≠ []) f) :
    ∀ rs : List Str, (∀ x ∈ rs, x ≠ []) → Ext (around cfg h rs) (fieldOpts cfg s (chain h rs) f) (fieldOpts cfg .dflt (chain h rs) f) := by
  induction hf with
  | @mk f hne _ ih =>
    intro rs hr
    rw [fieldOpts_eq, fieldOpts_eq]
    unfold wrapOpts
    rw [hasBase_ne hs, extra_dflt, if_pos rfl]
    have hsc := field_scope hm hn hr hne
    refine Ext.append (Ext.struct ?_ ?_) (Ext.own hsc)
    · refine Ext.flatMap fun g hg => ?_
      rw [chain_cons, ← around_snoc]
      exact ih g (inner_sub hg) _ (List.forall_mem_cons.2 ⟨hne, hr⟩)
    · rw [hsc, join_suffix]

theorem field_covers {cfg : OptCfg} (hm : cfg.main ≠ []) {h : Holder} (hn : h.Named) {f : Field} (hf : Hered (fun g => g.name ≠ []) f) :
    ∀ rs : List Str, (∀ x ∈ rs, x ≠ []) → Covers (around cfg h rs) (fieldRefs cfg (chain h rs) f) (fieldOpts cfg .dflt (chain h rs) f) := by
  induction hf with
  | @mk f hne _ ih =>
    intro rs hr
    rw [fieldOpts_eq, fieldRefs_eq]
    unfold wrapOpts refsOf
    rw [extra_dflt]
    have hsc := field_scope hm hn hr hne
    refine Covers.append (Covers.struct ?_) (Covers.own hsc)
    refine Covers.flatMap fun g hg => ?_
    rw [chain_cons, ← around_snoc]
    exact ih g (inner_sub hg) _ (List.forall_mem_cons.2 ⟨hne, hr⟩)

/-! ## Messages -/

theorem message_scope {cfg : OptCfg} (hm : cfg.main ≠ []) {q : Path} (hq : ∀ x ∈ q, x ≠ []) {n : Str} (hn : n ≠ []) :
    cfg.scope ({ ty := .message, name := n } :: nsChain q) = joinWith scopeSep (top cfg ++ q ++ ["message".toList] ++ [className n]) :=
  (C96_other cfg.main hm cfg.inOptions q hq n hn).1 .message (.inl rfl)

theorem msg_around (cfg : OptCfg) (q : Path) (n : Str) : around cfg (.message q n) [] = top cfg ++ q ++ ["message".toList] ++ [className n ++ "Fields".toList] := by
  simp [around, Holder.scopes]

theorem extraMsg_dflt (m : Message) : extraMsgOpts .dflt m = [] := by
  unfold extraMsgOpts
  cases m.sender <;> rfl

theorem message_ext {cfg : OptCfg} (hm : cfg.main ≠ []) {s : OptSet} (hs : s ≠ .dflt) {q : Path} (hq : ∀ x ∈ q, x ≠ []) {m : Message} (hn : m.name ≠ [])
    (hf : ∀ f ∈ m.fields, Obj f) :
    Ext (top cfg ++ q ++ ["message".toList]) (messageOpts cfg s q (nsChain q) m) (messageOpts cfg .dflt q (nsChain q) m) := by
  unfold messageOpts
  have hsc := message_scope hm hq hn
  rw [hasBase_ne hs, if_pos rfl, extraMsg_dflt]
  refine Ext.append (Ext.struct ?_ ?_) (Ext.own hsc)
  · cases hu : cfg.usedMsg q m with
    | false => rw [Bool.and_false, if_neg (by simp)]; exact .nil
    | true =>
      cases s.ofFields with
      | false => exact .nil
      | true =>
        simp only [Bool.and_self, if_true, show OptSet.dflt.ofFields = true from rfl]
        rw [fieldsOpts_eq, fieldsOpts_eq]
        refine Ext.flatMap fun f hff => ?_
        rw [← msg_around]
        exact field_ext hm hs (h := .message q m.name) ⟨hq, hn⟩ (obj_hered_named (hf f hff)) [] (by simp)
  · rw [hsc, join_suffix]

theorem message_covers {cfg : OptCfg} (hm : cfg.main ≠ []) {q : Path} (hq : ∀ x ∈ q, x ≠ []) {m : Message} (hn : m.name ≠ [])
    (hf : ∀ f ∈ m.fields, Obj f) (hu : cfg.usedMsg q m = true) :
    Covers (top cfg ++ q ++ ["message".toList]) (messageRefs cfg (nsChain q) m) (messageOpts cfg .dflt q (nsChain q) m) := by
  unfold messageOpts messageRefs
  have hsc := message_scope hm hq hn
  rw [extraMsg_dflt, hu]
  refine Covers.append (Covers.struct ?_) (Covers.own hsc)
  simp only [Bool.and_self, if_true, show OptSet.dflt.ofFields = true from rfl]
  rw [fieldsOpts_eq, fieldsRefs_eq]
  refine Covers.flatMap fun f hff => ?_
  rw [← msg_around]
  exact field_covers hm (h := .message q m.name) ⟨hq, hn⟩ (obj_hered_named (hf f hff)) [] (by simp)

/-! ## Layers and frames -/

mutual
theorem fieldOpts_nil (cfg : OptCfg) (s : OptSet) (up : Chain) : ∀ f : Field, fieldOpts cfg .dflt up f = [] → fieldOpts cfg s up f = []
  | .int c st => fun h => wrap_nil h (fun _ => rfl)
  | .enum c st => fun h => wrap_nil h (fun _ => rfl)
  | .set c st => fun h => wrap_nil h (fun _ => rfl)
  | .float c st => fun h => wrap_nil h (fun _ => rfl)
  | .ref c b t => fun h => wrap_nil h (fun _ => rfl)
  | .bitfield c e ms cd => fun h => wrap_nil h (fieldsOpts_nil cfg s _ ms)
  | .bundle c ms al cd => fun h => wrap_nil h (fieldsOpts_nil cfg s _ ms)
  | .variant c d ms => fun h => wrap_nil h (fieldsOpts_nil cfg s _ ms)
  | .string c st p => fun h => wrap_nil h (slotOpts_nil cfg s _ p)
  | .data c st p => fun h => wrap_nil h (slotOpts_nil cfg s _ p)
  | .optional c st f cd => fun h => wrap_nil h (slotOpts_nil cfg s _ f)
  | .list c st e n l el t => fun h => wrap_nil h (fun h => by
      simp only [List.append_eq_nil_iff] at h ⊢
      exact ⟨slotOpts_nil cfg s _ e h.1, slotOpts_nil cfg s _ n h.2.1, slotOpts_nil cfg s _ l h.2.2.1, slotOpts_nil cfg s _ el h.2.2.2.1, slotOpts_nil cfg s _ t h.2.2.2.2⟩)
theorem fieldsOpts_nil (cfg : OptCfg) (s : OptSet) (up : Chain) : ∀ fs : List Field, fieldsOpts cfg .dflt up fs = [] → fieldsOpts cfg s up fs = []
  | [] => fun _ => rfl
  | f :: fs => fun h => by
    rw [fieldsOpts, List.append_eq_nil_iff] at h ⊢
    exact ⟨fieldOpts_nil cfg s up f h.1, fieldsOpts_nil cfg s up fs h.2⟩
theorem slotOpts_nil (cfg : OptCfg) (s : OptSet) (up : Chain) : ∀ x : Slot Field, slotOpts cfg .dflt up x = [] → slotOpts cfg s up x = []
  | .none => fun _ => rfl
  | .ext _ => fun _ => rfl
  | .own f => fun h => fieldOpts_nil cfg s up f h
theorem wrap_nil {cfg : OptCfg} {s : OptSet} {up : Chain} {f : Field} {b0 b : List Decl} (h : wrapOpts cfg .dflt up f b0 = []) (hb : b0 = [] → b = []) :
    wrapOpts cfg s up f b = [] := by
  unfold wrapOpts at h ⊢
  rw [List.append_eq_nil_iff, extra_dflt] at h
  have h1 : b0 = [] := by
    have := h.1
    unfold structOf at this
    split at this
    · rename_i h0; exact List.isEmpty_iff.1 h0
    · cases this
  have h2 : customizable cfg.level f = false := by
    have := h.2
    unfold ownOptions at this
    cases hc : customizable cfg.level f
    · rfl
    · rw [hc] at this; cases this
  rw [hb h1, h2]
  rfl
end

theorem layer_scope {cfg : OptCfg} (hm : cfg.main ≠ []) {q : Path} (hq : ∀ x ∈ q, x ≠ []) {n l : Str} (hn : n ≠ []) (hl : l ≠ []) :
    cfg.scope ({ ty := .layer, name := l } :: { ty := .frame, name := n } :: nsChain q) =
      joinWith scopeSep (top cfg ++ q ++ ["frame".toList, className n ++ "Layers".toList] ++ [className l]) := by
  have := (C96_other cfg.main hm cfg.inOptions q hq n hn).2.2 l hl
  refine this.trans ?_
  simp [top, scopeSep]

theorem frame_scope {cfg : OptCfg} (hm : cfg.main ≠ []) {q : Path} (hq : ∀ x ∈ q, x ≠ []) {n : Str} (hn : n ≠ []) :
    cfg.scope ({ ty := .frame, name := n } :: nsChain q) = joinWith scopeSep (top cfg ++ q ++ ["frame".toList] ++ [className n]) :=
  (C96_other cfg.main hm cfg.inOptions q hq n hn).1 .frame (.inr (.inl rfl))

theorem extraLayer_dflt (fac : Str) (l : Layer) : extraLayerOpts .dflt fac l = [] := by
  unfold extraLayerOpts
  split <;> rfl

/-- The struct does not touch the payload field, or names its base completely. -/
def PayloadOk (cfg : OptCfg) (s : OptSet) : Prop := cfg.inOptions = false ∨ s ≠ .dataView ∧ s ≠ .bareMetal

theorem layer_ext {cfg : OptCfg} (hm : cfg.main ≠ []) {s : OptSet} (hs : s ≠ .dflt) (hp : PayloadOk cfg s) {q : Path} (hq : ∀ x ∈ q, x ≠ []) {n : Str} (hn : n ≠ [])
    {l : Layer} (hl : l.name ≠ []) : Ext (top cfg ++ q ++ ["frame".toList, className n ++ "Layers".toList])
      (layerOpts cfg s q ({ ty := .frame, name := n } :: nsChain q) l) (layerOpts cfg .dflt q ({ ty := .frame, name := n } :: nsChain q) l) := by
  unfold layerOpts
  have hsc := layer_scope hm hq hn hl
  rw [hasBase_ne hs, extraLayer_dflt]
  refine Ext.append ?_ (Ext.own hsc)
  have hfield : Ext (top cfg ++ q ++ ["frame".toList, className n ++ "Layers".toList]) (layerFieldOpts cfg s ({ ty := .frame, name := n } :: nsChain q) l)
      (layerFieldOpts cfg .dflt ({ ty := .frame, name := n } :: nsChain q) l) := by
    unfold layerFieldOpts
    by_cases h0 : slotOpts cfg .dflt ({ ty := .layer, name := l.name } :: { ty := .frame, name := n } :: nsChain q) l.field = []
    · rw [slotOpts_nil cfg s _ _ h0]
      simp only [List.isEmpty_nil, Bool.not_true, Bool.and_false, Bool.false_eq_true, if_false]
      exact .nil
    · rw [hasBase_ne hs]
      have : (slotOpts cfg .dflt ({ ty := .layer, name := l.name } :: { ty := .frame, name := n } :: nsChain q) l.field).isEmpty = false := by
        simpa using h0
      rw [this]
      simp only [show OptSet.dflt.ofFields = true from rfl, Bool.not_false, Bool.and_self, if_true]
      split
      · refine Ext.single (Ext.nil) ?_
        rw [hsc, join_suffix]
      · exact .nil
  cases hd : l.data with
  | payload =>
    unfold payloadOpts
    dsimp only
    have hfull : cfg.inOptions = false → scopeFor cfg.main false true ({ ty := .layer, name := l.name } :: { ty := .frame, name := n } :: nsChain q) ++ "Members".toList =
        joinWith scopeSep (top cfg ++ q ++ ["frame".toList, className n ++ "Layers".toList] ++ [className l.name ++ "Members".toList]) := by
      intro h0
      unfold OptCfg.scope at hsc
      rw [h0] at hsc
      rw [hsc, join_suffix]
    have hal : ∀ (h0 : cfg.inOptions = false) (o : List Str), Ext (top cfg ++ q ++ ["frame".toList, className n ++ "Layers".toList])
        [.struct (className l.name ++ "Members".toList) (some (scopeFor cfg.main false true ({ ty := .layer, name := l.name } :: { ty := .frame, name := n } :: nsChain q) ++ "Members".toList))
          [.alias "Field".toList o (some (scopeFor cfg.main false true ({ ty := .layer, name := l.name } :: { ty := .frame, name := n } :: nsChain q) ++ "Members".toList ++ "::Field".toList))]]
        [.struct (className l.name ++ "Members".toList) none [.alias "Field".toList [emptyOption] none]] := by
      intro h0 o
      refine Ext.single ?_ (hfull h0)
      intro rel d hd
      obtain ⟨rfl, rfl⟩ := declared_alias.1 hd
      refine ⟨_, .here List.mem_cons_self, trivial, ?_⟩
      show some _ = _
      rw [hfull h0]
      congr 1
      exact join_field _ (by simp)
    cases s with
    | dflt => exact absurd rfl hs
    | client => exact .nil
    | server => exact .nil
    | msgFactory => exact .nil
    | dataView => exact hal (hp.resolve_right fun h => h.1 rfl) _
    | bareMetal => exact hal (hp.resolve_right fun h => h.2 rfl) _
  | _ => exact hfield

theorem layer_covers {cfg : OptCfg} (hm : cfg.main ≠ []) {q : Path} (hq : ∀ x ∈ q, x ≠ []) {n : Str} (hn : n ≠ []) {l : Layer} (hl : l.name ≠ []) :
    Covers (top cfg ++ q ++ ["frame".toList, className n ++ "Layers".toList]) (layerRefs cfg ({ ty := .frame, name := n } :: nsChain q) l)
      (layerOpts cfg .dflt q ({ ty := .frame, name := n } :: nsChain q) l) := by
  unfold layerOpts layerRefs
  have hsc := layer_scope hm hq hn hl
  rw [extraLayer_dflt]
  refine Covers.append ?_ (Covers.own hsc)
  cases hd : l.data with
  | payload =>
    intro t ht
    rw [List.mem_singleton.1 ht, hsc, join_suffix]
    refine ⟨[className l.name ++ "Members".toList, "Field".toList], ?_, "Field".toList, [emptyOption], none, ?_⟩
    · rw [show ∀ x y : Str, top cfg ++ q ++ ["frame".toList, className n ++ "Layers".toList] ++ [x, y] = (top cfg ++ q ++ ["frame".toList, className n ++ "Layers".toList] ++ [x]) ++ [y] by
        intro x y; simp]
      exact join_field _ (by simp)
    · exact .inside (List.mem_singleton.2 rfl) (.here (List.mem_singleton.2 rfl))
  | _ => intro t ht; cases ht

theorem frame_ext {cfg : OptCfg} (hm : cfg.main ≠ []) {s : OptSet} (hs : s ≠ .dflt) (hp : PayloadOk cfg s) {q : Path} (hq : ∀ x ∈ q, x ≠ []) {f : Frame} (hn : f.name ≠ [])
    (hl : ∀ l ∈ f.layers, l.name ≠ []) : Ext (top cfg ++ q ++ ["frame".toList]) (frameOpts cfg s q (nsChain q) f) (frameOpts cfg .dflt q (nsChain q) f) := by
  unfold frameOpts
  rw [hasBase_ne hs, if_pos rfl]
  refine Ext.struct (Ext.flatMap fun l hll => ?_) ?_
  · have := layer_ext hm hs hp hq hn (hl l (List.mem_reverse.1 hll))
    simpa using this
  · rw [frame_scope hm hq hn, join_suffix]

theorem frame_covers {cfg : OptCfg} (hm : cfg.main ≠ []) {q : Path} (hq : ∀ x ∈ q, x ≠ []) {f : Frame} (hn : f.name ≠ []) {l : Layer} (hll : l ∈ f.layers) (hl : l.name ≠ []) :
    Covers (top cfg ++ q ++ ["frame".toList]) (layerRefs cfg ({ ty := .frame, name := f.name } :: nsChain q) l) (frameOpts cfg .dflt q (nsChain q) f) := by
  unfold frameOpts
  refine Covers.struct ?_
  intro t ht
  obtain ⟨rel, h1, n, o, b, h2⟩ := layer_covers hm hq hn hl t ht
  exact ⟨rel, by rw [h1]; simp, n, o, b, declared_flatMap.2 ⟨l, List.mem_reverse.2 hll, h2⟩⟩

/-! ## Namespaces -/

theorem ns_scope {cfg : OptCfg} (hm : cfg.main ≠ []) {q : Path} (hq : ∀ x ∈ q, x ≠ []) : cfg.scope (nsChain q) = joinWith scopeSep (top cfg ++ q) := by
  have := up_any (if cfg.inOptions = true then cfg.main else []) scopeSep .ns q hq true
  have ht : (if (if cfg.inOptions = true then cfg.main else []) = [] then [] else [if cfg.inOptions = true then cfg.main else []]) = top cfg := by
    unfold top
    cases cfg.inOptions <;> simp [hm]
  rw [ht] at this
  refine Eq.trans ?_ this
  unfold OptCfg.scope scopeFor nsChain
  have hl : leafTy (if q.isEmpty then [({ ty := .ns, name := [] } : GElem)] else (q.map fun n => ({ ty := .ns, name := n } : GElem)).reverse) = .ns := by
    have h1 : ∀ c : Chain, leafTy c = (parentTy c).getD .ns := by intro c; cases c <;> rfl
    rw [h1, parentTy_up]
    rfl
  rw [hl]

theorem top_named {cfg : OptCfg} (hm : cfg.main ≠ []) {q : Path} (hq : ∀ x ∈ q, x ≠ []) : ∀ x ∈ top cfg ++ q, x ≠ [] := by
  intro x hx
  rcases List.mem_append.1 hx with hx | hx
  · unfold top at hx
    split at hx
    · rw [List.mem_singleton.1 hx]; exact hm
    · cases hx
  · exact hq x hx

theorem nsPrefix_eq (x : Str) : nsPrefix x = addSep scopeSep x := by
  unfold nsPrefix addSep
  cases x <;> rfl

theorem kind_base {cfg : OptCfg} (hm : cfg.main ≠ []) {q : Path} (hq : ∀ x ∈ q, x ≠ []) (name : Str) :
    nsPrefix (cfg.scope (nsChain q)) ++ name = joinWith scopeSep (top cfg ++ q ++ [name]) := by
  rw [ns_scope hm hq, nsPrefix_eq]
  exact sep_join (M := [name]) scopeSep (top_named hm hq) (by simp)

theorem kind_ext {cfg : OptCfg} (hm : cfg.main ≠ []) {q : Path} (hq : ∀ x ∈ q, x ≠ []) (name : Str) {a a0 : List Decl} (h : Ext (top cfg ++ q ++ [name]) a a0) :
    Ext (top cfg ++ q) (kindOpts true (cfg.scope (nsChain q)) name a) (kindOpts false (cfg.scope (nsChain q)) name a0) :=
  Ext.struct h (kind_base hm hq name)

/-! ## Namespaces -/

/-- What the schema contains is named. -/
structure Named (s : Schema) : Prop where
  nss : ∀ q ∈ s.nss, ∀ x ∈ q, x ≠ []
  up : ∀ q x, q ++ [x] ∈ s.nss → q ≠ [] → q ∈ s.nss
  fields : ∀ q f, (q, f) ∈ s.fields → q ∈ s.nss ∧ Obj f
  messages : ∀ q m, (q, m) ∈ s.messages → q ∈ s.nss ∧ m.name ≠ [] ∧ ∀ f ∈ m.fields, Obj f
  frames : ∀ q f, (q, f) ∈ s.frames → q ∈ s.nss ∧ f.name ≠ [] ∧ ∀ l ∈ f.layers, l.name ≠ []

theorem parseLayer_name {env : LEnv} {node : Xml} {l : Layer} (h : parseLayer env node = .ok l) : isValidName l.name = true := by
  unfold parseLayer at h
  split at h
  · cases h
  · simp only [Res.bind_eq_ok] at h
    obtain ⟨props, _, name, hn, disp, _, descr, _, f, _, d, _, h⟩ := h
    cases h
    exact nameProp_valid hn

theorem parseLayers_name {env : LEnv} {ns : List Xml} {ls : List Layer} (h : parseLayers env ns = .ok ls) : ∀ l ∈ ls, isValidName l.name = true := by
  induction ns generalizing ls with
  | nil => cases h; intro l hl; cases hl
  | cons n ns ih =>
    simp only [parseLayers, Res.bind_eq_ok] at h
    obtain ⟨l, hl, ls', hls, h⟩ := h
    cases h
    intro l' hl'
    rcases List.mem_cons.1 hl' with rfl | hl'
    · exact parseLayer_name hl
    · exact ih hls l' hl'

theorem frame_names {f : Frame} (h : AcceptedFrame f) : ∀ l ∈ f.layers, isValidName l.name = true := by
  obtain ⟨env, node, h⟩ := h
  obtain ⟨ns, ls, _, h2, _, _, h5⟩ := FrameProofs.parseFrame_run h
  intro l hl
  rw [h5] at hl
  obtain ⟨j, hj⟩ := List.getElem?_of_mem hl
  rw [FrameProofs.markAll_get] at hj
  obtain ⟨l0, hl0, rfl⟩ := Option.map_eq_some_iff.1 hj
  rw [FrameProofs.markAfter_name]
  exact parseLayers_name h2 l0 (List.mem_of_getElem? hl0)

theorem inv_named {s : Schema} (h : SchemaInv s) : Named s where
  nss := fun q hq x hx => name_ne (h.nsNames q hq x hx)
  up := h.nsUp
  fields := fun q f hf => by
    obtain ⟨h1, h2, n, h3⟩ := h.fields.1 _ hf
    exact ⟨h1, .acc h3.accepted⟩
  messages := fun q m hm => by
    obtain ⟨h1, h2, h3⟩ := h.messages.1 _ hm
    exact ⟨h1, name_ne h2, msg_fields_obj h3⟩
  frames := fun q f hf => by
    obtain ⟨h1, h2, h3⟩ := h.frames.1 _ hf
    exact ⟨h1, name_ne h2, fun l hl => name_ne (frame_names h3 l hl)⟩

theorem global_around (cfg : OptCfg) (q : Path) : around cfg (.global q) [] = top cfg ++ q ++ ["field".toList] := by
  simp [around, Holder.scopes]

/-- The struct does not touch payload fields, names their base completely, or there are none. -/
def FramesOk (cfg : OptCfg) (s : OptSet) (sc : Schema) : Prop := PayloadOk cfg s ∨ sc.frames = []

theorem element_ext {cfg : OptCfg} (hm : cfg.main ≠ []) {s : OptSet} (hs : s ≠ .dflt) {sc : Schema} (hp : FramesOk cfg s sc) (hn : Named sc) {q : Path} (hq : ∀ x ∈ q, x ≠ []) :
    Ext (top cfg ++ q)
      (elementOpts cfg s q (elemsAt Field.name sc.fields q) (elemsAt Message.name sc.messages q) (elemsAt Frame.name sc.frames q))
      (elementOpts cfg .dflt q (elemsAt Field.name sc.fields q) (elemsAt Message.name sc.messages q) (elemsAt Frame.name sc.frames q)) := by
  unfold elementOpts
  rw [hasBase_ne hs]
  refine Ext.append (kind_ext hm hq _ ?_) (Ext.append (kind_ext hm hq _ ?_) (kind_ext hm hq _ ?_))
  · cases s.ofFields with
    | false => exact .nil
    | true =>
      refine Ext.flatMap fun f hf => ?_
      unfold globalOpts
      split
      · have := field_ext hm hs (h := .global q) hq (obj_hered_named (hn.fields q f ((elemsAt_mem _ _ _ _).1 hf)).2) [] (by simp)
        rw [global_around] at this
        exact this
      · exact .nil
  · cases s.ofMessages with
    | false => exact .nil
    | true =>
      refine Ext.flatMap fun m hf => ?_
      obtain ⟨_, h1, h2⟩ := hn.messages q m ((elemsAt_mem _ _ _ _).1 hf)
      exact message_ext hm hs hq h1 h2
  · cases s.ofFrames with
    | false => exact .nil
    | true =>
      refine Ext.flatMap fun f hf => ?_
      have hf := (elemsAt_mem _ _ _ _).1 hf
      obtain ⟨_, h1, h2⟩ := hn.frames q f hf
      rcases hp with hp | hp
      · exact frame_ext hm hs hp hq h1 h2
      · rw [hp] at hf; cases hf

theorem nssOpts_flatMap (cfg : OptCfg) (s : OptSet) (l : List GNs) : nssOpts cfg s l = l.flatMap (nsOpts cfg s) := by
  induction l with
  | nil => rw [nssOpts]; rfl
  | cons n l ih => rw [nssOpts, ih]; rfl

theorem ns_unfold (cfg : OptCfg) (s : OptSet) (sc : Schema) (d : Nat) (q : Path) :
    nsOpts cfg s (buildNs sc d q) = nsStruct s (q.getLast?.getD []) (cfg.scope (nsChain q)) (((buildNs sc d q).subs.flatMap (nsOpts cfg s)) ++
      elementOpts cfg s q (elemsAt Field.name sc.fields q) (elemsAt Message.name sc.messages q) (elemsAt Frame.name sc.frames q)) := by
  cases d with
  | zero => rw [buildNs, nsOpts, nssOpts_flatMap]; rfl
  | succ d => rw [buildNs, nsOpts, nssOpts_flatMap]; rfl

theorem struct_ext {cfg : OptCfg} (hm : cfg.main ≠ []) {s : OptSet} (hs : s ≠ .dflt) {q : Path} {x : Str} (hq : ∀ y ∈ q ++ [x], y ≠ []) {a a0 : List Decl}
    (h : Ext (top cfg ++ (q ++ [x])) a a0) :
    Ext (top cfg ++ q) (nsStruct s x (cfg.scope (nsChain (q ++ [x]))) a) (nsStruct .dflt x (cfg.scope (nsChain (q ++ [x]))) a0) := by
  have hx : x.isEmpty = false := by
    have := hq x (by simp)
    cases x <;> simp_all
  have hsc := ns_scope hm hq
  have hsne : (cfg.scope (nsChain (q ++ [x]))).isEmpty = false := by
    rw [hsc]
    have := join_ne scopeSep (l := top cfg ++ (q ++ [x])) (top_named hm hq) (by simp)
    simpa using this
  unfold nsStruct
  rw [hasBase_ne hs, hx, hsne]
  simp only [Bool.true_and, Bool.false_eq_true, if_false, Bool.not_false, if_true, OptSet.hasBase, Bool.false_and]
  split
  · exact .nil
  · rw [← List.append_assoc] at h
    refine h.single ?_
    rw [hsc, List.append_assoc]

theorem ns_ext {cfg : OptCfg} (hm : cfg.main ≠ []) {s : OptSet} (hs : s ≠ .dflt) {sc : Schema} (hp : FramesOk cfg s sc) (hn : Named sc) (d : Nat) :
    ∀ (q : Path) (x : Str), q ++ [x] ∈ sc.nss → Ext (top cfg ++ q) (nsOpts cfg s (buildNs sc d (q ++ [x]))) (nsOpts cfg .dflt (buildNs sc d (q ++ [x]))) := by
  induction d with
  | zero =>
    intro q x hq
    have hq' := hn.nss _ hq
    rw [ns_unfold, ns_unfold, show (q ++ [x]).getLast?.getD [] = x by simp]
    exact struct_ext hm hs hq' (Ext.append .nil (element_ext hm hs hp hn hq'))
  | succ d ih =>
    intro q x hq
    have hq' := hn.nss _ hq
    rw [ns_unfold, ns_unfold, show (q ++ [x]).getLast?.getD [] = x by simp]
    refine struct_ext hm hs hq' (Ext.append (Ext.flatMap fun n hnn => ?_) (element_ext hm hs hp hn hq'))
    rw [buildNs_subs, if_neg (by omega)] at hnn
    obtain ⟨y, hy, rfl⟩ := List.mem_map.1 hnn
    exact ih (q ++ [x]) y ((subNs_mem _ _ _).1 hy)

theorem schema_ext {cfg : OptCfg} (hm : cfg.main ≠ []) {s : OptSet} (hs : s ≠ .dflt) {sc : Schema} (hp : FramesOk cfg s sc) (hn : Named sc) :
    Ext (top cfg) (nssOpts cfg s (buildSchema sc)) (nssOpts cfg .dflt (buildSchema sc)) := by
  rw [nssOpts_flatMap, nssOpts_flatMap]
  refine Ext.flatMap fun n hnn => ?_
  unfold buildSchema at hnn
  rcases List.mem_append.1 hnn with hnn | hnn
  · split at hnn
    · cases List.mem_singleton.1 hnn
      rw [ns_unfold, ns_unfold]
      have he := element_ext hm hs hp hn (q := []) (by simp)
      rw [List.append_nil] at he
      unfold nsStruct
      rw [hasBase_ne hs]
      simp only [List.getLast?_nil, Option.getD_none, List.isEmpty_nil, if_true, Bool.true_and, OptSet.hasBase, Bool.false_and, Bool.false_eq_true, if_false]
      split
      · exact .nil
      · exact Ext.append .nil he
    · cases hnn
  · obtain ⟨x, hx, rfl⟩ := List.mem_map.1 hnn
    have := ns_ext hm hs hp hn (nsDepth sc.nss) [] x ((subNs_mem _ _ _).1 hx)
    rwa [List.append_nil] at this

theorem body_ext {cfg : OptCfg} (hm : cfg.main ≠ []) {s : OptSet} (hs : s ≠ .dflt) {sc : Schema} (hp : FramesOk cfg s sc) (hn : Named sc) :
    Ext [] (optionsBody cfg s (buildSchema sc)) (optionsBody cfg .dflt (buildSchema sc)) := by
  have h := schema_ext hm hs hp hn
  unfold optionsBody
  by_cases he : (nssOpts cfg s (buildSchema sc)) = []
  · rw [if_pos (by simp [he])]; exact .nil
  · rw [if_neg (by simpa using he), if_neg (c := (nssOpts cfg .dflt (buildSchema sc)).isEmpty = true) (by simpa using h.ne he), hasBase_ne hs]
    unfold top at h
    cases hi : cfg.inOptions with
    | false =>
      rw [hi] at h
      exact h
    | true =>
      rw [hi] at h
      exact Ext.single (pre := []) h rfl

/-! ## Where the declarations of a namespace are -/

/-- The declarations `a` are those in the structs named `pre`. -/
def Below (pre : List Str) (a ds : List Decl) : Prop := ∀ rel d, FoundAt a rel d → FoundAt ds (pre ++ rel) d

theorem Below.refl {a : List Decl} : Below [] a a := fun _ _ h => h

theorem struct_below {n : Str} {b : Option Str} {p : List Str} {a body : List Decl} (h : Below p a body) : Below (n :: p) a [.struct n b body] :=
  fun rel d hd => .inside List.mem_cons_self (h rel d hd)

theorem structOf_below {n : Str} {b : Option Str} {p : List Str} {a body : List Decl} (h : Below p a body) : Below (n :: p) a (structOf n b body) :=
  fun rel d hd => declared_struct (h rel d hd)

theorem nsStruct_below {s : OptSet} {n scope : Str} {p : List Str} {a body : List Decl} (hn : n ≠ []) (h : Below p a body) : Below (n :: p) a (nsStruct s n scope body) := by
  intro rel d hd
  have := h rel d hd
  unfold nsStruct
  rw [if_neg, if_neg]
  · exact .inside List.mem_cons_self this
  · simpa using hn
  · intro h0
    rw [Bool.and_eq_true] at h0
    rw [List.isEmpty_iff.1 h0.2] at this
    exact not_declared_nil this

/-- The declarations of the elements of a namespace. -/
def elems (cfg : OptCfg) (s : OptSet) (sc : Schema) (q : Path) : List Decl :=
  elementOpts cfg s q (elemsAt Field.name sc.fields q) (elemsAt Message.name sc.messages q) (elemsAt Frame.name sc.frames q)

theorem ns_below {cfg : OptCfg} {s : OptSet} {sc : Schema} (hn : Named sc) (d : Nat) : ∀ (q : Path) (x : Str) (r : Path), r.length ≤ d → q ++ [x] ++ r ∈ sc.nss →
    Below (x :: r) (elems cfg s sc (q ++ [x] ++ r)) (nsOpts cfg s (buildNs sc d (q ++ [x]))) := by
  induction d with
  | zero =>
    intro q x r hr hq
    have : r = [] := List.length_eq_zero_iff.1 (by omega)
    subst this
    rw [List.append_nil] at hq ⊢
    rw [ns_unfold, show (q ++ [x]).getLast?.getD [] = x by simp]
    exact nsStruct_below (hn.nss _ hq x (by simp)) fun rel d hd => declared_append.2 (.inr hd)
  | succ d ih =>
    intro q x r hr hq
    have hqx := nsUp_prefix hn.up (q ++ [x]) r (by simp) hq
    rw [ns_unfold, show (q ++ [x]).getLast?.getD [] = x by simp]
    refine nsStruct_below (hn.nss _ hqx x (by simp)) ?_
    cases r with
    | nil =>
      rw [List.append_nil]
      exact fun rel d hd => declared_append.2 (.inr hd)
    | cons y r =>
      intro rel dd hd
      refine declared_append.2 (.inl (declared_flatMap.2 ⟨buildNs sc d (q ++ [x] ++ [y]), ?_, ?_⟩))
      · rw [buildNs_subs, if_neg (by omega)]
        refine List.mem_map.2 ⟨y, (subNs_mem _ _ _).2 ?_, rfl⟩
        refine nsUp_prefix hn.up (q ++ [x] ++ [y]) r (by simp) ?_
        simpa using hq
      · have := ih (q ++ [x]) y r (by simp at hr; omega) (by simpa using hq)
        exact this rel dd (by simpa using hd)

theorem schema_below {cfg : OptCfg} {s : OptSet} {sc : Schema} (hn : Named sc) {q : Path} (hq : q ∈ sc.nss) :
    Below q (elems cfg s sc q) (nssOpts cfg s (buildSchema sc)) := by
  intro rel d hd
  rw [nssOpts_flatMap]
  unfold buildSchema
  cases q with
  | nil =>
    refine declared_flatMap.2 ⟨buildNs sc 0 [], List.mem_append.2 (.inl ?_), ?_⟩
    · rw [if_pos (by simpa using hq)]; exact List.mem_singleton.2 rfl
    · rw [ns_unfold]
      unfold nsStruct
      rw [if_neg]
      · exact declared_append.2 (.inr hd)
      · intro h0
        rw [Bool.and_eq_true, List.isEmpty_iff, List.append_eq_nil_iff] at h0
        unfold elems at hd
        rw [h0.2.2] at hd
        exact not_declared_nil hd
  | cons x r =>
    refine declared_flatMap.2 ⟨buildNs sc (nsDepth sc.nss) [x], List.mem_append.2 (.inr (List.mem_map.2 ⟨x, (subNs_mem _ _ _).2 ?_, rfl⟩)), ?_⟩
    · exact nsUp_prefix hn.up [x] r (by simp) (by simpa using hq)
    · have := le_nsDepth hq
      exact ns_below hn (nsDepth sc.nss) [] x r (by simp at this; omega) (by simpa using hq) rel d hd

theorem body_below {cfg : OptCfg} {s : OptSet} {sc : Schema} (hn : Named sc) {q : Path} (hq : q ∈ sc.nss) :
    Below (top cfg ++ q) (elems cfg s sc q) (optionsBody cfg s (buildSchema sc)) := by
  intro rel d hd
  have h := schema_below (cfg := cfg) (s := s) hn hq rel d hd
  unfold optionsBody
  rw [if_neg]
  · unfold top
    cases cfg.inOptions with
    | false => exact h
    | true => exact .inside List.mem_cons_self h
  · intro h0
    rw [List.isEmpty_iff.1 h0] at h
    exact not_declared_nil h

theorem kind_below {b : Bool} {scope name : Str} {body : List Decl} : Below [name] body (kindOpts b scope name body) := structOf_below Below.refl

theorem covers_below {pre p : List Str} {refs : List Str} {a ds : List Decl} (h : Covers (pre ++ p) refs a) (hb : Below (pre ++ p) a ds) : AllDeclared refs ds := by
  intro t ht
  obtain ⟨rel, h1, n, o, b, h2⟩ := h t ht
  exact ⟨pre ++ p ++ rel, h1, n, o, b, hb rel _ h2⟩

theorem Below.trans {p r : List Str} {a b c : List Decl} (h1 : Below r a b) (h2 : Below p b c) : Below (p ++ r) a c := by
  intro rel d hd
  have := h2 _ _ (h1 rel d hd)
  rwa [← List.append_assoc] at this

theorem Below.mono {p : List Str} {a a' b : List Decl} (h : Below p a b) (hs : ∀ rel d, FoundAt a' rel d → FoundAt a rel d) : Below p a' b :=
  fun rel d hd => h rel d (hs rel d hd)

theorem elems_field {cfg : OptCfg} {s : OptSet} (hs : s.ofFields = true) {sc : Schema} {q : Path} {f : Field} (hf : (q, f) ∈ sc.fields) (hu : cfg.used q f = true) :
    Below ["field".toList] (fieldOpts cfg s (nsChain q) f) (elems cfg s sc q) := by
  intro rel d hd
  unfold elems elementOpts
  refine declared_append.2 (.inl (kind_below rel d ?_))
  rw [hs, if_pos rfl]
  refine declared_flatMap.2 ⟨f, (elemsAt_mem _ _ _ _).2 hf, ?_⟩
  unfold globalOpts
  rw [hu, if_pos rfl]
  exact hd

theorem elems_message {cfg : OptCfg} {s : OptSet} (hs : s.ofMessages = true) {sc : Schema} {q : Path} {m : Message} (hf : (q, m) ∈ sc.messages) :
    Below ["message".toList] (messageOpts cfg s q (nsChain q) m) (elems cfg s sc q) := by
  intro rel d hd
  unfold elems elementOpts
  refine declared_append.2 (.inr (declared_append.2 (.inl (kind_below rel d ?_))))
  rw [hs, if_pos rfl]
  exact declared_flatMap.2 ⟨m, (elemsAt_mem _ _ _ _).2 hf, hd⟩

theorem elems_frame {cfg : OptCfg} {s : OptSet} (hs : s.ofFrames = true) {sc : Schema} {q : Path} {f : Frame} (hf : (q, f) ∈ sc.frames) :
    Below ["frame".toList] (frameOpts cfg s q (nsChain q) f) (elems cfg s sc q) := by
  intro rel d hd
  unfold elems elementOpts
  refine declared_append.2 (.inr (declared_append.2 (.inr (kind_below rel d ?_))))
  rw [hs, if_pos rfl]
  exact declared_flatMap.2 ⟨f, (elemsAt_mem _ _ _ _).2 hf, hd⟩

end CustomProofs

open CustomProofs

/-- The texts behind `TOpt::` in the code of a global field that is used, and in the code of the fields inside it, are types declared by the struct with the default options. -/
theorem C108_fields (fo : FloatOps) (p : Proto) (h : Reachable fo p) (i : Nat) (s : Schema) (hs : p.schemas[i]? = some s) (cfg : OptCfg) (hm : cfg.main ≠ [])
    (q : Path) (f : Field) (hf : (q, f) ∈ s.fields) (hu : cfg.used q f = true) : AllDeclared (fieldRefs cfg (nsChain q) f) (optionsBody cfg .dflt (buildSchema s)) := by
  have hn := inv_named (MsgProofs.inv_at h hs)
  obtain ⟨hq, ho⟩ := hn.fields q f hf
  have hc := field_covers hm (cfg := cfg) (h := .global q) (hn.nss q hq) (obj_hered_named ho) [] (by simp)
  rw [global_around] at hc
  exact covers_below hc ((elems_field rfl hf hu).trans (body_below hn hq))

/-- Those in the code of a message that is generated, and of its fields. -/
theorem C108_messages (fo : FloatOps) (p : Proto) (h : Reachable fo p) (i : Nat) (s : Schema) (hs : p.schemas[i]? = some s) (cfg : OptCfg) (hm : cfg.main ≠ [])
    (q : Path) (m : Message) (hf : (q, m) ∈ s.messages) (hu : cfg.usedMsg q m = true) : AllDeclared (messageRefs cfg (nsChain q) m) (optionsBody cfg .dflt (buildSchema s)) := by
  have hn := inv_named (MsgProofs.inv_at h hs)
  obtain ⟨hq, h1, h2⟩ := hn.messages q m hf
  exact covers_below (message_covers hm (hn.nss q hq) h1 h2 hu) ((elems_message rfl hf).trans (body_below hn hq))

/-- Those in the code of the layers of a frame, but for the fields of the layers. -/
theorem C108_layers_partial (fo : FloatOps) (p : Proto) (h : Reachable fo p) (i : Nat) (s : Schema) (hs : p.schemas[i]? = some s) (cfg : OptCfg) (hm : cfg.main ≠ [])
    (q : Path) (f : Frame) (hf : (q, f) ∈ s.frames) (l : Layer) (hl : l ∈ f.layers) :
    AllDeclared (layerRefs cfg ({ ty := .frame, name := f.name } :: nsChain q) l) (optionsBody cfg .dflt (buildSchema s)) := by
  have hn := inv_named (MsgProofs.inv_at h hs)
  obtain ⟨hq, h1, h2⟩ := hn.frames q f hf
  exact covers_below (frame_covers hm (hn.nss q hq) h1 hl (h2 l hl)) ((elems_frame rfl hf).trans (body_below hn hq))

/-- Every other struct extends the one with the default options, unless it is about payload fields while the main namespace is part of the options. -/
theorem C108_extension_partial (fo : FloatOps) (p : Proto) (h : Reachable fo p) (i : Nat) (s : Schema) (hs : p.schemas[i]? = some s) (cfg : OptCfg) (hm : cfg.main ≠ [])
    (o : OptSet) (ho : o ≠ .dflt) (hok : cfg.inOptions = false ∨ (o ≠ .dataView ∧ o ≠ .bareMetal) ∨ s.frames = []) :
    ExtendsAll (optionsBody cfg o (buildSchema s)) (optionsBody cfg .dflt (buildSchema s)) :=
  body_ext hm ho (hok.elim (fun h1 => .inl (.inl h1)) fun h1 => h1.elim (fun h2 => .inl (.inr h2)) .inr) (inv_named (MsgProofs.inv_at h hs))

namespace CustomProofs

theorem defined_inner {f g : Field} (h : DefinedIn f g) : g ∈ (innerFields f).1 := by
  cases h with
  | member h => cases f <;> first | exact h | cases h
  | element h =>
    simp only [List.mem_cons, List.not_mem_nil, or_false] at h
    simp only [innerFields, List.mem_append]
    rcases h with rfl | rfl | rfl | rfl | rfl <;> simp [ownSlot]
  | optional => exact List.mem_singleton.2 rfl
  | ofString => exact List.mem_singleton.2 rfl
  | ofData => exact List.mem_singleton.2 rfl

/-- The options of a field inside. -/
theorem way_below {cfg : OptCfg} {s : OptSet} {f g : Field} {o : List Str} (h : FieldWay f o g) : ∀ up : Chain,
    Below (o.map fun n => className n ++ "Members".toList)
      (ownOptions (customizable cfg.level g) s.hasBase (extraFieldOpts s g) g.name
        (cfg.scope ({ ty := .field, name := g.name } :: ((o.reverse.map fun n => ({ ty := .field, name := n } : GElem)) ++ up))))
      (fieldOpts cfg s up f) := by
  induction h with
  | self =>
    intro up rel d hd
    rw [fieldOpts_eq]
    unfold wrapOpts
    exact declared_append.2 (.inr hd)
  | @inner f g h o hd _ ih =>
    intro up rel d hdd
    rw [fieldOpts_eq]
    unfold wrapOpts
    refine declared_append.2 (.inl (declared_struct (declared_flatMap.2 ⟨g, defined_inner hd, ?_⟩)))
    refine ih _ rel d ?_
    simpa using hdd

theorem storage_eq (n : Nat) : storageOpts (decide (n ≠ 0)) = [if n = 0 then "comms::option::app::FixedSizeStorage<DEFAULT_SEQ_FIXED_STORAGE_SIZE>".toList
    else "comms::option::app::SequenceFixedSizeUseFixedSizeStorage".toList] := by
  unfold storageOpts
  by_cases h : n = 0
  · rw [if_neg, if_pos h]
    rw [h]; decide
  · rw [if_pos, if_neg h]
    exact decide_eq_true h

theorem own_declared {extra : List Str} (he : extra ≠ []) {name scope : Str} : FoundAt (ownOptions true true extra name scope) [className name] (.alias (className name) extra (some scope)) := by
  have : ownOptions true true extra name scope = [.alias (className name) extra (some scope)] := by
    unfold ownOptions
    cases extra with
    | nil => exact absurd rfl he
    | cons => rfl
  rw [this]
  exact .here (List.mem_singleton.2 rfl)

end CustomProofs

/-- A side does not need to read and dispatch the messages only it sends, and does not need to write and refresh those it does not send: the options of the client and of the server say so
    for every message sent by one side, when the customization level is not the lowest one. -/
theorem C108_sides (fo : FloatOps) (p : Proto) (h : Reachable fo p) (i : Nat) (s : Schema) (hs : p.schemas[i]? = some s) (cfg : OptCfg)
    (q : Path) (m : Message) (hf : (q, m) ∈ s.messages) (hc : cfg.level ≠ .none ∨ m.customizable = true) (side : OptSet) (hside : side = .client ∨ side = .server)
    (hsend : m.sender ≠ .both) :
    ∃ b, FoundAt (optionsBody cfg side (buildSchema s)) ((if cfg.inOptions then [cfg.main] else []) ++ q ++ ["message".toList, className m.name])
      (.alias (className m.name)
        (if (side = .client ↔ m.sender = .client) then ["comms::option::app::NoReadImpl".toList, "comms::option::app::NoDispatchImpl".toList]
          else ["comms::option::app::NoWriteImpl".toList, "comms::option::app::NoRefreshImpl".toList]) b) := by
  have hn := inv_named (MsgProofs.inv_at h hs)
  obtain ⟨hq, h1, h2⟩ := hn.messages q m hf
  have hcu : msgCustomizable cfg.level m = true := by
    unfold msgCustomizable
    cases hl : cfg.level with
    | full => rfl
    | limited => simp [hsend]
    | none =>
      rcases hc with hc | hc
      · exact absurd hl hc
      · simp [hc]
  refine ⟨some (cfg.scope ({ ty := .message, name := m.name } :: nsChain q)), ?_⟩
  have hb := (elems_message (cfg := cfg) (s := side) (by rcases hside with rfl | rfl <;> rfl) hf).trans (body_below hn hq)
  have hd : FoundAt (messageOpts cfg side q (nsChain q) m) [className m.name] (.alias (className m.name) (extraMsgOpts side m)
      (some (cfg.scope ({ ty := .message, name := m.name } :: nsChain q)))) := by
    unfold messageOpts
    refine declared_append.2 (.inr ?_)
    rw [hcu, hasBase_ne (by rcases hside with rfl | rfl <;> simp)]
    refine own_declared ?_
    unfold extraMsgOpts
    rcases hside with rfl | rfl <;> cases hx : m.sender <;> simp_all
  have := hb _ _ hd
  have he : extraMsgOpts side m = if (side = .client ↔ m.sender = .client) then ["comms::option::app::NoReadImpl".toList, "comms::option::app::NoDispatchImpl".toList]
          else ["comms::option::app::NoWriteImpl".toList, "comms::option::app::NoRefreshImpl".toList] := by
    unfold extraMsgOpts
    rcases hside with rfl | rfl <;> cases hx : m.sender <;> simp_all
  rw [← he]
  simpa [top] using this

namespace CustomProofs

/-- A layer that reads or writes the id of a message: it makes the message objects. -/
def TakesIds (l : Layer) : Prop := l.data = .id ∨ ∃ a b, l.data = .custom .id a b

theorem takes_spec (l : Layer) : extraLayerOpts.layerTakesIds l = true ↔ TakesIds l := by
  unfold extraLayerOpts.layerTakesIds TakesIds
  split <;> rename_i h
  · simp [h]
  · simp [h]
  · rename_i h2
    simp only [Bool.false_eq_true, false_iff, not_or, not_exists]
    exact ⟨h2, h⟩

/-- What all types declared by a struct have. -/
def AllTypes (P : Str → List Str → Prop) (ds : List Decl) : Prop := ∀ p n o b, FoundAt ds p (.alias n o b) → P n o

variable {P : Str → List Str → Prop}

theorem AllTypes.nil : AllTypes P [] := fun _ _ _ _ h => absurd h not_declared_nil

theorem AllTypes.append {a b : List Decl} (h : AllTypes P a) (h' : AllTypes P b) : AllTypes P (a ++ b) := fun p n o x hd =>
  (declared_append.1 hd).elim (h p n o x) (h' p n o x)

theorem AllTypes.flatMap {α : Type} {l : List α} {f : α → List Decl} (h : ∀ x ∈ l, AllTypes P (f x)) : AllTypes P (l.flatMap f) := fun p n o x hd => by
  obtain ⟨y, hy, hd⟩ := declared_flatMap.1 hd
  exact h y hy p n o x hd

theorem AllTypes.single {n : Str} {b : Option Str} {body : List Decl} (h : AllTypes P body) : AllTypes P [.struct n b body] := fun p n o x hd => by
  rcases declared_single.1 hd with ⟨_, hd⟩ | ⟨q, _, hq⟩
  · cases hd
  · exact h q n o x hq

theorem AllTypes.struct {n : Str} {b : Option Str} {body : List Decl} (h : AllTypes P body) : AllTypes P (structOf n b body) := by
  unfold structOf
  split
  · exact .nil
  · exact h.single

theorem AllTypes.ns {s : OptSet} {n scope : Str} {body : List Decl} (h : AllTypes P body) : AllTypes P (nsStruct s n scope body) := by
  unfold nsStruct
  split
  · exact .nil
  · split
    · exact h
    · exact h.single

/-- The types of `MsgFactoryDefaultOptions`. -/
def OfLayer (cfg : OptCfg) (sc : Schema) (n : Str) (o : List Str) : Prop :=
  ∃ q f l, (q, f) ∈ sc.frames ∧ l ∈ f.layers ∧ TakesIds l ∧ n = className l.name ∧ o = ["comms::option::app::MsgFactoryTempl<".toList ++ cfg.factory q ++ ">".toList]

theorem factory_layer {cfg : OptCfg} {q : Path} {up : Chain} {l : Layer} :
    AllTypes (fun n o => TakesIds l ∧ n = className l.name ∧ o = ["comms::option::app::MsgFactoryTempl<".toList ++ cfg.factory q ++ ">".toList]) (layerOpts cfg .msgFactory q up l) := by
  unfold layerOpts
  refine .append ?_ ?_
  · split
    · exact .nil
    · unfold layerFieldOpts
      rw [if_neg (by simp [OptSet.ofFields])]
      exact .nil
  · unfold extraLayerOpts ownOptions
    by_cases ht : extraLayerOpts.layerTakesIds l = true
    · rw [if_pos ht]
      split
      · exact .nil
      · intro p n o b hd
        rw [if_neg (by simp), if_neg (by simp)] at hd
        obtain ⟨_, hd⟩ | ⟨_, _, hd⟩ := (by
          cases hd with
          | here h => cases List.mem_singleton.1 h; exact .inl ⟨trivial, rfl⟩
          | inside h _ => cases List.mem_singleton.1 h : (True ∧ (Decl.alias n o b = Decl.alias (className l.name) ["comms::option::app::MsgFactoryTempl<".toList ++ cfg.factory q ++ ">".toList] b)) ∨
            (∃ x : Nat, x = x ∧ False))
        · injection hd with h1 h2 _
          exact ⟨(takes_spec l).1 ht, h1, h2⟩
        · exact hd.elim
    · rw [if_neg ht]
      split
      · exact .nil
      · rw [if_pos (by rfl)]
        exact .nil

theorem factory_elements {cfg : OptCfg} {sc : Schema} (q : Path) :
    AllTypes (OfLayer cfg sc) (elementOpts cfg .msgFactory q (elemsAt Field.name sc.fields q) (elemsAt Message.name sc.messages q) (elemsAt Frame.name sc.frames q)) := by
  unfold elementOpts kindOpts
  refine .append (AllTypes.struct ?_) (.append (AllTypes.struct ?_) (AllTypes.struct ?_))
  · exact .nil
  · exact .nil
  · show AllTypes _ (List.flatMap _ _)
    refine .flatMap fun f hf => ?_
    unfold frameOpts
    refine AllTypes.struct (.flatMap fun l hl p n o b hd => ?_)
    obtain ⟨h1, h2, h3⟩ := factory_layer p n o b hd
    exact ⟨q, f, l, (elemsAt_mem _ _ _ _).1 hf, List.mem_reverse.1 hl, h1, h2, h3⟩

theorem factory_ns {cfg : OptCfg} {sc : Schema} (d : Nat) : ∀ q : Path, AllTypes (OfLayer cfg sc) (nsOpts cfg .msgFactory (buildNs sc d q)) := by
  induction d with
  | zero =>
    intro q
    rw [ns_unfold]
    exact AllTypes.ns (.append .nil (factory_elements q))
  | succ d ih =>
    intro q
    rw [ns_unfold]
    refine AllTypes.ns (.append (.flatMap fun n hn => ?_) (factory_elements q))
    rw [buildNs_subs, if_neg (by omega)] at hn
    obtain ⟨y, hy, rfl⟩ := List.mem_map.1 hn
    exact ih _

theorem factory_body {cfg : OptCfg} {sc : Schema} : AllTypes (OfLayer cfg sc) (optionsBody cfg .msgFactory (buildSchema sc)) := by
  have h : AllTypes (OfLayer cfg sc) (nssOpts cfg .msgFactory (buildSchema sc)) := by
    rw [nssOpts_flatMap]
    refine .flatMap fun n hn => ?_
    unfold buildSchema at hn
    rcases List.mem_append.1 hn with hn | hn
    · split at hn
      · cases List.mem_singleton.1 hn
        exact factory_ns _ _
      · cases hn
    · obtain ⟨x, _, rfl⟩ := List.mem_map.1 hn
      exact factory_ns _ _
  unfold optionsBody
  split
  · exact .nil
  · split
    · exact h
    · exact h.single

end CustomProofs

/-- The layers that make the message objects, and only those, get the factory of messages in the struct for factories, and in the one for bare metal the order to make them in place: id layers
    and custom layers that stand for one. -/
theorem C108_factories (fo : FloatOps) (p : Proto) (h : Reachable fo p) (i : Nat) (s : Schema) (hs : p.schemas[i]? = some s) (cfg : OptCfg) :
    (∀ q f l, (q, f) ∈ s.frames → l ∈ f.layers → (l.data = .id ∨ ∃ a b, l.data = .custom .id a b) →
      (∃ b, FoundAt (optionsBody cfg .msgFactory (buildSchema s)) ((if cfg.inOptions then [cfg.main] else []) ++ q ++ ["frame".toList, className f.name ++ "Layers".toList, className l.name])
        (.alias (className l.name) ["comms::option::app::MsgFactoryTempl<".toList ++ cfg.factory q ++ ">".toList] b)) ∧
      ∃ b, FoundAt (optionsBody cfg .bareMetal (buildSchema s)) ((if cfg.inOptions then [cfg.main] else []) ++ q ++ ["frame".toList, className f.name ++ "Layers".toList, className l.name])
        (.alias (className l.name) ["comms::option::app::InPlaceAllocation".toList] b)) ∧
    ∀ w n o b, FoundAt (optionsBody cfg .msgFactory (buildSchema s)) w (.alias n o b) →
      ∃ q f l, (q, f) ∈ s.frames ∧ l ∈ f.layers ∧ (l.data = .id ∨ ∃ a b, l.data = .custom .id a b) ∧ n = className l.name ∧
        o = ["comms::option::app::MsgFactoryTempl<".toList ++ cfg.factory q ++ ">".toList] := by
  refine ⟨fun q f l hf hl ht => ?_, factory_body⟩
  have hn := inv_named (MsgProofs.inv_at h hs)
  obtain ⟨hq, h1, h2⟩ := hn.frames q f hf
  have ht' := (takes_spec l).2 ht
  have hcu : layerCustomizable cfg.level l = true := by
    unfold layerCustomizable
    rcases ht with ht | ⟨a, b, ht⟩ <;> simp [ht]
  have key : ∀ o : OptSet, o.hasBase = true → o.ofFrames = true → extraLayerOpts o (cfg.factory q) l ≠ [] →
      FoundAt (optionsBody cfg o (buildSchema s)) ((if cfg.inOptions then [cfg.main] else []) ++ q ++ ["frame".toList, className f.name ++ "Layers".toList, className l.name])
        (.alias (className l.name) (extraLayerOpts o (cfg.factory q) l) (some (cfg.scope ({ ty := .layer, name := l.name } :: { ty := .frame, name := f.name } :: nsChain q)))) := by
    intro o ho1 ho2 he
    have hb := (elems_frame (cfg := cfg) (s := o) ho2 hf).trans (body_below hn hq)
    have hd : FoundAt (frameOpts cfg o q (nsChain q) f) [className f.name ++ "Layers".toList, className l.name] (.alias (className l.name) (extraLayerOpts o (cfg.factory q) l)
        (some (cfg.scope ({ ty := .layer, name := l.name } :: { ty := .frame, name := f.name } :: nsChain q)))) := by
      unfold frameOpts
      refine declared_struct (declared_flatMap.2 ⟨l, List.mem_reverse.2 hl, ?_⟩)
      unfold layerOpts
      refine declared_append.2 (.inr ?_)
      rw [hcu, ho1]
      exact own_declared he
    have := hb _ _ hd
    simpa [top] using this
  have k1 := key .msgFactory rfl rfl (by unfold extraLayerOpts; rw [if_pos ht']; simp)
  have k2 := key .bareMetal rfl rfl (by unfold extraLayerOpts; rw [if_pos ht']; simp)
  unfold extraLayerOpts at k1 k2
  rw [if_pos ht'] at k1 k2
  exact ⟨⟨_, k1⟩, ⟨_, k2⟩⟩

/-- The options for data views and for bare metal give every customizable string and data field, and for bare metal every list, defined in a global field that is used, however deep inside, its
    storage: a view on the input, resp. a storage of fixed size (for a sequence of fixed length, a storage of that size). -/
theorem C108_sequences (fo : FloatOps) (p : Proto) (h : Reachable fo p) (i : Nat) (s : Schema) (hs : p.schemas[i]? = some s) (cfg : OptCfg)
    (q : Path) (f : Field) (hf : (q, f) ∈ s.fields) (hu : cfg.used q f = true) (o : List Str) (g : Field) (hg : FieldWay f o g) (hc : customizable cfg.level g = true)
    (n : Nat) (hk : (∃ c st pfx, g = .string c st pfx ∧ n = st.length) ∨ (∃ c st pfx, g = .data c st pfx ∧ n = st.length) ∨
      ∃ c st e a b d t, g = .list c st e a b d t ∧ n = st.count) :
    (∃ b, FoundAt (optionsBody cfg .bareMetal (buildSchema s))
      ((if cfg.inOptions then [cfg.main] else []) ++ q ++ ["field".toList] ++ (o.map fun n => className n ++ "Members".toList) ++ [className g.name])
      (.alias (className g.name) [if n = 0 then "comms::option::app::FixedSizeStorage<DEFAULT_SEQ_FIXED_STORAGE_SIZE>".toList
        else "comms::option::app::SequenceFixedSizeUseFixedSizeStorage".toList] b)) ∧
    (g.kind ≠ .list → ∃ b, FoundAt (optionsBody cfg .dataView (buildSchema s))
      ((if cfg.inOptions then [cfg.main] else []) ++ q ++ ["field".toList] ++ (o.map fun n => className n ++ "Members".toList) ++ [className g.name])
      (.alias (className g.name) ["comms::option::app::OrigDataView".toList] b)) := by
  have hn := inv_named (MsgProofs.inv_at h hs)
  obtain ⟨hq, ho⟩ := hn.fields q f hf
  have key : ∀ os : OptSet, os.ofFields = true → os.hasBase = true → extraFieldOpts os g ≠ [] → ∃ b, FoundAt (optionsBody cfg os (buildSchema s))
      ((if cfg.inOptions then [cfg.main] else []) ++ q ++ ["field".toList] ++ (o.map fun n => className n ++ "Members".toList) ++ [className g.name])
      (.alias (className g.name) (extraFieldOpts os g) b) := by
    intro os h1 h2 h3
    have hb := (way_below (cfg := cfg) (s := os) hg (nsChain q)).trans ((elems_field h1 hf hu).trans (body_below hn hq))
    rw [hc, h2] at hb
    exact ⟨_, hb _ _ (own_declared h3)⟩
  constructor
  · have hb := key .bareMetal rfl rfl
    have he : extraFieldOpts .bareMetal g = storageOpts (decide (n ≠ 0)) := by
      rcases hk with ⟨c, st, pfx, rfl, rfl⟩ | ⟨c, st, pfx, rfl, rfl⟩ | ⟨c, st, e, a, b, d, t, rfl, rfl⟩ <;> rfl
    rw [he, storage_eq] at hb
    exact hb (List.cons_ne_nil _ _)
  · intro hnl
    have hb := key .dataView rfl rfl
    have he : extraFieldOpts .dataView g = ["comms::option::app::OrigDataView".toList] := by
      rcases hk with ⟨c, st, pfx, rfl, rfl⟩ | ⟨c, st, pfx, rfl, rfl⟩ | ⟨c, st, e, a, b, d, t, rfl, rfl⟩
      · rfl
      · rfl
      · exact absurd rfl hnl
    rw [he] at hb
    exact hb (List.cons_ne_nil _ _)

/-! ## Samples -/

namespace CustomProofs

mutual
/-- All declarations in a declaration. -/
def listing : Decl → List (List Str × Decl)
  | .struct n b body => ([n], .struct n b body) :: (listings body).map fun e => (n :: e.1, e.2)
  | .alias n o b => [([n], .alias n o b)]
/-- All declarations. -/
def listings : List Decl → List (List Str × Decl)
  | [] => []
  | d :: ds => listing d ++ listings ds
end

theorem listings_mem {ds : List Decl} {e : List Str × Decl} : e ∈ listings ds ↔ ∃ d ∈ ds, e ∈ listing d := by
  induction ds with
  | nil => simp [listings]
  | cons d ds ih => simp [listings, ih]

theorem declared_listed {ds : List Decl} {p : List Str} {d : Decl} (h : FoundAt ds p d) : (p, d) ∈ listings ds := by
  induction h with
  | @here ds d h =>
    refine listings_mem.2 ⟨d, h, ?_⟩
    cases d <;> simp [listing, declName]
  | @inside ds n b body p d h _ ih =>
    refine listings_mem.2 ⟨_, h, ?_⟩
    rw [listing]
    exact List.mem_cons_of_mem _ (List.mem_map.2 ⟨_, ih, rfl⟩)

mutual
theorem listing_declared : ∀ (d : Decl) (p : List Str) (x : Decl), (p, x) ∈ listing d → FoundAt [d] p x
  | .alias n o b => fun p x h => by
    rw [listing, List.mem_singleton] at h
    cases h
    exact .here (List.mem_singleton.2 rfl)
  | .struct n b body => fun p x h => by
    rw [listing, List.mem_cons] at h
    rcases h with h | h
    · cases h
      exact .here (List.mem_singleton.2 rfl)
    · obtain ⟨⟨q, y⟩, hq, h⟩ := List.mem_map.1 h
      cases h
      exact .inside (List.mem_singleton.2 rfl) (listings_declared body _ _ hq)
theorem listings_declared : ∀ (ds : List Decl) (p : List Str) (x : Decl), (p, x) ∈ listings ds → FoundAt ds p x
  | [] => fun _ _ h => by cases h
  | d :: ds => fun _ _ h => by
    rw [listings, List.mem_append] at h
    rcases h with h | h
    · exact declared_mono (by simp) (listing_declared d _ _ h)
    · exact declared_mono (fun _ => List.mem_cons_of_mem _) (listings_declared ds _ _ h)
end

def isAlias : Decl → Bool
  | .alias .. => true
  | _ => false

/-- One of the texts is not declared. -/
def missing (refs : List Str) (ds : List Decl) : Bool := refs.any fun t => (listings ds).all fun e => !(isAlias e.2 && decide (t = joinWith "::".toList e.1))

theorem missing_spec {refs : List Str} {ds : List Decl} (h : missing refs ds = true) : ¬ AllDeclared refs ds := by
  intro ha
  obtain ⟨t, ht, hall⟩ := List.any_eq_true.1 h
  obtain ⟨p, hp, n, o, b, hd⟩ := ha t ht
  have := List.all_eq_true.1 hall _ (declared_listed hd)
  simp [isAlias, hp] at this

/-- Something declared does not name its place as its base. -/
def astray (ds : List Decl) : Bool := (listings ds).any fun e => decide (declBase e.2 ≠ some (joinWith "::".toList e.1))

theorem astray_spec {ds ds0 : List Decl} (h : astray ds = true) : ¬ ExtendsAll ds ds0 := by
  intro ha
  obtain ⟨⟨p, d⟩, he, hn⟩ := List.any_eq_true.1 h
  obtain ⟨_, _, _, h3⟩ := ha p d (listings_declared ds _ _ he)
  exact of_decide_eq_true hn h3

/-- All elements are used. -/
def sampleCfg (lv : Level) (main : Bool) : OptCfg := ⟨lv, "S".toList, main, fun _ _ => true, fun _ _ => true, fun _ => "Fac".toList⟩

open Sample in
/-- A frame with a field defined in a layer, an interface, a message sent by the client and global fields; `name` is the one of the schema. -/
def docs : List Xml := [schemaEl "S" [
  el "fields" [] [el "bundle" [("name", "b")] [el "string" [("name", "s")] [el "lengthPrefix" [] [el "int" [("name", "l"), ("type", "uint8")]]],
    el "data" [("name", "d"), ("length", "4")], el "list" [("name", "li")] [el "int" [("name", "e"), ("type", "uint8"), ("customizable", "true")]]]],
  nsEl "A" [el "message" [("name", "m"), ("id", "1"), ("displayName", "m"), ("sender", "client")] [el "string" [("name", "t")]],
    el "interface" [("name", "i")] [el "string" [("name", "u")]],
    el "frame" [("name", "f")] [el "size" [("name", "sz")] [el "int" [("name", "n"), ("type", "uint8"), ("customizable", "true")]], el "payload" [("name", "p")]]]]]

def isStringField : Field → Bool
  | .string .. => true
  | _ => false

end CustomProofs

/-- The hypotheses of the theorems are met: a global bundle with a string, data and a list, a message of the client, and a frame. The string, the data, the list and the element of the list
    are referred to, and all are declared. -/
example : ∃ p s, Reachable fo0 p ∧ p.validated = true ∧ p.schemas[0]? = some s ∧
    (decide (s.fields.length = 1) && (s.fields.all fun e => decide ((fieldRefs (sampleCfg .limited true) (nsChain e.1) e.2).length = 4)) &&
      (s.messages.any fun e => decide (e.2.sender = .client) && decide (messageRefs (sampleCfg .limited true) (nsChain e.1) e.2 =
        ["S::A::message::MFields::T".toList, "S::A::message::M".toList])) &&
      (s.frames.any fun e => e.2.layers.any fun l => decide (layerRefs (sampleCfg .limited true) ({ ty := .frame, name := e.2.name } :: nsChain e.1) l =
        ["S::A::frame::FLayers::PMembers::Field".toList]))) = true :=
  schemaIs_spec (docs := docs) (by decide +kernel)

/-- A field inside another one, as `C108_sequences` is about. -/
example (c : Common) (st : SeqState Char) (ms : List Field) (al : List Alias) (cd : Option CondM.Cond) :
    FieldWay (.bundle c (.string c st .none :: ms) al cd) [c.name] (.string c st .none) := .inner (.member List.mem_cons_self) .self

/-- The options of the field of a layer are not declared, although the code of the layer refers to them: the struct for the fields of the layer stays empty. -/
theorem C108_layer_witness : ∃ p s, Reachable fo0 p ∧ p.validated = true ∧ p.schemas[0]? = some s ∧ ∃ q f l, (q, f) ∈ s.frames ∧ l ∈ f.layers ∧
    ¬ AllDeclared (layerFieldRefs (sampleCfg .limited false) ({ ty := .frame, name := f.name } :: nsChain q) l) (optionsBody (sampleCfg .limited false) .dflt (buildSchema s)) := by
  obtain ⟨p, s, h1, h2, h3, h4⟩ := schemaIs_spec (docs := docs) (n := 0) (P := fun s => s.frames.any fun e => e.2.layers.any fun l =>
    missing (layerFieldRefs (sampleCfg .limited false) ({ ty := .frame, name := e.2.name } :: nsChain e.1) l) (optionsBody (sampleCfg .limited false) .dflt (buildSchema s)))
    (by decide +kernel)
  obtain ⟨⟨q, f⟩, hf, h5⟩ := List.any_eq_true.1 h4
  obtain ⟨l, hl, h6⟩ := List.any_eq_true.1 h5
  exact ⟨p, s, h1, h2, h3, q, f, l, hf, hl, missing_spec h6⟩

/-- The options of the fields of an interface are not declared; with the default customization level a string field is enough for the code to refer to them. -/
theorem C108_interface_witness : ∃ p s, Reachable fo0 p ∧ p.validated = true ∧ p.schemas[0]? = some s ∧ ∃ q i, (q, i) ∈ s.ifaces ∧
    (∀ f ∈ i.fields, isStringField f = true) ∧
    ¬ AllDeclared (ifaceRefs (sampleCfg .limited false) (nsChain q) i) (optionsBody (sampleCfg .limited false) .dflt (buildSchema s)) := by
  obtain ⟨p, s, h1, h2, h3, h4⟩ := schemaIs_spec (docs := docs) (n := 0) (P := fun s => s.ifaces.any fun e => (e.2.fields.all isStringField) &&
    missing (ifaceRefs (sampleCfg .limited false) (nsChain e.1) e.2) (optionsBody (sampleCfg .limited false) .dflt (buildSchema s)))
    (by decide +kernel)
  obtain ⟨⟨q, f⟩, hf, h5⟩ := List.any_eq_true.1 h4
  obtain ⟨h6, h7⟩ := Bool.and_eq_true_iff.1 h5
  exact ⟨p, s, h1, h2, h3, q, f, hf, List.all_eq_true.1 h6, missing_spec h7⟩

/-- The base of the options of a payload field is named without the main namespace, even when that is part of the options: there is no such type. -/
theorem C108_payload_witness : ∃ p s, Reachable fo0 p ∧ p.validated = true ∧ p.schemas[0]? = some s ∧
    ¬ ExtendsAll (optionsBody (sampleCfg .limited true) .dataView (buildSchema s)) (optionsBody (sampleCfg .limited true) .dflt (buildSchema s)) := by
  obtain ⟨p, s, h1, h2, h3, h4⟩ := schemaIs_spec (docs := docs) (n := 0) (P := fun s => astray (optionsBody (sampleCfg .limited true) .dataView (buildSchema s))) (by decide +kernel)
  exact ⟨p, s, h1, h2, h3, astray_spec h4⟩

end Commsdsl.Props
