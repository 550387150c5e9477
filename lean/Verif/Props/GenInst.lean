import Verif.Model.GenInst
import Verif.Props.GenScopeFields
import Verif.Props.GenCustom
import Verif.Props.FieldVersions
import Verif.Model.GenSchema
/-!
# C120: how the C, SWIG and emscripten generators name the classes of fields and layers
-/
namespace Commsdsl.Props
open Commsdsl Gen Spec Proto

/-! ## Specification -/

/-- The template argument. -/
def withOpts (opts n : Str) : Str := n ++ "<".toList ++ opts ++ ">".toList

/-- The structs with the members of the fields around a field, and its class. -/
def innerScopes (outer : List Str) (name : Str) : List Str := (outer.map fun n => className n ++ "Members".toList) ++ [className name]

/-- The namespaces and classes to be named to get to the class of a field. The class templates with the parameter for the options are those of global fields, the
    structs with the members of global fields, those with the fields of messages, and those with the layers of frames (CommsField.cpp:1464-1476, 1975-1981,
    CommsMessage.cpp:670, CommsFrame.cpp:241). Inside of them the classes are no templates, and those of interfaces are not either. -/
def instScopes (opts : Str) : Holder → List Str → Str → List Str
  | .global q, [], name => q ++ ["field".toList, withOpts opts (className name)]
  | .global q, o :: outer, name => q ++ ["field".toList, withOpts opts (className o ++ "Members".toList)] ++ innerScopes outer name
  | .message q n, outer, name => q ++ ["message".toList, withOpts opts (className n ++ "Fields".toList)] ++ innerScopes outer name
  | .iface q n, outer, name => q ++ [className n ++ "Fields".toList] ++ innerScopes outer name
  | .layer q f n, outer, name => q ++ ["frame".toList, withOpts opts (className f ++ "Layers".toList), className n ++ "Members".toList] ++ innerScopes outer name

/-! ## Proofs -/

namespace InstProofs

theorem insert (L : List Str) (a t : Str) (B : List Str) :
    joinWith "::".toList (L ++ [a]) ++ t ++ (joinWith "::".toList (L ++ [a] ++ B)).drop (joinWith "::".toList (L ++ [a])).length =
      joinWith "::".toList (L ++ [a ++ t] ++ B) := by
  cases B with
  | nil => rw [List.append_nil, List.append_nil, List.drop_length, List.append_nil, CustomProofs.join_suffix]
  | cons b B =>
    have key : ∀ (L : List Str) (a : Str), joinWith "::".toList (L ++ [a] ++ b :: B) = joinWith "::".toList (L ++ [a]) ++ ("::".toList ++ joinWith "::".toList (b :: B)) := by
      intro L
      induction L with
      | nil => intro a; simp [joinWith]
      | cons x L ih =>
        intro a
        have := ih a
        cases L with
        | nil => simp only [List.cons_append, List.nil_append, joinWith, List.append_assoc] at this ⊢
        | cons y L => simp only [List.cons_append, List.nil_append, joinWith, List.append_assoc] at this ⊢; rw [this]
    rw [key L a, key L (a ++ t), List.drop_left, ← CustomProofs.join_suffix, List.append_assoc]

/-- A field around the field. -/
abbrev fel (n : Str) : GElem := { ty := .field, name := n }

theorem around_ty (h : Holder) (hh : ∀ q, h ≠ .global q) : ∀ (l : List Str), ∃ t, parentTy ((l.map fel) ++ h.chain) = some t ∧ t ≠ .ns
  | x :: l => ⟨.field, rfl, by simp⟩
  | [] => by
    cases h with
    | global q => exact absurd rfl (hh q)
    | message q n => exact ⟨.message, rfl, by simp⟩
    | iface q n => exact ⟨.iface, rfl, by simp⟩
    | layer q f n => exact ⟨.layer, rfl, by simp⟩

theorem global_ty (q : Path) : parentTy (Holder.global q).chain = some .ns := by
  show parentTy (if q.isEmpty then [{ ty := .ns, name := [] }] else (q.map fun n => { ty := .ns, name := n }).reverse) = some .ns
  split
  · rfl
  · rename_i h
    cases hq : (q.map fun n => ({ ty := .ns, name := n } : GElem)).reverse with
    | nil => simp at hq; simp [hq] at h
    | cons e r =>
      have : e ∈ (q.map fun n => ({ ty := .ns, name := n } : GElem)).reverse := by rw [hq]; simp
      simp at this
      obtain ⟨n, -, rfl⟩ := this
      rfl

theorem chainOf_ty (k : EType) (q : Path) (n : Str) : ∃ up, chainOf k q n = { ty := k, name := n } :: up ∧ parentTy up = some .ns := by
  refine ⟨_, rfl, ?_⟩
  exact global_ty q

theorem loop_fields (main opts cs : Str) (h : Holder) (hh : ∀ q, h ≠ .global q) : ∀ (l : List Str),
    instLoop main opts cs ((l.map fel) ++ h.chain) = instLoop main opts cs h.chain
  | [] => rfl
  | x :: l => by
    obtain ⟨t, ht, hn⟩ := around_ty h hh l
    rw [List.map_cons, List.cons_append, instLoop, if_neg (by simp), if_neg, if_neg (by simp), if_neg (by simp), loop_fields main opts cs h hh l]
    rintro ⟨-, hg⟩
    simp only [isGlobalField, ht, Bool.and_eq_true, beq_iff_eq, Option.some.injEq] at hg
    exact hn hg.2

theorem loop_global (main opts cs : Str) (q : Path) (o : Str) : ∀ (l : List Str),
    instLoop main opts cs ((l.map fel) ++ fel o :: (Holder.global q).chain) = formScope main opts cs (fel o :: (Holder.global q).chain) "Members".toList
  | [] => by
    rw [List.map_nil, List.nil_append, instLoop, if_neg (by simp), if_pos]
    exact ⟨rfl, by simp [isGlobalField, global_ty]⟩
  | x :: l => by
    rw [List.map_cons, List.cons_append, instLoop, if_neg (by simp), if_neg, if_neg (by simp), if_neg (by simp), loop_global main opts cs q o l]
    rintro ⟨-, hg⟩
    cases l <;> simp [isGlobalField, parentTy] at hg

theorem ctype_fields (h : Holder) (hh : ∀ q, h ≠ .global q) : ∀ (l : List Str) (e : GElem) (s : Str),
    cTypeLoop (e :: ((l.map fel) ++ h.chain)) s = cTypeLoop ((l.getLast?.map fel).getD e :: h.chain) (if l = [] then s else "Members".toList)
  | [], e, s => rfl
  | x :: l, e, s => by
    rw [List.map_cons, List.cons_append, cTypeLoop]
    simp only [parentTy]
    rw [ctype_fields h hh l]
    cases l with
    | nil => simp
    | cons y l =>
      rw [List.getLast?_cons_cons, List.getLast?_eq_some_getLast (List.cons_ne_nil y l)]
      simp

theorem ctype_global (q : Path) (o : Str) : ∀ (l : List Str) (e : GElem) (s : Str),
    cTypeLoop (e :: ((l.map fel) ++ fel o :: (Holder.global q).chain)) s = (fel o :: (Holder.global q).chain, true, "Members".toList)
  | [], e, s => by
    rw [List.map_nil, List.nil_append, cTypeLoop]
    simp only [parentTy]
    rw [cTypeLoop, global_ty]
  | x :: l, e, s => by
    rw [List.map_cons, List.cons_append, cTypeLoop]
    simp only [parentTy]
    exact ctype_global q o l _ _

theorem member_suffix (L : List Str) (a s : Str) : joinWith "::".toList (L ++ [a]) ++ s = joinWith "::".toList (L ++ [a ++ s]) := CustomProofs.join_suffix _ L a s

theorem opts_eq (opts n : Str) : withOpts opts n = n ++ optParams opts := by
  simp [withOpts, optParams]

/-- The scope with the options, given where the class template is. -/
theorem formed (main opts cs : Str) (c : Chain) (suffix : Str) (L : List Str) (a : Str) (B : List Str)
    (h1 : scopeFor main true true c = joinWith "::".toList (L ++ [a])) (h2 : cs = joinWith "::".toList (L ++ [a ++ suffix] ++ B)) :
    formScope main opts cs c suffix = joinWith "::".toList (L ++ [withOpts opts (a ++ suffix)] ++ B) := by
  unfold formScope
  simp only
  rw [h1, member_suffix, h2, insert, opts_eq]

/-- What the loops find. -/
theorem parent_scope (main : Str) (hm : main ≠ []) :
    (∀ (q : Path) (o : Str), (∀ x ∈ q, x ≠ []) → o ≠ [] →
      scopeFor main true true (fel o :: (Holder.global q).chain) = joinWith "::".toList ((main :: q ++ ["field".toList]) ++ [className o])) ∧
    (∀ (q : Path) (n : Str), (∀ x ∈ q, x ≠ []) → n ≠ [] →
      scopeFor main true true (chainOf .message q n) = joinWith "::".toList ((main :: q ++ ["message".toList]) ++ [className n])) ∧
    (∀ (q : Path) (n : Str), (∀ x ∈ q, x ≠ []) → n ≠ [] →
      scopeFor main true true (chainOf .iface q n) = joinWith "::".toList ((main :: q) ++ [className n])) ∧
    (∀ (q : Path) (n : Str), (∀ x ∈ q, x ≠ []) → n ≠ [] →
      scopeFor main true true (chainOf .frame q n) = joinWith "::".toList ((main :: q ++ ["frame".toList]) ++ [className n])) := by
  refine ⟨?_, ?_, ?_, ?_⟩
  · intro q o hq ho
    have := C96_field main hm true (.global q) hq [] o (by simp) ho
    simpa [fieldChain, Holder.scopes] using this
  · intro q n hq hn
    simpa [kindDir] using (C96_other main hm true q hq n hn).1 .message (by simp)
  · intro q n hq hn
    simpa [kindDir] using (C96_other main hm true q hq n hn).1 .iface (by simp)
  · intro q n hq hn
    simpa [kindDir] using (C96_other main hm true q hq n hn).1 .frame (by simp)

theorem field_scope (main : Str) (hm : main ≠ []) (h : Holder) (hn : h.Named) (outer : List Str) (name : Str) (ho : ∀ x ∈ outer, x ≠ []) (hx : name ≠ []) :
    scopeFor main true true (fieldChain h outer name) = joinWith "::".toList (main :: h.scopes [] ++ innerScopes outer name) := by
  rw [C96_field main hm true h hn outer name ho hx]
  simp [innerScopes]

end InstProofs

open InstProofs

/-- C120: SWIG and emscripten name the class of a field by the place where it is declared, with the options where the class template is. -/
theorem C120_field (main opts : Str) (hm : main ≠ []) (h : Holder) (hn : h.Named) (outer : List Str) (name : Str) (ho : ∀ x ∈ outer, x ≠ []) (hx : name ≠ []) :
    fieldInst main opts (fieldChain h outer name) = joinWith "::".toList (main :: instScopes opts h outer name) := by
  have hs := field_scope main hm h hn outer name ho hx
  unfold fieldInst
  simp only
  cases h with
  | global q =>
    cases outer with
    | nil =>
      rw [if_pos (by simp [fieldChain, isGlobalField, global_ty]), hs]
      simp only [Holder.scopes, innerScopes, List.map_nil, List.nil_append, instScopes]
      rw [member_suffix, ← opts_eq]
      simp
    | cons o outer =>
      rw [if_neg]
      · have e : (fieldChain (.global q) (o :: outer) name).tail = (outer.reverse.map fel) ++ fel o :: (Holder.global q).chain := by
          simp [fieldChain]
        rw [e, loop_global, formed main opts _ _ _ (main :: q ++ ["field".toList]) (className o) (innerScopes outer name)
          ((parent_scope main hm).1 q o hn (ho o (by simp))) (by rw [hs]; simp [Holder.scopes, innerScopes])]
        simp [instScopes]
      · cases hr : outer.reverse <;> simp [fieldChain, isGlobalField, parentTy, hr]
  | message q n =>
    have hh : ∀ p, Holder.message q n ≠ .global p := by simp
    rw [if_neg]
    · have e : (fieldChain (.message q n) outer name).tail = (outer.reverse.map fel) ++ (Holder.message q n).chain := rfl
      rw [e, loop_fields _ _ _ _ hh]
      obtain ⟨up, hu, hp⟩ := chainOf_ty .message q n
      have hc : (Holder.message q n).chain = chainOf .message q n := rfl
      rw [hc, hu, instLoop, if_neg (by simp), if_neg (by simp), if_pos rfl, ← hu,
        formed main opts _ _ _ (main :: q ++ ["message".toList]) (className n) (innerScopes outer name)
          ((parent_scope main hm).2.1 q n hn.1 hn.2) (by rw [hs]; simp [Holder.scopes])]
      simp [instScopes]
    · obtain ⟨t, ht, hnn⟩ := around_ty (.message q n) hh outer.reverse
      simp only [fieldChain, isGlobalField, ht, Bool.and_eq_true, beq_iff_eq, Option.some.injEq]
      exact fun hg => hnn hg.2
  | iface q n =>
    have hh : ∀ p, Holder.iface q n ≠ .global p := by simp
    rw [if_neg]
    · have e : (fieldChain (.iface q n) outer name).tail = (outer.reverse.map fel) ++ (Holder.iface q n).chain := rfl
      rw [e, loop_fields _ _ _ _ hh]
      obtain ⟨up, hu, hp⟩ := chainOf_ty .iface q n
      have hc : (Holder.iface q n).chain = chainOf .iface q n := rfl
      rw [hc, hu, instLoop, if_pos rfl, hs]
      simp [instScopes, Holder.scopes]
    · obtain ⟨t, ht, hnn⟩ := around_ty (.iface q n) hh outer.reverse
      simp only [fieldChain, isGlobalField, ht, Bool.and_eq_true, beq_iff_eq, Option.some.injEq]
      exact fun hg => hnn hg.2
  | layer q f n =>
    have hh : ∀ p, Holder.layer q f n ≠ .global p := by simp
    rw [if_neg]
    · have e : (fieldChain (.layer q f n) outer name).tail = (outer.reverse.map fel) ++ (Holder.layer q f n).chain := rfl
      rw [e, loop_fields _ _ _ _ hh]
      obtain ⟨up, hu, hp⟩ := chainOf_ty .frame q f
      have hc : (Holder.layer q f n).chain = { ty := .layer, name := n } :: chainOf .frame q f := rfl
      rw [hc, instLoop, if_neg (by simp), if_neg (by simp), if_neg (by simp), if_neg (by simp), hu, instLoop, if_neg (by simp), if_neg (by simp), if_neg (by simp),
        if_pos rfl, ← hu,
        formed main opts _ _ _ (main :: q ++ ["frame".toList]) (className f) ((className n ++ "Members".toList) :: innerScopes outer name)
          ((parent_scope main hm).2.2.2 q f hn.1 hn.2.1) (by rw [hs]; simp [Holder.scopes])]
      simp [instScopes]
    · obtain ⟨t, ht, hnn⟩ := around_ty (.layer q f n) hh outer.reverse
      simp only [fieldChain, isGlobalField, ht, Bool.and_eq_true, beq_iff_eq, Option.some.injEq]
      exact fun hg => hnn hg.2

/-- C120: the C interface names the same class. -/
theorem C120_c (main opts : Str) (hm : main ≠ []) (h : Holder) (hn : h.Named) (outer : List Str) (name : Str) (ho : ∀ x ∈ outer, x ≠ []) (hx : name ≠ []) :
    cType main opts (fieldChain h outer name) false = joinWith "::".toList (main :: instScopes opts h outer name) := by
  have hs := field_scope main hm h hn outer name ho hx
  have gen : ∀ (p : Chain) (suffix : Str) (L : List Str) (a : Str) (B : List Str), cTypeLoop (fieldChain h outer name) [] = (p, true, suffix) →
      scopeFor main true true p = joinWith "::".toList (L ++ [a]) → main :: h.scopes [] ++ innerScopes outer name = L ++ [a ++ suffix] ++ B →
      cType main opts (fieldChain h outer name) false = joinWith "::".toList (L ++ [withOpts opts (a ++ suffix)] ++ B) := by
    intro p suffix L a B h1 h2 h3
    unfold cType
    rw [h1]
    simp only
    rw [h2, hs, h3, member_suffix, if_pos trivial, if_neg (by simp), List.append_nil, insert, opts_eq]
  cases h with
  | global q =>
    cases outer with
    | nil =>
      rw [gen (fel name :: (Holder.global q).chain) [] (main :: q ++ ["field".toList]) (className name) []
        (by simp only [fieldChain, List.reverse_nil, List.map_nil, List.nil_append, cTypeLoop, global_ty]) ((parent_scope main hm).1 q name hn hx)
        (by simp [Holder.scopes, innerScopes])]
      simp [instScopes]
    | cons o outer =>
      have e : fieldChain (.global q) (o :: outer) name = fel name :: ((outer.reverse.map fel) ++ fel o :: (Holder.global q).chain) := by
        simp [fieldChain]
      rw [gen (fel o :: (Holder.global q).chain) "Members".toList (main :: q ++ ["field".toList]) (className o) (innerScopes outer name)
        (by rw [e, ctype_global]) ((parent_scope main hm).1 q o hn (ho o (by simp))) (by simp [Holder.scopes, innerScopes])]
      simp [instScopes]
  | message q n =>
    have e : fieldChain (.message q n) outer name = fel name :: ((outer.reverse.map fel) ++ (Holder.message q n).chain) := rfl
    rw [gen (chainOf .message q n) "Fields".toList (main :: q ++ ["message".toList]) (className n) (innerScopes outer name)
      (by rw [e, ctype_fields _ (by simp), cTypeLoop]; rfl) ((parent_scope main hm).2.1 q n hn.1 hn.2) (by simp [Holder.scopes])]
    simp [instScopes]
  | iface q n =>
    have e : fieldChain (.iface q n) outer name = fel name :: ((outer.reverse.map fel) ++ (Holder.iface q n).chain) := rfl
    have h1 : cTypeLoop (fieldChain (.iface q n) outer name) [] = (chainOf .iface q n, false, "Fields".toList) := by
      rw [e, ctype_fields _ (by simp), cTypeLoop]; rfl
    unfold cType
    rw [h1]
    simp only
    have h3 : main :: (Holder.iface q n).scopes [] ++ innerScopes outer name = (main :: q) ++ [className n ++ "Fields".toList] ++ innerScopes outer name := by
      simp [Holder.scopes]
    rw [(parent_scope main hm).2.2.1 q n hn.1 hn.2, hs, h3, member_suffix, if_neg (by simp), if_neg (by simp), List.append_nil, insert]
    simp [instScopes]
  | layer q f n =>
    have e : fieldChain (.layer q f n) outer name = fel name :: ((outer.reverse.map fel) ++ (Holder.layer q f n).chain) := rfl
    obtain ⟨up, hu, hp⟩ := chainOf_ty .frame q f
    have h1 : cTypeLoop (fieldChain (.layer q f n) outer name) [] = (chainOf .frame q f, true, "Layers".toList) := by
      have hc : (Holder.layer q f n).chain = { ty := .layer, name := n } :: chainOf .frame q f := rfl
      rw [e, ctype_fields _ (by simp), hc, cTypeLoop]
      simp only [parentTy]
      rw [hu, cTypeLoop]
      simp only [parentTy]
    rw [gen (chainOf .frame q f) "Layers".toList (main :: q ++ ["frame".toList]) (className f) ((className n ++ "Members".toList) :: innerScopes outer name)
      h1 ((parent_scope main hm).2.2.2 q f hn.1 hn.2.1) (by simp [Holder.scopes])]
    simp [instScopes]

/-- C120: the class inside of a version wrapper, which has `Field` behind its name, is named next to it. -/
theorem C120_wrapped (main opts : Str) (hm : main ≠ []) (h : Holder) (hn : h.Named) (outer : List Str) (name : Str) (ho : ∀ x ∈ outer, x ≠ []) (hx : name ≠ [])
    (hg : outer = [] → ∀ q, h ≠ .global q) :
    cType main opts (fieldChain h outer name) true = baseInst main opts (fieldChain h outer name) true ∧
    ∃ l, instScopes opts h outer name = l ++ [className name] ∧
      baseInst main opts (fieldChain h outer name) true = joinWith "::".toList (main :: l ++ [className name ++ "Field".toList]) := by
  have e : cType main opts (fieldChain h outer name) true = cType main opts (fieldChain h outer name) false ++ "Field".toList := by
    unfold cType; simp
  have hl : ∃ l, instScopes opts h outer name = l ++ [className name] := by
    unfold instScopes
    split
    · rename_i q; exact absurd rfl (hg rfl q)
    all_goals exact ⟨_, by rw [innerScopes, ← List.append_assoc]⟩
  obtain ⟨l, hl⟩ := hl
  refine ⟨?_, l, hl, ?_⟩
  · rw [e, C120_c main opts hm h hn outer name ho hx]
    unfold baseInst
    rw [C120_field main opts hm h hn outer name ho hx, if_pos rfl]
  · unfold baseInst
    rw [C120_field main opts hm h hn outer name ho hx, if_pos rfl, hl, ← List.cons_append, member_suffix]

/-- C120: global fields are in no version wrapper, so the above is all there is. -/
theorem C120_global (env : Fld.FEnv) (fuel : Nat) (node : Xml) (f : Fld.Field) (h : Fld.parseField env fuel .top node = .ok f) (g : GVer) :
    isVersionOptional g .other f.since f.depr f.common.w.removed = false := by
  obtain ⟨n, rfl, h⟩ := Fld.parseField_ok h
  obtain ⟨b, c, props, f1, f2, pr⟩ := Fld.parseStep_prep h
  obtain ⟨h1, h2⟩ := VersionProofs.prep_window pr
  have hw : f.since = 0 ∧ f.depr = Versions.notYet := by
    simp only [Fld.ParentInfo.versions, Versions.fieldVersions] at h2
    split at h2
    · cases h2
    split at h2
    · cases h2
    split at h2
    · cases h2
    simp only [Option.bind_eq_bind, Option.bind_eq_some_iff, Option.pure_def, Option.some.injEq] at h2
    obtain ⟨_, -, _, -, e⟩ := h2
    exact ⟨(congrArg Versions.Window.since e).symm, (congrArg Versions.Window.depr e).symm⟩
  rw [hw.1, hw.2]
  unfold isVersionOptional
  split
  · rfl
  split
  · rfl
  rw [if_neg (by simp [Place.since]), if_neg (by simp)]

/-- C120: layers are named inside of the struct with the layers of the frame, which has the options. -/
theorem C120_layer (main opts : Str) (hm : main ≠ []) (q : Path) (hq : ∀ x ∈ q, x ≠ []) (f n : Str) (hf : f ≠ []) (hn : n ≠ []) :
    layerInst main opts ({ ty := .layer, name := n } :: chainOf .frame q f) =
      joinWith "::".toList (main :: q ++ ["frame".toList, withOpts opts (className f ++ "Layers".toList), className n]) := by
  unfold layerInst
  simp only [List.tail_cons]
  have h1 := (parent_scope main hm).2.2.2 q f hq hf
  have h2 := (C96_other main hm true q hq f hf).2.2 n hn
  have h2' : scopeFor main true true ({ ty := .layer, name := n } :: chainOf .frame q f) =
      joinWith "::".toList ((main :: q ++ ["frame".toList]) ++ [className f ++ "Layers".toList] ++ [className n]) := by
    rw [h2]; simp
  rw [h1, member_suffix, h2', insert, ← opts_eq]
  simp

/-- C120 at work: a member of a member of a field of a message, of a global field and of the field of a layer. -/
example : fieldInst "prot".toList "Opts".toList (fieldChain (.message ["a".toList] "msg".toList) ["b".toList, "c".toList] "d".toList) =
      "prot::a::message::MsgFields<Opts>::BMembers::CMembers::D".toList ∧
    cType "prot".toList "Opts".toList (fieldChain (.global []) ["b".toList] "d".toList) true = "prot::field::BMembers<Opts>::DField".toList ∧
    fieldInst "prot".toList "Opts".toList (fieldChain (.layer [] "frm".toList "size".toList) [] "f".toList) =
      "prot::frame::FrmLayers<Opts>::SizeMembers::F".toList ∧
    cType "prot".toList "Opts".toList (fieldChain (.iface [] "i".toList) [] "f".toList) false = "prot::IFields::F".toList := by decide +kernel

end Commsdsl.Props
