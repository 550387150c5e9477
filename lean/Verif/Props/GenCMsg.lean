import Verif.Props.GenC
import Verif.Model.GenCMsg
/-!
# The functions of the C interface for messages, interfaces and frames: C130
-/
namespace Commsdsl.Props
set_option linter.unusedSimpArgs false
open Commsdsl Gen Spec CProofs

namespace CProofs

theorem Covers.whole {P : Str → Prop} {l : List CDecl} {d : List CFunc} (h : declared l = d) : Covers P l d := by
  intro fn hf; rw [h] at hf; exact .inl hf

theorem msg_same (m : CMsg) : m.declares = m.defines := rfl

theorem frm_same (f : CFrm) : declared (.type f.name :: (f.declares.map .func ++ .type f.values :: f.declaresRest.map .func)) = f.defines := by
  show declared (f.declares.map .func ++ .type f.values :: f.declaresRest.map .func) = f.defines
  rw [declared_append, declared_map]
  show _ ++ declared (f.declaresRest.map .func) = _
  rw [declared_map]
  simp only [CFrm.declares, CFrm.declaresRest, CFrm.defines, List.append_assoc, List.cons_append, List.nil_append]

theorem layers_plain {st : Str} (ls : List CLay) (h : ∀ l ∈ ls, ∀ g ∈ withinAll l.owns, g.head.verOpt = false ∧ ¬ isOptional g) :
    declared (ls.flatMap (CLay.header st)) = ls.flatMap (CLay.source st) := by
  induction ls with
  | nil => rfl
  | cons l ls ih =>
    rw [List.flatMap_cons, List.flatMap_cons, declared_append, ih fun x hx => h x (List.mem_cons_of_mem _ hx)]
    congr 1
    show declared (headersOf st l.owns ++ _) = sourcesOf st l.owns ++ l.code
    rw [declared_append, plain_all st _ (h l (List.mem_cons_self ..))]
    exact congrArg _ (declared_map _)

theorem layers_cover {st : Str} {P : Str → Prop} (ls : List CLay) (h : ∀ l ∈ ls, ∀ g ∈ withinAll l.owns, ∀ s, misspelt g s → P s) :
    Covers P (ls.flatMap (CLay.header st)) (ls.flatMap (CLay.source st)) := by
  induction ls with
  | nil => intro fn hf; cases hf
  | cons l ls ih =>
    rw [List.flatMap_cons, List.flatMap_cons]
    refine Covers.append ?_ (ih fun x hx => h x (List.mem_cons_of_mem _ hx))
    refine Covers.append (((coversAll st l.owns).mono ?_)) (Covers.typed _ (Covers.same _))
    intro s ⟨g, hg, hm⟩
    exact h l (List.mem_cons_self ..) g hg s hm

theorem known_middle {K : Str → Prop} {a b : List CDecl} {n : Str} (ha : TypesKnown K a) (hb : TypesKnown (fun s => (K s ∨ .type s ∈ a) ∨ s = n) b) :
    TypesKnown K (a ++ .type n :: b) := known_append ha (known_type hb)

theorem known_layer {st : Str} {K : Str → Prop} (hs : Std st K) (l : CLay) (hv : ∀ g ∈ withinAll l.owns, ¬ optionalSpecials g)
    (hu : ∀ g ∈ withinAll l.owns, ∀ s, usesField g s → K s) (hp : ∀ s, l.pseudo = some s → K s ∨ .type s ∈ headersOf st l.owns) : TypesKnown K (l.header st) := by
  unfold CLay.header
  refine known_middle (typesAll st _ K hs hv hu) (known_funcs ?_)
  intro fn hf
  unfold CLay.code at hf
  cases hps : l.pseudo with
  | none => rw [hps] at hf; cases hf
  | some x =>
    rw [hps] at hf
    simp only [List.mem_cons, List.not_mem_nil, or_false] at hf
    subst hf
    intro t ht
    simp only [List.mem_cons, List.not_mem_nil, or_false, cPtr] at ht
    rcases ht with rfl | rfl
    · exact .inl (hp x hps)
    · exact .inr rfl

theorem known_layers {st : Str} {K : Str → Prop} (hs : Std st K) (ls : List CLay) (hv : ∀ l ∈ ls, ∀ g ∈ withinAll l.owns, ¬ optionalSpecials g)
    (hu : ∀ l ∈ ls, ∀ g ∈ withinAll l.owns, ∀ s, usesField g s → K s)
    (hp : ∀ l ∈ ls, ∀ s, l.pseudo = some s → K s ∨ .type s ∈ headersOf st l.owns) : TypesKnown K (ls.flatMap (CLay.header st)) := by
  induction ls with
  | nil => exact known_nil
  | cons l ls ih =>
    rw [List.flatMap_cons]
    refine known_append (known_layer hs l (hv l (List.mem_cons_self ..)) (hu l (List.mem_cons_self ..)) (hp l (List.mem_cons_self ..))) ?_
    exact known_mono (ih (fun x hx => hv x (List.mem_cons_of_mem _ hx)) (fun x hx => hu x (List.mem_cons_of_mem _ hx)) (fun x hx => hp x (List.mem_cons_of_mem _ hx)))
      fun _ => .inl

theorem assigns_names (ls : List CLay) : ∀ i, (assignsFrom i ls).map (·.1) = (ls.flatMap CLay.members).map (·.2) := by
  induction ls with
  | nil => intro i; rfl
  | cons l ls ih =>
    intro i
    simp only [assignsFrom, List.map_append, List.flatMap_cons, ih]
    congr 1
    unfold CLay.assigns CLay.members
    cases l.value <;> rfl

theorem assigns_idx (ls : List CLay) : ∀ i e, e ∈ assignsFrom i ls → ∃ k l, e.2 = i + k ∧ ls[k]? = some l ∧ e.1 ∈ l.members.map (·.2) := by
  induction ls with
  | nil => intro i e he; cases he
  | cons l ls ih =>
    intro i e he
    rcases List.mem_append.1 he with h | h
    · refine ⟨0, l, ?_, rfl, ?_⟩ <;> unfold CLay.assigns at h <;> unfold CLay.members at * <;> cases hv : l.value <;> rw [hv] at h <;>
        simp only [List.mem_cons, List.not_mem_nil, or_false] at h
      · rw [h]; rfl
      · rcases h with rfl | rfl <;> rfl
      · rw [h]; simp
      · rcases h with rfl | rfl <;> simp
    · obtain ⟨k, l', h1, h2, h3⟩ := ih (i + 1) e h
      exact ⟨k + 1, l', by omega, h2, h3⟩

end CProofs

/-! ## C130 -/

/-- C130: for a message whose fields are not `<optional>` and cannot be missing because of their versions, the source file defines exactly the functions of the
    header, in the same order. -/
theorem C130_message_partial (m : CMsg) (h : ∀ g ∈ withinAll m.fields, g.head.verOpt = false ∧ ¬ isOptional g) : m.source = declared m.header := by
  unfold CMsg.header CMsg.source
  rw [declared_append, plain_all _ _ h]
  exact congrArg _ (declared_map _).symm

/-- C130: every function in the header of a message has a definition, unless it is one of those of its fields that have none. -/
theorem C130_message_declared_partial (m : CMsg) (fn : CFunc) (h : fn ∈ declared m.header) :
    fn ∈ m.source ∨ ∃ g ∈ withinAll m.fields, misspelt g fn.name :=
  Covers.append (coversAll _ _) (Covers.typed _ (Covers.same _)) fn h

/-- C130: an interface without fields. -/
theorem C130_interface_partial (i : CIface) (h : i.fields = []) : i.source = declared i.header := by
  unfold CIface.header CIface.source CIface.declares CIface.defines
  rw [h]; rfl

/-- C130: what the header of an interface declares is defined, but for the access to its fields and what is missing of these themselves. -/
theorem C130_interface_declared_partial (i : CIface) (fn : CFunc) (h : fn ∈ declared i.header) :
    fn ∈ i.source ∨ (∃ f ∈ i.fields, fn.name = i.name ++ "_transportField_".toList ++ f.head.acc) ∨ ∃ g ∈ withinAll i.fields, misspelt g fn.name := by
  refine Covers.append (P := fun s => (∃ f ∈ i.fields, s = i.name ++ "_transportField_".toList ++ f.head.acc) ∨ ∃ g ∈ withinAll i.fields, misspelt g s)
    ((coversAll i.status i.fields).mono fun s hs => .inr hs) (Covers.typed i.name (d := i.defines) ?_) fn h
  intro fn hf
  rw [declared_map] at hf
  rcases List.mem_append.1 hf with hf | hf
  · obtain ⟨f, hfm, rfl⟩ := List.mem_map.1 hf
    exact .inr (.inl ⟨f, hfm, by simp [cJoin]⟩)
  · exact .inl (List.mem_append_right _ hf)

/-- C130: a frame, if the fields of its layers are not `<optional>` and cannot be missing. -/
theorem C130_frame_partial (f : CFrm) (h : ∀ l ∈ f.layers, ∀ g ∈ withinAll l.owns, g.head.verOpt = false ∧ ¬ isOptional g) : f.source = declared f.header := by
  unfold CFrm.header CFrm.source
  rw [declared_append, layers_plain _ h, frm_same]

/-- C130: every function in the header of a frame has a definition, unless it is one of those of the fields of its layers that have none. -/
theorem C130_frame_declared_partial (f : CFrm) (fn : CFunc) (h : fn ∈ declared f.header) :
    fn ∈ f.source ∨ ∃ l ∈ f.layers, ∃ g ∈ withinAll l.owns, misspelt g fn.name :=
  Covers.append (P := fun s => ∃ l ∈ f.layers, ∃ g ∈ withinAll l.owns, misspelt g s)
    (layers_cover f.layers fun l hl g hg _ hm => ⟨l, hl, g, hg, hm⟩) (Covers.whole (frm_same f)) fn h

/-- C130: the values a frame reports are exactly those it has members for, in this order, each of them taken from the field at the place its layer has. -/
theorem C130_values (f : CFrm) :
    f.assigns.map (·.1) = f.members.map (·.2) ∧ ∀ e ∈ f.assigns, ∃ l, f.layers[e.2]? = some l ∧ e.1 ∈ l.members.map (·.2) := by
  refine ⟨assigns_names _ 0, fun e he => ?_⟩
  obtain ⟨k, l, h1, h2, h3⟩ := assigns_idx _ 0 e he
  exact ⟨l, by rw [h1, Nat.zero_add]; exact h2, h3⟩

/-- C130: the types in the header of a message -/
theorem C130_message_types_partial (m : CMsg) (h : ∀ g ∈ withinAll m.fields, ¬ optionalSpecials g) :
    TypesKnown (fun s => s ∈ builtin ∨ s = m.status ∨ s = m.iface ∨ s = m.msgId ∨ ∃ g ∈ withinAll m.fields, usesField g s) m.header := by
  have hs : Std m.status (fun s => s ∈ builtin ∨ s = m.status ∨ s = m.iface ∨ s = m.msgId ∨ ∃ g ∈ withinAll m.fields, usesField g s) :=
    ⟨.inr (.inl rfl), fun _ => .inl⟩
  refine known_middle (typesAll _ _ _ hs h fun g hg _ hu => .inr (.inr (.inr (.inr ⟨g, hg, hu⟩)))) (known_funcs ?_)
  obtain ⟨h0, h1, h2, h3, h4, h5⟩ := std_list (hs.mono (L := fun s => (_ ∨ .type s ∈ headersOf m.status m.fields) ∨ s = m.name) fun _ h => .inl (.inl h))
  have hi : ((m.iface ∈ builtin ∨ m.iface = m.status ∨ m.iface = m.iface ∨ m.iface = m.msgId ∨ ∃ g ∈ withinAll m.fields, usesField g m.iface) ∨
    .type m.iface ∈ headersOf m.status m.fields) ∨ m.iface = m.name := .inl (.inl (.inr (.inr (.inl rfl))))
  have hm : ((m.msgId ∈ builtin ∨ m.msgId = m.status ∨ m.msgId = m.iface ∨ m.msgId = m.msgId ∨ ∃ g ∈ withinAll m.fields, usesField g m.msgId) ∨
    .type m.msgId ∈ headersOf m.status m.fields) ∨ m.msgId = m.name := .inl (.inl (.inr (.inr (.inr (.inl rfl)))))
  intro fn hf
  simp only [CMsg.declares, List.mem_append, List.mem_cons, List.not_mem_nil, or_false, List.mem_map] at hf
  rcases hf with (hf | ⟨f, hfm, rfl⟩) | hf
  · rcases hf with rfl | rfl <;> intro t ht <;> simp only [List.mem_cons, List.not_mem_nil, or_false, cPtr] at ht <;> rcases ht with rfl | rfl <;>
      first | exact hi | exact .inr rfl
  · intro t ht
    simp only [List.mem_cons, List.not_mem_nil, or_false, cPtr] at ht
    rcases ht with rfl | rfl
    · exact .inl (.inr (own_all _ _ f hfm))
    · exact .inr rfl
  · rcases hf with rfl | rfl | rfl | rfl | rfl | rfl | rfl | rfl <;> intro t ht <;>
      simp only [List.mem_cons, List.not_mem_nil, or_false, cPtr, cConstPtr, cPlain, cIter, cOutIter] at ht
    · rcases ht with rfl | rfl
      · exact hm
      · exact .inr rfl
    · rcases ht with rfl | rfl | rfl | rfl
      · exact h0
      · exact .inr rfl
      · exact h5
      · exact h4
    · rcases ht with rfl | rfl | rfl | rfl
      · exact h0
      · exact .inr rfl
      · exact h5
      · exact h4
    · rcases ht with rfl | rfl
      · exact h4
      · exact .inr rfl
    · rcases ht with rfl | rfl
      · exact h3
      · exact .inr rfl
    · rcases ht with rfl | rfl
      · exact h2
      · exact .inr rfl
    · subst ht; exact .inr rfl
    · rcases ht with rfl | rfl
      · exact h1
      · exact .inr rfl

/-- C130: the types in the header of an interface -/
theorem C130_interface_types_partial (i : CIface) (h : ∀ g ∈ withinAll i.fields, ¬ optionalSpecials g) :
    TypesKnown (fun s => s ∈ builtin ∨ s = i.status ∨ s = i.msgId ∨ s = i.handler ∨ ∃ g ∈ withinAll i.fields, usesField g s) i.header := by
  generalize hK : (fun s => s ∈ builtin ∨ s = i.status ∨ s = i.msgId ∨ s = i.handler ∨ ∃ g ∈ withinAll i.fields, usesField g s) = K
  have hKs : ∀ s, (s ∈ builtin ∨ s = i.status ∨ s = i.msgId ∨ s = i.handler ∨ ∃ g ∈ withinAll i.fields, usesField g s) → K s := by
    intro s; rw [← hK]; exact id
  have hs : Std i.status K := ⟨hKs _ (.inr (.inl rfl)), fun s h => hKs s (.inl h)⟩
  have hid : K i.msgId := hKs _ (.inr (.inr (.inl rfl)))
  have hha : K i.handler := hKs _ (.inr (.inr (.inr (.inl rfl))))
  obtain ⟨h0, h1, h2, h3, h4, h5⟩ := std_list hs
  refine known_middle (typesAll _ _ _ hs h fun g hg s hu => hKs s (.inr (.inr (.inr (.inr ⟨g, hg, hu⟩))))) (known_funcs ?_)
  intro fn hf
  simp only [CIface.declares, List.mem_append, List.mem_cons, List.not_mem_nil, or_false, List.mem_map] at hf
  rcases hf with ⟨f, hfm, rfl⟩ | rfl | rfl | rfl | rfl | rfl | rfl | rfl <;> intro t ht <;>
    simp only [List.mem_cons, List.not_mem_nil, or_false, cPtr, cConstPtr, cPlain, cIter, cOutIter, cVoidPtr] at ht
  · rcases ht with rfl | rfl
    · exact .inl (.inr (own_all _ _ f hfm))
    · exact .inr rfl
  · rcases ht with rfl | rfl
    · exact .inl (.inl hid)
    · exact .inr rfl
  · rcases ht with rfl | rfl | rfl | rfl
    · exact .inl (.inl h0)
    · exact .inr rfl
    · exact .inl (.inl h5)
    · exact .inl (.inl h4)
  · rcases ht with rfl | rfl | rfl | rfl
    · exact .inl (.inl h0)
    · exact .inr rfl
    · exact .inl (.inl h5)
    · exact .inl (.inl h4)
  · rcases ht with rfl | rfl
    · exact .inl (.inl h4)
    · exact .inr rfl
  · rcases ht with rfl | rfl
    · exact .inl (.inl h3)
    · exact .inr rfl
  · rcases ht with rfl | rfl
    · exact .inl (.inl h2)
    · exact .inr rfl
  · rcases ht with rfl | rfl | rfl | rfl
    · exact .inl (.inl h1)
    · exact .inr rfl
    · exact .inl (.inl hha)
    · exact .inl (.inl h1)

/-- C130: the types in the header of a frame. The field of a layer with a pseudo field is a global one or its own. -/
theorem C130_frame_types_partial (f : CFrm) (h : ∀ l ∈ f.layers, ∀ g ∈ withinAll l.owns, ¬ optionalSpecials g)
    (hp : ∀ l ∈ f.layers, ∀ s, l.pseudo = some s → (l.field = .ext s) ∨ ∃ g, l.field = .own g ∧ g.head.name = s) :
    TypesKnown (fun s => s ∈ builtin ∨ s = "unsigned".toList ∨ s = f.status ∨ s = f.iface ∨ s = f.msgId ∨ s = f.handler ∨
      ∃ l ∈ f.layers, l.field = .ext s ∨ ∃ g ∈ withinAll l.owns, usesField g s) f.header := by
  generalize hK : (fun s => s ∈ builtin ∨ s = "unsigned".toList ∨ s = f.status ∨ s = f.iface ∨ s = f.msgId ∨ s = f.handler ∨
      ∃ l ∈ f.layers, l.field = .ext s ∨ ∃ g ∈ withinAll l.owns, usesField g s) = K
  have hKs : ∀ s, (s ∈ builtin ∨ s = "unsigned".toList ∨ s = f.status ∨ s = f.iface ∨ s = f.msgId ∨ s = f.handler ∨
      ∃ l ∈ f.layers, l.field = .ext s ∨ ∃ g ∈ withinAll l.owns, usesField g s) → K s := by intro s; rw [← hK]; exact id
  have hs : Std f.status K := ⟨hKs _ (.inr (.inr (.inl rfl))), fun s h => hKs s (.inl h)⟩
  have hun : K "unsigned".toList := hKs _ (.inr (.inl rfl))
  have hif : K f.iface := hKs _ (.inr (.inr (.inr (.inl rfl))))
  have hid : K f.msgId := hKs _ (.inr (.inr (.inr (.inr (.inl rfl)))))
  have hha : K f.handler := hKs _ (.inr (.inr (.inr (.inr (.inr (.inl rfl))))))
  obtain ⟨h0, h1, h2, h3, h4, h5⟩ := std_list hs
  unfold CFrm.header
  refine known_middle (known_layers hs _ h (fun l hl g hg s hu => hKs s (.inr (.inr (.inr (.inr (.inr (.inr ⟨l, hl, .inr ⟨g, hg, hu⟩⟩))))))) ?_) ?_
  · intro l hl s hps
    rcases hp l hl s hps with h | ⟨g, hg, hn⟩
    · exact .inl (hKs s (.inr (.inr (.inr (.inr (.inr (.inr ⟨l, hl, .inl h⟩)))))))
    · right
      have : l.owns = [g] := by unfold CLay.owns; rw [hg]
      rw [this, ← hn]
      exact own_all _ _ g (List.mem_singleton.2 rfl)
  · refine known_append (known_funcs ?_) (known_type (known_funcs ?_))
    · intro fn hf
      simp only [CFrm.declares, List.mem_append, List.mem_cons, List.not_mem_nil, or_false, List.mem_map] at hf
      rcases hf with ((rfl | rfl) | ⟨l, hl, rfl⟩) | rfl | rfl | rfl <;> intro t ht <;>
        simp only [List.mem_cons, List.not_mem_nil, or_false, cPtr, cConstPtr, cPlain, cVoidPtr] at ht
      · subst ht; exact .inr rfl
      · rcases ht with rfl | rfl
        · exact .inl (.inl h1)
        · exact .inr rfl
      · rcases ht with rfl | rfl
        · refine .inl (.inr (List.mem_flatMap.2 ⟨l, hl, ?_⟩))
          unfold CLay.header
          simp
        · exact .inr rfl
      · rcases ht with rfl | rfl | rfl | rfl
        · exact .inl (.inl hif)
        · exact .inr rfl
        · exact .inl (.inl hid)
        · exact .inl (.inl hun)
      · rcases ht with rfl | rfl
        · exact .inl (.inl h1)
        · exact .inl (.inl hif)
      · rcases ht with rfl | rfl | rfl | rfl | rfl | rfl
        · exact .inl (.inl h4)
        · exact .inr rfl
        · exact .inl (.inl h5)
        · exact .inl (.inl h4)
        · exact .inl (.inl hha)
        · exact .inl (.inl h1)
    · intro fn hf
      simp only [CFrm.declaresRest, List.mem_cons, List.not_mem_nil, or_false] at hf
      rcases hf with rfl | rfl | rfl <;> intro t ht <;>
        simp only [List.mem_cons, List.not_mem_nil, or_false, cPtr, cConstPtr, cPlain, cVoidPtr] at ht
      · rcases ht with rfl | rfl | rfl | rfl | rfl | rfl | rfl
        · exact .inl (.inl (.inl (.inl h4)))
        · exact .inl (.inl (.inr rfl))
        · exact .inl (.inl (.inl (.inl h5)))
        · exact .inl (.inl (.inl (.inl h4)))
        · exact .inl (.inl (.inl (.inl hha)))
        · exact .inl (.inl (.inl (.inl h1)))
        · exact .inr rfl
      · rcases ht with rfl | rfl | rfl | rfl | rfl
        · exact .inl (.inl (.inl (.inl h0)))
        · exact .inl (.inl (.inr rfl))
        · exact .inl (.inl (.inl (.inl hif)))
        · exact .inl (.inl (.inl (.inl h5)))
        · exact .inl (.inl (.inl (.inl h4)))
      · rcases ht with rfl | rfl | rfl
        · exact .inl (.inl (.inl (.inl h4)))
        · exact .inl (.inl (.inr rfl))
        · exact .inl (.inl (.inl (.inl hif)))

/-! ### Cases -/
namespace CSample

def message : CMsg := ⟨"p_message_M".toList, "p_Message".toList, "p_MsgId".toList, status, [bundle, .leaf (hd "n") (.num false [])]⟩
def iface : CIface := ⟨"p_Message".toList, "p_MsgId".toList, "p_MsgHandler".toList, status, [.leaf (hd "Flags") (.set false [])]⟩
def frame : CFrm := ⟨"p_frame_F".toList, "p_Message".toList, "p_MsgId".toList, "p_MsgHandler".toList, status, [
  ⟨"p_frame_F_Size".toList, "Size".toList, .own (.leaf (hd "Size") (.num false [])), none, .value { base := "uint16_t".toList }⟩,
  ⟨"p_frame_F_Sync".toList, "Sync".toList, .none, none, .none⟩,
  ⟨"p_frame_F_Ver".toList, "Ver".toList, .ext "p_field_V".toList, some "p_field_V".toList, .value { base := "uint8_t".toList }⟩,
  ⟨"p_frame_F_Data".toList, "Data".toList, .none, none, .payload⟩]⟩

end CSample
open CSample

example : ∀ g ∈ withinAll message.fields, g.head.verOpt = false ∧ ¬ isOptional g ∧ ¬ optionalSpecials g := by
  show ∀ g ∈ withinAll [bundle, .leaf (hd "n") (.num false [])], _
  simp [bundle, within, withinAll, CFld.head, hd, isOptional, optionalSpecials]
/-- The access to the field of an interface has no definition. -/
example : ((declared iface.header).filter fun fn => fn ∉ iface.source).map (fun fn => String.ofList fn.name) = ["p_Message_transportField_Flags"] := by decide +kernel
example : ∀ l ∈ frame.layers, ∀ g ∈ withinAll l.owns, g.head.verOpt = false ∧ ¬ isOptional g ∧ ¬ optionalSpecials g := by
  refine List.forall_mem_cons.2 ⟨?_, List.forall_mem_cons.2 ⟨fun _ h => (nomatch h), List.forall_mem_cons.2 ⟨fun _ h => (nomatch h), List.forall_mem_cons.2
    ⟨fun _ h => (nomatch h), fun _ h => (nomatch h)⟩⟩⟩⟩
  show ∀ g ∈ withinAll [.leaf (hd "Size") (.num false [])], _
  simp [within, withinAll, CFld.head, hd, isOptional, optionalSpecials]
example : ∀ l ∈ frame.layers, ∀ s, l.pseudo = some s → (l.field = .ext s) ∨ ∃ g, l.field = .own g ∧ g.head.name = s := by
  refine List.forall_mem_cons.2 ⟨fun _ h => (nomatch h), List.forall_mem_cons.2 ⟨fun _ h => (nomatch h), List.forall_mem_cons.2 ⟨fun _ h => ?_, List.forall_mem_cons.2
    ⟨fun _ h => (nomatch h), fun _ h => (nomatch h)⟩⟩⟩⟩
  exact .inl (congrArg CLayField.ext (Option.some.inj h))
example : frame.assigns.map (fun e => (String.ofList e.1, e.2)) = [("m_Size", 0), ("m_Ver", 2), ("m_Data", 3), ("m_DataLen", 3)] := by decide +kernel

end Commsdsl.Props
