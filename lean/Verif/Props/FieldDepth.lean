import Verif.Model.Message
import Verif.Lemmas.FieldParse
import Verif.Lemmas.Sample
/-!
# Parsing ends for documents of any depth (C73)
-/
namespace Commsdsl.Props
open Commsdsl Text Fld Msg

namespace DepthProofs

theorem depth_mem {n c : Xml} (h : c ∈ n.children) : c.depth < n.depth := by
  cases n with
  | elem nm a cs =>
    simp only [Xml.children] at h
    have key : ∀ cs : List Xml, c ∈ cs → c.depth ≤ Xml.depths cs := by
      intro cs
      induction cs with
      | nil => intro h; cases h
      | cons x xs ih =>
        intro h
        rw [Xml.depths]
        rcases List.mem_cons.1 h with rfl | h
        · exact Nat.le_max_left _ _
        · exact Nat.le_trans (ih h) (Nat.le_max_right _ _)
    have := key cs h
    rw [Xml.depth]
    omega
  | text t => simp [Xml.children] at h
  | other => simp [Xml.children] at h

theorem depth_child {n c : Xml} {names : List Str} {b : Bool} (h : c ∈ getChildren n names b) : c.depth < n.depth :=
  depth_mem (List.mem_filter.1 h).1

theorem depth_child2 {n m c : Xml} {names names' : List Str} {b b' : Bool} (h : m ∈ getChildren n names b) (h' : c ∈ getChildren m names' b') :
    c.depth < n.depth := Nat.lt_trans (depth_child h') (depth_child h)

theorem depth_pos (n : Xml) : 0 < n.depth := by cases n <;> simp only [Xml.depth] <;> omega

section
variable {env : FEnv} {ic : IntF.Ctx} {da : Bool} {ch ch' : Xml → Res Field}

theorem prefixAsChild_congr (h : ∀ n, n.depth < ic.node.depth → ch n = ch' n) (key : Str) (cur : Pfx) :
    prefixAsChild ⟨ic, da, ch⟩ key cur = prefixAsChild ⟨ic, da, ch'⟩ key cur := by
  unfold prefixAsChild
  dsimp only [BCtx.node, BCtx.props]
  split
  · rfl
  · rename_i c hc
    have hc : c ∈ getChildren ic.node [key] := by rw [hc]; simp
    split
    · rfl
    · rename_i f hf
      have hf : f ∈ getChildren c := by rw [hf]; simp
      rw [h f (depth_child2 hc hf)]
    · rfl
  · rfl

theorem updatePfx_congr (h : ∀ n, n.depth < ic.node.depth → ch n = ch' n) (key : Str) (cur : Pfx) :
    updatePfx env ⟨ic, da, ch⟩ key cur = updatePfx env ⟨ic, da, ch'⟩ key cur := by
  have e : prefixFromRef env ⟨ic, da, ch⟩ key cur = prefixFromRef env ⟨ic, da, ch'⟩ key cur := rfl
  unfold updatePfx
  rw [e]
  congr 1
  funext p
  exact prefixAsChild_congr h key p

theorem elementNode_depth {b : BCtx} {n : Xml} (h : elementNode b = .ok (some n)) : n.depth < b.node.depth := by
  unfold elementNode at h
  dsimp only at h
  split at h
  · cases h
  · split at h
    · cases h
    · split at h
      · rename_i t ht
        split at h
        · cases h
        · split at h
          · cases h
          · cases h
            exact depth_child (names := fieldTypes) (b := false) (by rw [ht]; simp)
      · cases h
      · split at h
        · cases h
        · rename_i c cs hc
          split at h
          · cases h
          · split at h
            · split at h
              · rename_i f fs hf
                cases h
                exact depth_child2 (names := ["element".toList]) (b := false) (names' := []) (b' := false) (m := c) (by rw [hc]; simp) (by rw [hf]; simp)
              · cases h
            · split at h <;> cases h

theorem elementAsChild_congr (h : ∀ n, n.depth < ic.node.depth → ch n = ch' n) (cur : Slot Field) :
    elementAsChild ⟨ic, da, ch⟩ cur = elementAsChild ⟨ic, da, ch'⟩ cur := by
  have e : elementNode ⟨ic, da, ch⟩ = elementNode ⟨ic, da, ch'⟩ := rfl
  unfold elementAsChild
  rw [e]
  cases hn : elementNode ⟨ic, da, ch'⟩ with
  | err => rfl
  | ub => rfl
  | ok n =>
    cases n with
    | none => rfl
    | some n =>
      have := h n (elementNode_depth hn)
      simp only [Res.bind_ok, this]

theorem listImpl_congr (h : ∀ n, n.depth < ic.node.depth → ch n = ch' n) (st : ListState) (sl : ListSlots) :
    listImpl env ⟨ic, da, ch⟩ st sl = listImpl env ⟨ic, da, ch'⟩ st sl := by
  have e1 : ∀ c, updateElement env ⟨ic, da, ch⟩ c = updateElement env ⟨ic, da, ch'⟩ c := by
    intro c
    have e : elementFromRef env ⟨ic, da, ch⟩ c = elementFromRef env ⟨ic, da, ch'⟩ c := rfl
    unfold updateElement
    rw [e]
    simp only [elementAsChild_congr h]
  have e2 : ∀ sl st, updateCount ⟨ic, da, ch⟩ sl st = updateCount ⟨ic, da, ch'⟩ sl st := fun _ _ => rfl
  have e3 : ∀ e st, updateElemFixed ⟨ic, da, ch⟩ e st = updateElemFixed ⟨ic, da, ch'⟩ e st := fun _ _ => rfl
  simp only [listImpl, e1, e2, e3, updateCountPrefix, updateLengthPrefix, updateElemLenPrefix, updateTermSuffix, updatePfx_congr h]

theorem seqUpdateValid_congr {α : Type} {val : Str → Option (List α)} {lt : α → α → Bool} (st : SeqState α) :
    seqUpdateValid env val lt ⟨ic, da, ch⟩ st = seqUpdateValid env val lt ⟨ic, da, ch'⟩ st := by
  have e : ∀ (ns : List Xml) (st : SeqState α), validChildren env val ⟨ic, da, ch⟩ ns st = validChildren env val ⟨ic, da, ch'⟩ ns st := by
    intro ns
    induction ns with
    | nil => intro st; rfl
    | cons n ns ih =>
      intro st
      have e : validAsChild env val ⟨ic, da, ch⟩ n st = validAsChild env val ⟨ic, da, ch'⟩ n st := rfl
      unfold validChildren
      rw [e]
      simp only [ih]
  unfold seqUpdateValid
  simp only [e]
  rfl

theorem stringImpl_congr (h : ∀ n, n.depth < ic.node.depth → ch n = ch' n) (st : SeqState Char) (p : Slot Field) :
    stringImpl env ⟨ic, da, ch⟩ st p = stringImpl env ⟨ic, da, ch'⟩ st p := by
  have e : ∀ (st : SeqState Char) p, seqUpdatePrefix env ⟨ic, da, ch⟩ st p = seqUpdatePrefix env ⟨ic, da, ch'⟩ st p := by
    intro st p; simp only [seqUpdatePrefix, updatePfx_congr h]
  unfold stringImpl
  simp only [e, seqUpdateValid_congr (ch := ch) (ch' := ch')]
  rfl

theorem dataImpl_congr (h : ∀ n, n.depth < ic.node.depth → ch n = ch' n) (st : SeqState Nat) (p : Slot Field) :
    dataImpl env ⟨ic, da, ch⟩ st p = dataImpl env ⟨ic, da, ch'⟩ st p := by
  have e : ∀ (st : SeqState Nat) p, seqUpdatePrefix env ⟨ic, da, ch⟩ st p = seqUpdatePrefix env ⟨ic, da, ch'⟩ st p := by
    intro st p; simp only [seqUpdatePrefix, updatePfx_congr h]
  unfold dataImpl
  simp only [e, seqUpdateValid_congr (ch := ch) (ch' := ch')]
  rfl

theorem memberNodes_depth {b : BCtx} {types : List Str} {ms : List Field} {ns : List Xml} (h : memberNodes b types ms = .ok (some ns)) :
    ∀ n ∈ ns, n.depth < b.node.depth := by
  unfold memberNodes at h
  dsimp only at h
  split at h
  · cases h
  · split at h
    · cases h
    · split at h
      · split at h
        · split at h <;> cases h
        · split at h
          · cases h
          · cases h
            intro n hn
            exact depth_child hn
      · rename_i m r hm
        split at h
        · cases h
        · cases h
          intro n hn
          exact depth_child2 (names := ["members".toList]) (b := false) (m := m) (by rw [hm]; simp) hn

theorem newMembers_congr {chk : List Field → Field → Res Bool} (ns : List Xml) (h : ∀ n ∈ ns, ch n = ch' n) (acc : List Field) :
    newMembers ⟨ic, da, ch⟩ chk ns acc = newMembers ⟨ic, da, ch'⟩ chk ns acc := by
  induction ns generalizing acc with
  | nil => rfl
  | cons n ns ih =>
    have e := ih fun m hm => h m (by simp [hm])
    unfold newMembers
    simp only [h n (by simp), e]

/-- What follows when new members do not depend on the depth. -/
theorem members_congr {types : List Str} {ms : List Field} {k k' : Option (List Xml) → Res (List Field)}
    (hn : k none = k' none) (hs : ∀ ns, (∀ n ∈ ns, n.depth < ic.node.depth) → k (some ns) = k' (some ns)) :
    (memberNodes ⟨ic, da, ch⟩ types ms >>= k) = (memberNodes ⟨ic, da, ch'⟩ types ms >>= k') := by
  have e : memberNodes ⟨ic, da, ch⟩ types ms = memberNodes ⟨ic, da, ch'⟩ types ms := rfl
  rw [e]
  cases h : memberNodes ⟨ic, da, ch'⟩ types ms with
  | err => rfl
  | ub => rfl
  | ok n =>
    cases n with
    | none => simpa only [Res.bind_ok] using hn
    | some ns => simpa only [Res.bind_ok] using hs ns (memberNodes_depth h)

theorem bitfieldMembers_congr (h : ∀ n, n.depth < ic.node.depth → ch n = ch' n) (ms : List Field) :
    bitfieldMembers ⟨ic, da, ch⟩ ms = bitfieldMembers ⟨ic, da, ch'⟩ ms := by
  unfold bitfieldMembers
  refine members_congr rfl ?_
  intro ns hns
  unfold bitfieldNew
  have e : ∀ f, sameVersions ⟨ic, da, ch⟩ f = sameVersions ⟨ic, da, ch'⟩ f := fun _ => rfl
  simp only [e, newMembers_congr ns fun n hn => h n (hns n hn)]

theorem bundleMembers_congr (h : ∀ n, n.depth < ic.node.depth → ch n = ch' n) (ms : List Field) :
    bundleMembers env ⟨ic, da, ch⟩ ms = bundleMembers env ⟨ic, da, ch'⟩ ms := by
  unfold bundleMembers
  refine members_congr rfl ?_
  intro ns hns
  have e : ∀ f, hasSameVersion ⟨ic, da, ch⟩ f = hasSameVersion ⟨ic, da, ch'⟩ f := fun _ => rfl
  simp only [bundleAll, bundleNew, e, newMembers_congr ns fun n hn => h n (hns n hn)]

theorem variantMembers_congr (h : ∀ n, n.depth < ic.node.depth → ch n = ch' n) (ms : List Field) :
    variantMembers ⟨ic, da, ch⟩ ms = variantMembers ⟨ic, da, ch'⟩ ms := by
  unfold variantMembers
  refine members_congr rfl ?_
  intro ns hns
  have e : ∀ f, hasSameVersion ⟨ic, da, ch⟩ f = hasSameVersion ⟨ic, da, ch'⟩ f := fun _ => rfl
  simp only [variantAll, variantNew, e, newMembers_congr ns fun n hn => h n (hns n hn)]

theorem optNode_depth {b : BCtx} {n : Xml} (h : optNode b = .ok (some n)) : n.depth < b.node.depth := by
  unfold optNode at h
  dsimp only at h
  split at h
  · cases h
  · split at h
    · cases h
    · split at h
      · rename_i t ht
        split at h
        · cases h
        · split at h
          · cases h
          · cases h
            exact depth_child (names := fieldTypes) (b := false) (by rw [ht]; simp)
      · cases h
      · split at h
        · cases h
        · rename_i c cs hc
          split at h
          · cases h
          · split at h
            · split at h
              · rename_i f fs hf
                cases h
                exact depth_child2 (names := ["field".toList]) (b := false) (names' := []) (b' := false) (m := c) (by rw [hc]; simp) (by rw [hf]; simp)
              · cases h
            · split at h <;> cases h

theorem optionalImpl_congr (h : ∀ n, n.depth < ic.node.depth → ch n = ch' n) (c : Common) (st : OptState) (f : Slot Field) (cd : Option CondM.Cond) :
    optionalImpl env ⟨ic, da, ch⟩ c st f cd = optionalImpl env ⟨ic, da, ch'⟩ c st f cd := by
  have e : ∀ f, optAsChild ⟨ic, da, ch⟩ f = optAsChild ⟨ic, da, ch'⟩ f := by
    intro f
    have e : optNode ⟨ic, da, ch⟩ = optNode ⟨ic, da, ch'⟩ := rfl
    unfold optAsChild
    rw [e]
    cases hn : optNode ⟨ic, da, ch'⟩ with
    | err => rfl
    | ub => rfl
    | ok n =>
      cases n with
      | none => rfl
      | some n =>
        have := h n (optNode_depth hn)
        simp only [Res.bind_ok, this]
  have e2 : ∀ f, optField env ⟨ic, da, ch⟩ f = optField env ⟨ic, da, ch'⟩ f := by
    intro f
    have e3 : optFromRef env ⟨ic, da, ch⟩ f = optFromRef env ⟨ic, da, ch'⟩ f := rfl
    unfold optField
    rw [e3]
    simp only [e]
  unfold optionalImpl
  simp only [e2]
  rfl

theorem parseBody_congr (h : ∀ n, n.depth < ic.node.depth → ch n = ch' n) (f : Field) :
    parseBody env ⟨ic, da, ch⟩ f = parseBody env ⟨ic, da, ch'⟩ f := by
  cases f with
  | string c st p => simp only [parseBody, stringImpl_congr h]
  | data c st p => simp only [parseBody, dataImpl_congr h]
  | list c st e cn l el t => simp only [parseBody, listImpl_congr h]
  | optional c st f cd => simp only [parseBody, optionalImpl_congr h]
  | bitfield c e ms cd =>
    unfold parseBody bitfieldImpl
    simp only [bitfieldMembers_congr h]
    rfl
  | bundle c ms al cd =>
    unfold parseBody bundleImpl
    simp only [bundleMembers_congr h]
    rfl
  | variant c d ms =>
    unfold parseBody variantImpl
    simp only [variantMembers_congr h]
    rfl
  | _ => rfl

end

theorem parseAll_congr {pc pc' : Xml → Res Field} (ns : List Xml) (h : ∀ n ∈ ns, pc n = pc' n) : parseAll pc ns = parseAll pc' ns := by
  induction ns with
  | nil => rfl
  | cons n ns ih =>
    unfold parseAll
    rw [h n (by simp), ih fun m hm => h m (by simp [hm])]

theorem checkReplace_congr {env : FEnv} {pc pc' : ParentInfo → Xml → Res Field} {node : Xml}
    (h : ∀ p n, n.depth < node.depth → pc p n = pc' p n) (f : Field) : checkReplace env pc node f = checkReplace env pc' node f := by
  unfold checkReplace
  split
  · rfl
  · rename_i r hr
    have hr : r ∈ getChildren node ["replace".toList] := by rw [hr]; simp
    rw [parseAll_congr (getChildren r) fun n hn => h _ n (depth_child2 hr hn)]
  · rfl

theorem parseStep_congr {env : FEnv} {pc pc' : ParentInfo → Xml → Res Field} {node : Xml} (parent : ParentInfo)
    (h : ∀ p n, n.depth < node.depth → pc p n = pc' p n) : parseStep env pc parent node = parseStep env pc' parent node := by
  unfold parseStep
  split
  · rfl
  · have e : ∀ props k c f, parseBody env (bodyCtx pc parent node props k c) f = parseBody env (bodyCtx pc' parent node props k c) f :=
      fun props k c f => parseBody_congr (fun n hn => h _ n hn) f
    simp only [checkReplace_congr h, e]

end DepthProofs

open DepthProofs

/-- C73: the result of parsing a field does not depend on the bound of the recursion, as soon as this is at least the depth of the document:
    parsing ends for documents of any depth. -/
theorem C73_depth_suffices (env : FEnv) (fuel : Nat) (parent : ParentInfo) (node : Xml) (h : node.depth ≤ fuel) :
    parseField env fuel parent node = parseField env node.depth parent node := by
  have key : ∀ (d : Nat) (node : Xml), node.depth ≤ d → ∀ fuel fuel' parent, node.depth ≤ fuel → node.depth ≤ fuel' →
      parseField env fuel parent node = parseField env fuel' parent node := by
    intro d
    induction d with
    | zero => intro node h; have := depth_pos node; omega
    | succ d ih =>
      intro node hd fuel fuel' parent h1 h2
      have := depth_pos node
      cases fuel with
      | zero => omega
      | succ fuel =>
        cases fuel' with
        | zero => omega
        | succ fuel' =>
          simp only [parseField]
          apply parseStep_congr
          intro p n hn
          exact ih n (by omega) fuel fuel' p (by omega) (by omega)
  exact key node.depth node (Nat.le_refl _) _ _ _ h (Nat.le_refl _)

/-- A nested document for which the bound matters: too small a bound is an error, the depth of the document is enough. -/
example : Sample.okWith (parseField Sample.env0 1 .top (Sample.el "bundle" [("name", "b")] [Sample.el "int" [("name", "i"), ("type", "uint8")]]))
      (fun _ => true) = false ∧
    Sample.okWith (parseField Sample.env0 2 .top (Sample.el "bundle" [("name", "b")] [Sample.el "int" [("name", "i"), ("type", "uint8")]]))
      (fun f => f.members.length == 1) = true := by
  constructor <;> decide +kernel

/-- C73: what messages, interfaces, layers and namespaces do with the elements inside is what the parser does without any bound. -/
theorem C73_unbounded (env : FEnv) (parent : ParentInfo) (node : Xml) (f : Field) :
    Msg.fieldOf env parent node = .ok f ↔ ∃ d, ∀ fuel, d ≤ fuel → parseField env fuel parent node = .ok f := by
  unfold Msg.fieldOf
  constructor
  · intro h
    exact ⟨node.depth, fun fuel hf => (C73_depth_suffices env fuel parent node hf).trans h⟩
  · rintro ⟨d, h⟩
    have := h (max d node.depth) (Nat.le_max_left _ _)
    rwa [C73_depth_suffices env _ parent node (Nat.le_max_right _ _)] at this

end Commsdsl.Props
