import Verif.Spec.GenSwig
import Verif.Props.GenUse

/-! C122: the order of the classes in the code for SWIG and of the headers in its definitions. -/

namespace Commsdsl.Props

open Commsdsl.Gen Commsdsl.Spec

namespace SwigProofs

/-- The interface of a message is called before the message. -/
def MainFirst (steps : List SStep) : Prop := ∀ a h m b, steps = a ++ .message h (some m) :: b → SStep.iface m ∈ a

open UseProofs

theorem inner_slots {f : UField} {s : USlot UField} (h : s ∈ swigInner f) : s ∈ slots f := by
  cases f with
  | plain => cases h
  | string => cases h
  | data => cases h
  | bitfield => exact h
  | bundle => exact h
  | variant => exact h
  | list => exact List.mem_cons.2 (.inl (List.mem_singleton.1 h))
  | ref => exact h
  | optional => exact h

theorem member_det {f x y : UField} {p : List Nat} (h : MemberAt f p x) (h' : MemberAt f p y) : x = y := by
  induction h with
  | refl => cases h'; rfl
  | step hs _ ih =>
    cases h' with
    | step hs' h' =>
      cases hs.symm.trans hs'
      exact ih h'

theorem member_snoc {f x g : UField} {p : List Nat} {i : Nat} (h : MemberAt f p x) (hs : (swigInner x)[i]? = some (.own g)) : MemberAt f (p ++ [i]) g := by
  induction h with
  | refl => exact .step hs (.refl _)
  | step h1 _ ih => exact .step h1 (ih hs)

theorem class_sub {find : Str → Option UField} {steps : List SStep} {c : SCls} {f g : UField} {i : Nat} (h : ClassOf find steps c f)
    (hs : (swigInner f)[i]? = some (.own g)) : ClassOf find steps (c.sub i) g := by
  cases h with
  | global hf hm => exact .global hf (member_snoc hm hs)
  | iface hh hf hm => exact .iface (p := _ ++ [i]) hh hf (member_snoc hm hs)
  | message hh hf hm => exact .message (p := _ ++ [i]) hh hf (member_snoc hm hs)
  | layer hh hf hm => exact .layer (p := _ ++ [i]) hh hf (member_snoc hm hs)

theorem filterMap_nodup {α β : Type} {k : α → Option β} : ∀ {l : List α}, (l.filterMap k).Nodup → ∀ {x y : α} {b : β}, x ∈ l → y ∈ l → k x = some b →
    k y = some b → x = y
  | [], _, _, _, _, h, _, _, _ => nomatch h
  | a :: l, hn, x, y, b, hx, hy, kx, ky => by
    have mem : ∀ z ∈ l, k z = some b → b ∈ l.filterMap k := fun z hz kz => List.mem_filterMap.2 ⟨z, hz, kz⟩
    rcases List.mem_cons.1 hx with hxa | hx'
    · rcases List.mem_cons.1 hy with hya | hy'
      · rw [hxa, hya]
      · rw [← hxa, List.filterMap_cons_some kx, List.nodup_cons] at hn
        exact absurd (mem y hy' ky) hn.1
    · rcases List.mem_cons.1 hy with hya | hy'
      · rw [← hya, List.filterMap_cons_some ky, List.nodup_cons] at hn
        exact absurd (mem x hx' kx) hn.1
      · refine filterMap_nodup (l := l) ?_ hx' hy' kx ky
        cases ha : k a with
        | none => rwa [List.filterMap_cons_none ha] at hn
        | some v => rw [List.filterMap_cons_some ha, List.nodup_cons] at hn; exact hn.2

theorem nodup_split {α β : Type} {k : α → Option β} {l r : List α} {s x : α} {b : β} (h : ((l ++ s :: r).filterMap k).Nodup) (hs : k s = some b) (hx : x ∈ l)
    (kx : k x = some b) : False := by
  rw [List.filterMap_append, List.filterMap_cons_some hs] at h
  exact (List.nodup_append.1 h).2.2 b (List.mem_filterMap.2 ⟨x, hx, kx⟩) b (List.mem_cons_self ..) rfl

section
variable {e : SwigEnv} {steps : List SStep}

theorem same_message (ok : SwigOk e steps) {h h' : SHolder} {m m' : Option SHolder} (hh : .message h m ∈ steps) (hh' : .message h' m' ∈ steps)
    (hid : h.id = h'.id) : h = h' ∧ m = m' := by
  have := filterMap_nodup ok.messages hh hh' (b := h.id) rfl (by rw [hid])
  cases this
  exact ⟨rfl, rfl⟩

theorem same_frame (ok : SwigOk e steps) {h h' : SFrame} (hh : .frame h ∈ steps) (hh' : .frame h' ∈ steps) (hid : h.id = h'.id) : h = h' := by
  have := filterMap_nodup ok.frames hh hh' (b := h.id) rfl (by rw [hid])
  cases this
  rfl

theorem class_det (ok : SwigOk e steps) {c : SCls} {f f' : UField} (h : ClassOf e.find steps c f) (h' : ClassOf e.find steps c f') : f = f' := by
  cases h with
  | global hf hm =>
    cases h' with
    | global hf' hm' => cases hf.symm.trans hf'; exact member_det hm hm'
  | @iface hd i f0 p x hh hf hm =>
    generalize hc : (⟨.iface, hd.id, i :: p⟩ : SCls) = c at h'
    cases h' with
    | iface hh' hf' hm' =>
      injection hc with _ h1 h2
      injection h2 with h2 h3
      cases ok.sameIface _ _ hh hh' h1
      subst h2 h3
      cases hf.symm.trans hf'
      exact member_det hm hm'
    | global => cases hc
    | message => cases hc
    | layer => cases hc
  | @message hd m i f0 p x hh hf hm =>
    generalize hc : (⟨.message, hd.id, i :: p⟩ : SCls) = c at h'
    cases h' with
    | message hh' hf' hm' =>
      injection hc with _ h1 h2
      injection h2 with h2 h3
      cases (same_message ok hh hh' h1).1
      subst h2 h3
      cases hf.symm.trans hf'
      exact member_det hm hm'
    | global => cases hc
    | iface => cases hc
    | layer => cases hc
  | @layer fr i f0 p x hh hf hm =>
    generalize hc : (⟨.frame, fr.id, i :: 0 :: p⟩ : SCls) = c at h'
    cases h' with
    | layer hh' hf' hm' =>
      injection hc with _ h1 h2
      injection h2 with h2 h3
      injection h3 with _ h3
      cases same_frame ok hh hh' h1
      subst h2 h3
      cases hf.symm.trans hf'
      exact member_det hm hm'
    | global => cases hc
    | iface => cases hc
    | message => cases hc

theorem class_shape {c : SCls} {f : UField} (h : ClassOf e.find steps c f) :
    c.kind = .global ∨ (c.kind = .iface ∧ c.path ≠ []) ∨ (c.kind = .message ∧ c.path ≠ []) ∨ (c.kind = .frame ∧ ∃ i p, c.path = i :: 0 :: p) := by
  cases h with
  | global => exact .inl rfl
  | iface => exact .inr (.inl ⟨rfl, fun h => (nomatch h)⟩)
  | message => exact .inr (.inr (.inl ⟨rfl, fun h => (nomatch h)⟩))
  | layer => exact .inr (.inr (.inr ⟨rfl, _, _, rfl⟩))

/-- What the class of a field needs. -/
theorem needs_field (ok : SwigOk e steps) {c c' : SCls} {f : UField} (h : ClassOf e.find steps c f) (hn : NeedsCls e.find steps e.out c c') :
    (∃ i g, (swigInner f)[i]? = some (.own g) ∧ c' = c.sub i) ∨ ∃ r, USlot.ext r ∈ swigInner f ∧ c' = globalCls r := by
  have hs := class_shape h
  cases hn with
  | member h' hs => cases class_det ok h h'; exact .inl ⟨_, _, hs, rfl⟩
  | refers h' hs => cases class_det ok h h'; exact .inr ⟨_, hs, rfl⟩
  | ofIface => simp at hs
  | ofMessage => simp at hs
  | main => simp at hs
  | layer => simp at hs
  | layerOwn => simp at hs
  | layerRef => simp at hs
  | frameOwn => simp at hs
  | frameRef => simp at hs

/-- What comes behind what. -/
def Ordered (e : SwigEnv) (steps : List SStep) (out : List SItem) : Prop :=
  ∀ a y b, out = a ++ y :: b → defines y = true → ∀ c', NeedsCls e.find steps e.out (itemCls y) c' → definition e.out c' ∈ a

theorem Ordered.snoc {out : List SItem} (h : Ordered e steps out) (y : SItem)
    (hy : defines y = true → ∀ c', NeedsCls e.find steps e.out (itemCls y) c' → definition e.out c' ∈ out) : Ordered e steps (out ++ [y]) := by
  intro a z b hs hz c' hc
  rcases List.eq_nil_or_concat b with rfl | ⟨b', w, rfl⟩
  · have := List.append_inj_right' hs rfl
    cases this
    have := List.append_inj_left' hs rfl
    subst this
    exact hy hz c' hc
  · rw [List.concat_eq_append, ← List.cons_append, ← List.append_assoc] at hs
    exact h a z b' (List.append_inj_left' hs rfl) hz c' hc

theorem Ordered.append : ∀ (l : List SItem) {out : List SItem}, Ordered e steps out →
    (∀ y ∈ l, defines y = true → ∀ c', NeedsCls e.find steps e.out (itemCls y) c' → definition e.out c' ∈ out) → Ordered e steps (out ++ l)
  | [], out, h, _ => by rw [List.append_nil]; exact h
  | y :: l, out, h, hy => by
    have := Ordered.append l (h.snoc y (hy y (List.mem_cons_self ..))) (fun z hz hd c' hc =>
      List.mem_append_left _ (hy z (List.mem_cons_of_mem _ hz) hd c' hc))
    rwa [List.append_assoc] at this

/-- What holds of the list throughout. -/
structure Inv (e : SwigEnv) (steps : List SStep) (st : SwigSt) : Prop where
  nodup : st.out.Nodup
  flag : ∀ y ∈ st.out, (itemCls y).kind = .global → (itemCls y).owner ∈ st.fields
  order : Ordered e steps st.out

/-- The definition of a global field. -/
def gdef (e : SwigEnv) (r : Str) : SItem := definition e.out (globalCls r)

/-- The fields of a rank less than `B` that are added are complete. -/
def Done (e : SwigEnv) (rank : Str → Nat) (B : Nat) (st : SwigSt) : Prop :=
  ∀ r ∈ st.fields, rank r < B → e.used r = true → gdef e r ∈ st.out

/-- What a step does: it adds items that satisfy `U`, or belong to global fields that it adds. -/
structure Step (e : SwigEnv) (U : SItem → Prop) (st st' : SwigSt) : Prop where
  out : ∃ new, st'.out = st.out ++ new ∧ ∀ y ∈ new, U y ∨ ((itemCls y).kind = .global ∧ (itemCls y).owner ∉ st.fields)
  fields : ∀ r ∈ st.fields, r ∈ st'.fields
  ifaces : st'.ifaces = st.ifaces
  done : ∀ r ∈ st'.fields, r ∈ st.fields ∨ (e.used r = true → gdef e r ∈ st'.out)

/-- A step that goes well: it adds what satisfies `U`, and what satisfies `K` is there afterwards. -/
def Act (e : SwigEnv) (steps : List SStep) (rank : Str → Nat) (B : Nat) (U K : SItem → Prop) (h : SwigSt → Res SwigSt) : Prop :=
  ∀ st, Inv e steps st → Done e rank B st → (∀ y ∈ st.out, ¬U y) → (∀ y, U y → (itemCls y).kind = .global → (itemCls y).owner ∈ st.fields) →
    ∃ st', h st = .ok st' ∧ Inv e steps st' ∧ Step e U st st' ∧ ∀ z, K z → z ∈ st'.out

variable {rank : Str → Nat} {B : Nat}

theorem Step.mem {U : SItem → Prop} {st st' : SwigSt} (h : Step e U st st') {z : SItem} (hz : z ∈ st.out) : z ∈ st'.out := by
  obtain ⟨⟨new, h, _⟩, _⟩ := h
  rw [h]
  exact List.mem_append_left _ hz

theorem Step.doneB {U : SItem → Prop} {st st' : SwigSt} (h : Step e U st st') (hd : Done e rank B st) : Done e rank B st' := by
  intro r hr hb hu
  rcases h.done r hr with h' | h'
  · exact h.mem (hd r h' hb hu)
  · exact h' hu

theorem Step.done_push {U : SItem → Prop} {st st' : SwigSt} (h : Step e U st st') (l : List SItem) :
    ∀ r ∈ (st'.push l).fields, r ∈ st.fields ∨ (e.used r = true → gdef e r ∈ (st'.push l).out) := fun r hr =>
  (h.done r hr).imp id (fun h hu => List.mem_append_left _ (h hu))

theorem Act.nop {U K : SItem → Prop} {h : SwigSt → Res SwigSt} (hh : ∀ st, h st = .ok st) (hk : ∀ z, ¬K z) : Act e steps rank B U K h :=
  fun st hi _ _ _ => ⟨st, hh st, hi, ⟨⟨[], (List.append_nil _).symm, fun _ h => (nomatch h)⟩, fun _ h => h, rfl, fun _ h => .inl h⟩, fun z hz => absurd hz (hk z)⟩

theorem Act.bind {U V K L : SItem → Prop} {h h' : SwigSt → Res SwigSt} (hd : ∀ y, U y → ¬V y) (ha : Act e steps rank B U K h)
    (ha' : Act e steps rank B V L h') : Act e steps rank B (fun y => U y ∨ V y) (fun z => K z ∨ L z) (fun st => h st >>= h') := by
  intro st hi hdone hf hg
  obtain ⟨s1, h1, i1, t1, k1⟩ := ha st hi hdone (fun y hy h => hf y hy (.inl h)) (fun y hy => hg y (.inl hy))
  obtain ⟨new1, o1, n1⟩ := t1.out
  obtain ⟨s2, h2, i2, t2, k2⟩ := ha' s1 i1 (t1.doneB hdone) (fun y hy hv => by
      rw [o1] at hy
      rcases List.mem_append.1 hy with hy | hy
      · exact hf y hy (.inr hv)
      · rcases n1 y hy with hu | ⟨hk, hn⟩
        · exact hd y hu hv
        · exact hn (hg y (.inr hv) hk)) (fun y hy hk => t1.fields _ (hg y (.inr hy) hk))
  obtain ⟨new2, o2, n2⟩ := t2.out
  refine ⟨s2, ?_, i2, ⟨⟨new1 ++ new2, by rw [o2, o1, List.append_assoc], fun y hy => ?_⟩, fun r hr => t2.fields r (t1.fields r hr),
    t2.ifaces.trans t1.ifaces, fun r hr => ?_⟩, fun z hz => ?_⟩
  · show (h st >>= h') = _
    rw [h1]
    exact h2
  · rcases List.mem_append.1 hy with hy | hy
    · rcases n1 y hy with h | h
      · exact .inl (.inl h)
      · exact .inr h
    · rcases n2 y hy with h | ⟨hk, hn⟩
      · exact .inl (.inr h)
      · exact .inr ⟨hk, fun h => hn (t1.fields _ h)⟩
  · rcases t2.done r hr with h | h
    · rcases t1.done r h with h | h
      · exact .inl h
      · exact .inr (fun hu => t2.mem (h hu))
    · exact .inr h
  · rcases hz with hz | hz
    · exact t2.mem (k1 z hz)
    · exact k2 z hz

theorem Act.weaken {U V K L : SItem → Prop} {h h' : SwigSt → Res SwigSt} (hU : ∀ y, U y → V y) (hK : ∀ z, L z → K z) (he : ∀ st, h' st = h st)
    (ha : Act e steps rank B U K h) : Act e steps rank B V L h' := by
  intro st hi hd hf hg
  obtain ⟨s1, h1, i1, t1, k1⟩ := ha st hi hd (fun y hy h => hf y hy (hU y h)) (fun y hy => hg y (hU y hy))
  obtain ⟨new, o, n⟩ := t1.out
  exact ⟨s1, (he st).trans h1, i1, ⟨⟨new, o, fun y hy => (n y hy).imp (hU y) id⟩, t1.fields, t1.ifaces, t1.done⟩, fun z hz => k1 z (hK z hz)⟩

/-- The class of `y` is `c` or inside it. -/
def Under (c : SCls) (y : SItem) : Prop := (itemCls y).kind = c.kind ∧ (itemCls y).owner = c.owner ∧ ∃ p, (itemCls y).path = c.path ++ p

theorem Under.self {c : SCls} {y : SItem} (h : itemCls y = c) : Under c y := ⟨by rw [h], by rw [h], [], by rw [h, List.append_nil]⟩

theorem Under.sub {c : SCls} {i : Nat} {y : SItem} (h : Under (c.sub i) y) : Under c y := by
  obtain ⟨h1, h2, p, h3⟩ := h
  exact ⟨h1, h2, i :: p, by rw [h3]; simp [SCls.sub]⟩

theorem Under.index {c : SCls} {i j : Nat} {y : SItem} (h : Under (c.sub i) y) (h' : Under (c.sub j) y) : i = j := by
  obtain ⟨_, _, p, h3⟩ := h
  obtain ⟨_, _, q, h4⟩ := h'
  rw [h3] at h4
  simp only [SCls.sub, List.append_assoc, List.cons_append, List.nil_append] at h4
  have := List.append_cancel_left h4
  injection this

theorem Under.ne {c : SCls} {i : Nat} {y : SItem} (h : Under (c.sub i) y) : itemCls y ≠ c := by
  obtain ⟨_, _, p, h3⟩ := h
  intro he
  rw [he] at h3
  have := congrArg List.length h3
  simp [SCls.sub] at this

/-- Adding items. -/
theorem push_ok {l : List SItem} {st : SwigSt} (hi : Inv e steps st) (hn : l.Nodup) (hf : ∀ y ∈ l, y ∉ st.out)
    (hg : ∀ y ∈ l, (itemCls y).kind = .global → (itemCls y).owner ∈ st.fields)
    (ho : ∀ y ∈ l, defines y = true → ∀ c', NeedsCls e.find steps e.out (itemCls y) c' → definition e.out c' ∈ st.out) :
    Inv e steps (st.push l) ∧ Step e (· ∈ l) st (st.push l) := by
  refine ⟨⟨List.nodup_append.2 ⟨hi.nodup, hn, fun a ha b hb hab => hf b hb (hab ▸ ha)⟩, fun y hy hk => ?_, Ordered.append l hi.order ho⟩,
    ⟨l, rfl, fun y hy => .inl hy⟩, fun r hr => hr, rfl, fun r hr => .inl hr⟩
  rcases List.mem_append.1 hy with hy | hy
  · exact hi.flag y hy hk
  · exact hg y hy hk

/-- Items in front of the members. -/
theorem Act.before {l : List SItem} (hn : l.Nodup) (hd : ∀ y ∈ l, defines y = false) :
    Act e steps rank B (· ∈ l) (fun _ => False) (fun st => .ok (st.push l)) := by
  intro st hi _ hf hg
  obtain ⟨i1, t1⟩ := push_ok hi hn (fun y hy h => hf y h hy) hg (fun y hy h => by rw [hd y hy] at h; cases h)
  exact ⟨_, rfl, i1, t1, fun _ h => h.elim⟩

/-- Items behind the members. -/
theorem Act.after {U K : SItem → Prop} {h : SwigSt → Res SwigSt} {l : List SItem} (ha : Act e steps rank B U K h) (hn : l.Nodup) (hU : ∀ y ∈ l, ¬U y)
    (hk : ∀ y ∈ l, defines y = true → ∀ c', NeedsCls e.find steps e.out (itemCls y) c' → K (definition e.out c')) :
    Act e steps rank B (fun y => U y ∨ y ∈ l) (fun z => K z ∨ z ∈ l) (fun st => h st >>= fun st => .ok (st.push l)) := by
  intro st hi hdone hf hg
  obtain ⟨s1, h1, i1, t1, k1⟩ := ha st hi hdone (fun y hy h => hf y hy (.inl h)) (fun y hy => hg y (.inl hy))
  obtain ⟨new1, o1, n1⟩ := t1.out
  obtain ⟨i2, t2⟩ := push_ok (l := l) i1 hn (fun y hy hm => by
      rw [o1] at hm
      rcases List.mem_append.1 hm with hm | hm
      · exact hf y hm (.inr hy)
      · rcases n1 y hm with hu | ⟨hk, hn⟩
        · exact hU y hy hu
        · exact hn (hg y (.inr hy) hk)) (fun y hy hk => t1.fields _ (hg y (.inr hy) hk)) (fun y hy hd c' hc => k1 _ (hk y hy hd c' hc))
  refine ⟨s1.push l, by show (h st >>= _) = _; rw [h1]; rfl, i2, ⟨⟨new1 ++ l, by rw [← List.append_assoc, ← o1]; rfl, fun y hy => ?_⟩, t1.fields, t1.ifaces, t1.done_push l⟩, fun z hz => ?_⟩
  · rcases List.mem_append.1 hy with hy | hy
    · exact (n1 y hy).imp .inl id
    · exact .inl (.inr hy)
  · rcases hz with hz | hz
    · exact List.mem_append_left _ (k1 z hz)
    · exact List.mem_append_right _ hz

theorem before_spec (e : SwigEnv) (c : SCls) (f : UField) :
    (swigBefore e c f).Nodup ∧ ∀ y ∈ swigBefore e c f, defines y = false ∧ itemCls y = c := by
  unfold swigBefore
  cases e.out with
  | code => exact ⟨List.nodup_nil, fun _ h => nomatch h⟩
  | defs => cases e.listElem c <;> cases f <;> simp [defines, itemCls]

theorem after_spec (e : SwigEnv) (c : SCls) (f : UField) :
    (swigAfter e c f).Nodup ∧ (∀ y ∈ swigAfter e c f, defines y = true ∧ itemCls y = c) ∧
      ((c.path ≠ [] ∨ c.kind = .global) → definition e.out c ∈ swigAfter e c f) := by
  unfold swigAfter definition
  cases e.out with
  | code => cases f <;> simp [defines, itemCls]
  | defs =>
    dsimp only
    by_cases h : c.path = []
    · by_cases hk : c.kind = .global
      · rw [if_pos ⟨hk, h⟩]; simp [defines, itemCls, h]
      · rw [if_neg (fun hh => hk hh.1)]; simp [defines, itemCls, h, hk]
    · rw [if_neg (fun hh => h hh.2)]; simp [defines, itemCls, h]

/-- The members, each of which is added. -/
theorem all_act {g : Str → SwigSt → Res SwigSt} {c : SCls} : ∀ (ms : List UField) (i : Nat),
    (∀ j f, ms[j]? = some f → Act e steps rank B (Under (c.sub (i + j))) (· = definition e.out (c.sub (i + j))) (swigField e g (c.sub (i + j)) f)) →
    Act e steps rank B (fun y => ∃ j, i ≤ j ∧ Under (c.sub j) y) (fun z => ∃ j f, ms[j]? = some f ∧ z = definition e.out (c.sub (i + j))) (swigAll e g c i ms)
  | [], i, _ => by
    refine Act.weaken (U := fun _ => False) (K := fun _ => False) (fun y h => h.elim) (fun z h => ?_) (fun st => rfl)
      (Act.nop (h := fun st => .ok st) (fun _ => rfl) (fun _ h => h))
    obtain ⟨j, f, h, _⟩ := h
    simp at h
  | f :: fs, i, h => by
    have h0 := h 0 f rfl
    rw [Nat.add_zero] at h0
    have h1 := all_act fs (i + 1) (fun j f' hj => by
      have := h (j + 1) f' (by rw [List.getElem?_cons_succ]; exact hj)
      rwa [← Nat.add_assoc, Nat.add_right_comm] at this)
    refine Act.weaken (fun y hy => ?_) (fun z hz => ?_) (fun st => ?_) (Act.bind (fun y hu hv => ?_) h0 h1)
    · rcases hy with hy | ⟨j, hj, hy⟩
      · exact ⟨i, Nat.le_refl _, hy⟩
      · exact ⟨j, by omega, hy⟩
    · obtain ⟨j, f', hj, rfl⟩ := hz
      cases j with
      | zero => exact .inl rfl
      | succ j => exact .inr ⟨j, f', hj, by rw [Nat.add_right_comm, Nat.add_assoc]⟩
    · rw [swigAll]
      unfold swigField
      cases swigParts e g (c.sub i) f (st.push (swigBefore e (c.sub i) f)) <;> rfl
    · obtain ⟨j, hj, hv⟩ := hv
      have := hu.index hv
      omega

theorem slot_own (e : SwigEnv) (g : Str → SwigSt → Res SwigSt) (c : SCls) (f : UField) (st : SwigSt) :
    swigSlot e g c (.own f) st = swigField e g (c.sub 0) f st := by rw [swigSlot]; rfl

/-- What is inside a field. -/
theorem parts_act {g : Str → SwigSt → Res SwigSt} {c : SCls} {f : UField} (hf : USlot.none ∉ swigInner f)
    (ho : ∀ i x, (swigInner f)[i]? = some (.own x) → Act e steps rank B (Under (c.sub i)) (· = definition e.out (c.sub i)) (swigField e g (c.sub i) x))
    (hr : ∀ r, USlot.ext r ∈ swigInner f → Act e steps rank B (fun _ => False) (· = gdef e r) (g r)) :
    Act e steps rank B (fun y => ∃ i, Under (c.sub i) y)
      (fun z => (∃ i x, (swigInner f)[i]? = some (.own x) ∧ z = definition e.out (c.sub i)) ∨ ∃ r, USlot.ext r ∈ swigInner f ∧ z = gdef e r)
      (swigParts e g c f) := by
  have none : ∀ h : SwigSt → Res SwigSt, (∀ st, h st = .ok st) → swigInner f = [] → Act e steps rank B (fun y => ∃ i, Under (c.sub i) y)
      (fun z => (∃ i x, (swigInner f)[i]? = some (.own x) ∧ z = definition e.out (c.sub i)) ∨ ∃ r, USlot.ext r ∈ swigInner f ∧ z = gdef e r) h := by
    intro h hh hn
    rw [hn]
    refine Act.nop hh (fun z hz => ?_)
    rcases hz with ⟨i, x, h, _⟩ | ⟨r, h, _⟩
    · simp at h
    · cases h
  have all : ∀ ms : List UField, swigInner f = ms.map .own → Act e steps rank B (fun y => ∃ i, Under (c.sub i) y)
      (fun z => (∃ i x, (swigInner f)[i]? = some (.own x) ∧ z = definition e.out (c.sub i)) ∨ ∃ r, USlot.ext r ∈ swigInner f ∧ z = gdef e r)
      (swigAll e g c 0 ms) := by
    intro ms hms
    refine Act.weaken (fun y ⟨j, _, hy⟩ => ⟨j, hy⟩) (fun z hz => ?_) (fun _ => rfl) (all_act ms 0 (fun j x hj => ?_))
    · rcases hz with ⟨i, x, h, rfl⟩ | ⟨r, h, _⟩
      · rw [hms, List.getElem?_map, Option.map_eq_some_iff] at h
        obtain ⟨y, hy, h⟩ := h
        cases h
        exact ⟨i, _, hy, by rw [Nat.zero_add]⟩
      · rw [hms] at h
        obtain ⟨_, _, h⟩ := List.mem_map.1 h
        cases h
    · rw [Nat.zero_add]
      exact ho j x (by rw [hms, List.getElem?_map, hj]; rfl)
  have slot : ∀ s : USlot UField, swigInner f = [s] → Act e steps rank B (fun y => ∃ i, Under (c.sub i) y)
      (fun z => (∃ i x, (swigInner f)[i]? = some (.own x) ∧ z = definition e.out (c.sub i)) ∨ ∃ r, USlot.ext r ∈ swigInner f ∧ z = gdef e r)
      (swigSlot e g c s) := by
    intro s hs
    cases s with
    | none => exact absurd (by rw [hs]; exact List.mem_singleton.2 rfl) hf
    | ext r =>
      refine Act.weaken (fun _ h => h.elim) (fun z hz => ?_) (fun st => by rw [swigSlot]) (hr r (by rw [hs]; exact List.mem_singleton.2 rfl))
      rcases hz with ⟨i, x, h, _⟩ | ⟨r', h, rfl⟩
      · rw [hs] at h
        cases i <;> simp at h
      · rw [hs] at h
        cases List.mem_singleton.1 h
        rfl
    | own x =>
      refine Act.weaken (fun y hy => ⟨0, hy⟩) (fun z hz => ?_) (fun st => slot_own e g c x st) (ho 0 x (by rw [hs]; rfl))
      rcases hz with ⟨i, x', h, rfl⟩ | ⟨r', h, rfl⟩
      · rw [hs] at h
        cases i with
        | zero => rfl
        | succ i => simp at h
      · rw [hs] at h
        cases List.mem_singleton.1 h
  cases f with
  | plain b => exact none _ (fun st => by rw [swigParts]; rfl) rfl
  | string b p => exact none _ (fun st => by rw [swigParts]; rfl) rfl
  | data b p => exact none _ (fun st => by rw [swigParts]; rfl) rfl
  | bitfield b ms => exact Act.weaken (fun _ h => h) (fun _ h => h) (fun st => by rw [swigParts]) (all ms rfl)
  | bundle b ms => exact Act.weaken (fun _ h => h) (fun _ h => h) (fun st => by rw [swigParts]) (all ms rfl)
  | variant b ms => exact Act.weaken (fun _ h => h) (fun _ h => h) (fun st => by rw [swigParts]) (all ms rfl)
  | list b el _ _ _ _ => exact Act.weaken (fun _ h => h) (fun _ h => h) (fun st => by rw [swigParts]) (slot el rfl)
  | ref b r => exact Act.weaken (fun _ h => h) (fun _ h => h) (fun st => by rw [swigParts, swigSlot]) (slot (.ext r) rfl)
  | optional b s => exact Act.weaken (fun _ h => h) (fun _ h => h) (fun st => by rw [swigParts]) (slot s rfl)

theorem Filled.inner {f g : UField} (h : Filled f) (hg : USlot.own g ∈ swigInner f) : Filled g := fun _ hx => h _ (.step (inner_slots hg) hx)

/-- A field with all that is inside. -/
theorem field_act (ok : SwigOk e steps) {g : Str → SwigSt → Res SwigSt} (f : UField) : ∀ c, ClassOf e.find steps c f → (c.path ≠ [] ∨ c.kind = .global) →
    Filled f → (∀ r, Uses f r → Act e steps rank B (fun _ => False) (· = gdef e r) (g r)) →
    Act e steps rank B (Under c) (· = definition e.out c) (swigField e g c f) := by
  induction f using ind with
  | h f ih =>
    intro c hc hk hf hr
    have hp := parts_act (e := e) (steps := steps) (rank := rank) (B := B) (g := g) (c := c) (hf f (.refl f))
      (fun i x hx => by
        have hm := List.mem_of_getElem? hx
        exact ih x (inner_slots hm) (c.sub i) (class_sub hc hx) (.inl (by simp [SCls.sub])) (Filled.inner hf hm) (fun r hu => hr r (.own (inner_slots hm) hu)))
      (fun r h => hr r (.ext (inner_slots h)))
    obtain ⟨hb1, hb2⟩ := before_spec e c f
    obtain ⟨ha1, ha2, ha3⟩ := after_spec e c f
    refine Act.weaken (fun y hy => ?_) (fun z hz => ?_) (fun st => ?_) (Act.after (Act.bind (fun y hu hv => ?_) (Act.before hb1 (fun y hy => (hb2 y hy).1)) hp) ha1
      (fun y hy hu => ?_) (fun y hy _ c' hn => ?_))
    · rcases hy with (hy | ⟨i, hy⟩) | hy
      · exact Under.self (hb2 y hy).2
      · exact hy.sub
      · exact Under.self (ha2 y hy).2
    · subst hz
      exact .inr (ha3 hk)
    · rfl
    · obtain ⟨i, hv⟩ := hv
      exact hv.ne (hb2 y hu).2
    · rcases hu with hu | ⟨i, hu⟩
      · have := (hb2 y hu).1
        rw [(ha2 y hy).1] at this
        cases this
      · exact hu.ne (ha2 y hy).2
    · rw [(ha2 y hy).2] at hn
      rcases needs_field ok hc hn with ⟨i, x, hx, rfl⟩ | ⟨r, hx, rfl⟩
      · exact .inr (.inl ⟨i, x, hx, rfl⟩)
      · exact .inr (.inr ⟨r, hx, rfl⟩)

/-- A global field that is in use. -/
theorem global_act (ok : SwigOk e steps) {m : Nat} (hR : Ranked e.find m rank) : ∀ n r, rank r < n → e.used r = true → ∀ B, rank r < B →
    Act e steps rank B (fun _ => False) (· = gdef e r) (swigGlobal e n r)
  | 0, _, h, _, _, _ => absurd h (Nat.not_lt_zero _)
  | n + 1, r, h, hu, B, hB => by
    intro st hi hd _ _
    by_cases hm : r ∈ st.fields
    · refine ⟨st, by rw [swigGlobal, if_pos hm]; rfl, hi, ⟨⟨[], (List.append_nil _).symm, fun _ h => (nomatch h)⟩, fun _ h => h, rfl, fun _ h => .inl h⟩, ?_⟩
      rintro z rfl
      exact hd r hm hB hu
    · obtain ⟨f, hf⟩ := Option.isSome_iff_exists.1 (ok.found r hu)
      have ha := field_act (rank := rank) (B := rank r) ok (g := swigGlobal e n) f (globalCls r) (.global hf (.refl f)) (.inr rfl) (ok.filled r f hf) (fun r' hu' => by
        have hlt := (hR.down r f hf r' hu').2
        exact global_act ok hR n r' (by omega) (ok.closed r f hu hf r' hu') (rank r) hlt)
      obtain ⟨st', h', i', t', k'⟩ := ha { st with fields := r :: st.fields }
        ⟨hi.nodup, fun y hy hk => List.mem_cons_of_mem _ (hi.flag y hy hk), hi.order⟩
        (fun r' hr' hlt hu' => by
          rcases List.mem_cons.1 hr' with rfl | hr'
          · exact absurd hlt (Nat.lt_irrefl _)
          · exact hd r' hr' (Nat.lt_trans hlt hB) hu')
        (fun y hy hun => hm (by
          have := hi.flag y hy hun.1
          rwa [hun.2.1] at this))
        (fun y hun _ => by rw [hun.2.1]; exact List.mem_cons_self ..)
      obtain ⟨new, o, hn⟩ := t'.out
      refine ⟨st', ?_, i', ⟨⟨new, o, fun y hy => .inr ?_⟩, fun r' hr' => t'.fields r' (List.mem_cons_of_mem _ hr'), t'.ifaces, fun r' hr' => ?_⟩, fun z hz => k' z hz⟩
      · rw [swigGlobal, if_neg hm, hu, hf]
        exact h'
      · rcases hn y hy with hun | ⟨hk, hno⟩
        · exact ⟨hun.1, by rw [hun.2.1]; exact hm⟩
        · exact ⟨hk, fun hh => hno (List.mem_cons_of_mem _ hh)⟩
      · rcases t'.done r' hr' with hh | hh
        · rcases List.mem_cons.1 hh with rfl | hh
          · exact .inr (fun _ => k' _ rfl)
          · exact .inl hh
        · exact .inr hh

/-- The invariant between the calls: `a` are those that are made. -/
structure Between (e : SwigEnv) (steps : List SStep) (a : List SStep) (st : SwigSt) : Prop where
  inv : Inv e steps st
  done : ∀ r ∈ st.fields, e.used r = true → gdef e r ∈ st.out
  kinds : ∀ y ∈ st.out, match (itemCls y).kind with
    | .global => True
    | .iface => (itemCls y).owner ∈ st.ifaces
    | .message => ∃ h m, SStep.message h m ∈ a ∧ h.id = (itemCls y).owner
    | .frame => ∃ f, SStep.frame f ∈ a ∧ f.id = (itemCls y).owner
  ifaces : ∀ h, SStep.iface h ∈ steps → h.id ∈ st.ifaces → h.used = true → definition e.out ⟨.iface, h.id, []⟩ ∈ st.out

/-- What a call is for. -/
def Got (e : SwigEnv) (st : SwigSt) : SStep → Prop
  | .field r => e.used r = true → gdef e r ∈ st.out
  | .iface h => h.used = true → definition e.out ⟨.iface, h.id, []⟩ ∈ st.out
  | .message h _ => h.used = true → definition e.out ⟨.message, h.id, []⟩ ∈ st.out
  | .frame f => f.valid = true → definition e.out ⟨.frame, f.id, []⟩ ∈ st.out

theorem own_spec (e : SwigEnv) {k : SKind} {id : Str} :
    ∃ y, swigOwn e ⟨k, id, []⟩ = [y] ∧ itemCls y = ⟨k, id, []⟩ ∧ y = definition e.out ⟨k, id, []⟩ := by
  unfold swigOwn definition
  cases e.out <;> exact ⟨_, rfl, rfl, rfl⟩

/-- The fields of an element, then its own class. -/
theorem holder_act (ok : SwigOk e steps) {m n : Nat} (hR : Ranked e.find m rank) (hmn : m ≤ n) {k : SKind} {id : Str} {fs : List UField}
    (hc : ∀ j f, fs[j]? = some f → ClassOf e.find steps ⟨k, id, [j]⟩ f)
    (hf : ∀ f ∈ fs, Filled f ∧ ∀ r, Uses f r → e.used r = true) :
    Act e steps rank m (fun y => ∃ j, Under (SCls.sub ⟨k, id, []⟩ j) y) (fun z => ∃ j f, fs[j]? = some f ∧ z = definition e.out ⟨k, id, [j]⟩)
      (swigAll e (swigGlobal e n) ⟨k, id, []⟩ 0 fs) := by
  refine Act.weaken (fun y ⟨j, _, hy⟩ => ⟨j, hy⟩) (fun z hz => ?_) (fun _ => rfl) (all_act fs 0 (fun j f hj => ?_))
  · obtain ⟨j, f, hj, rfl⟩ := hz
    exact ⟨j, f, hj, by rw [Nat.zero_add]; rfl⟩
  · rw [Nat.zero_add]
    obtain ⟨h1, h2⟩ := hf f (List.mem_of_getElem? hj)
    refine field_act ok f _ (hc j f hj) (.inl (by simp [SCls.sub])) h1 (fun r hu => ?_)
    have hb := hR.bound r (ok.found r (h2 r hu))
    exact global_act ok hR n r (by omega) (h2 r hu) m hb

theorem Step.global {U : SItem → Prop} {st st' : SwigSt} (h : Step e U st st') {y : SItem} (hy : y ∈ st'.out) :
    y ∈ st.out ∨ U y ∨ (itemCls y).kind = .global := by
  obtain ⟨new, o, hn⟩ := h.out
  rw [o] at hy
  rcases List.mem_append.1 hy with hy | hy
  · exact .inl hy
  · exact .inr ((hn y hy).imp id And.left)

/-- The field of a layer. -/
def layerField (e : SwigEnv) (g : Str → SwigSt → Res SwigSt) (c : SCls) : USlot UField → SwigSt → Res SwigSt
  | .none, st => .ok st
  | s, st => swigSlot e g c s st

theorem layers_eq (e : SwigEnv) (g : Str → SwigSt → Res SwigSt) (c : SCls) (i : Nat) (s : USlot UField) (ss : List (USlot UField)) (st : SwigSt) :
    swigLayers e g c i (s :: ss) st = ((layerField e g (c.sub i) s st >>= fun st => Res.ok (st.push (match e.out with | .code => [SItem.code (c.sub i)] | .defs => []))) >>=
      swigLayers e g c (i + 1) ss) := by
  cases s with
  | none => rfl
  | ext r => show (swigSlot e g (c.sub i) (.ext r) st >>= _) = ((swigSlot e g (c.sub i) (.ext r) st >>= _) >>= _); cases swigSlot e g (c.sub i) (.ext r) st <;> rfl
  | own f => show (swigSlot e g (c.sub i) (.own f) st >>= _) = ((swigSlot e g (c.sub i) (.own f) st >>= _) >>= _); cases swigSlot e g (c.sub i) (.own f) st <;> rfl

/-- The layers of a frame. -/
theorem layers_act {g : Str → SwigSt → Res SwigSt} {c : SCls} : ∀ (ls : List (USlot UField)) (i : Nat),
    (∀ j f, ls[j]? = some (.own f) → Act e steps rank B (Under ((c.sub (i + j)).sub 0)) (· = definition e.out ((c.sub (i + j)).sub 0))
      (swigField e g ((c.sub (i + j)).sub 0) f)) →
    (∀ r, USlot.ext r ∈ ls → Act e steps rank B (fun _ => False) (· = gdef e r) (g r)) →
    (∀ j s, ls[j]? = some s → ∀ c', NeedsCls e.find steps e.out (c.sub (i + j)) c' →
      (∃ f, s = .own f ∧ c' = (c.sub (i + j)).sub 0) ∨ ∃ r, s = .ext r ∧ c' = globalCls r) →
    Act e steps rank B (fun y => ∃ j, i ≤ j ∧ Under (c.sub j) y)
      (fun z => ∃ j s, ls[j]? = some s ∧ ((e.out = .code ∧ z = definition e.out (c.sub (i + j))) ∨
        (∃ f, s = .own f ∧ z = definition e.out ((c.sub (i + j)).sub 0)) ∨ ∃ r, s = .ext r ∧ z = gdef e r)) (swigLayers e g c i ls)
  | [], i, _, _, _ => by
    refine Act.weaken (U := fun _ => False) (K := fun _ => False) (fun y h => h.elim) (fun z h => ?_) (fun st => rfl)
      (Act.nop (h := fun st => .ok st) (fun _ => rfl) (fun _ h => h))
    obtain ⟨j, f, h, _⟩ := h
    simp at h
  | s :: ss, i, ho, hr, hn => by
    have h1 := layers_act ss (i + 1) (fun j f hj => by
        have := ho (j + 1) f (by rw [List.getElem?_cons_succ]; exact hj)
        rwa [← Nat.add_assoc, Nat.add_right_comm] at this)
      (fun r h => hr r (List.mem_cons_of_mem _ h)) (fun j s' hj => by
        have := hn (j + 1) s' (by rw [List.getElem?_cons_succ]; exact hj)
        rwa [← Nat.add_assoc, Nat.add_right_comm] at this)
    have h0 : Act e steps rank B (fun y => ∃ j, Under ((c.sub i).sub j) y)
        (fun z => (∃ f, s = .own f ∧ z = definition e.out ((c.sub i).sub 0)) ∨ ∃ r, s = .ext r ∧ z = gdef e r)
        (layerField e g (c.sub i) s) := by
      cases s with
      | none => exact Act.nop (fun _ => rfl) (fun z hz => by rcases hz with ⟨f, h, _⟩ | ⟨r, h, _⟩ <;> cases h)
      | ext r =>
        refine Act.weaken (fun _ h => h.elim) (fun z hz => ?_) (fun st => by show swigSlot e g (c.sub i) (.ext r) st = _; rw [swigSlot]) (hr r (List.mem_cons_self ..))
        rcases hz with ⟨f, h, _⟩ | ⟨r', h, hz⟩
        · cases h
        · cases h; exact hz
      | own f =>
        have := ho 0 f rfl
        rw [Nat.add_zero] at this
        refine Act.weaken (fun y hy => ⟨0, hy⟩) (fun z hz => ?_) (fun st => slot_own e g _ f st) this
        rcases hz with ⟨f', h, hz⟩ | ⟨r', h, hz⟩
        · exact hz
        · cases h
    have hl : ∀ y ∈ (match e.out with | .code => [SItem.code (c.sub i)] | .defs => []), itemCls y = c.sub i := by
      intro y hy
      cases ho : e.out with
      | code => rw [ho] at hy; rw [List.mem_singleton.1 hy]; rfl
      | defs => rw [ho] at hy; cases hy
    have h2 := Act.after h0 (l := match e.out with | .code => [SItem.code (c.sub i)] | .defs => []) (by cases e.out <;> simp)
      (fun y hy ⟨j, hu⟩ => hu.ne (hl y hy)) (fun y hy _ c' hc' => by
        rw [hl y hy] at hc'
        have h3 := hn 0 s rfl c' (by rw [Nat.add_zero]; exact hc')
        rw [Nat.add_zero] at h3
        rcases h3 with ⟨f, h3, rfl⟩ | ⟨r, h3, rfl⟩
        · exact .inl ⟨f, h3, rfl⟩
        · exact .inr ⟨r, h3, rfl⟩)
    refine Act.weaken (fun y hy => ?_) (fun z hz => ?_) (fun st => ?_) (Act.bind (fun y hu hv => ?_) h2 h1)
    · rcases hy with (⟨j, hy⟩ | hy) | ⟨j, hj, hy⟩
      · exact ⟨i, Nat.le_refl _, hy.sub⟩
      · exact ⟨i, Nat.le_refl _, Under.self (hl y hy)⟩
      · exact ⟨j, by omega, hy⟩
    · obtain ⟨j, s', hj, hz⟩ := hz
      cases j with
      | zero =>
        cases hj
        rw [Nat.add_zero] at hz
        rcases hz with ⟨hoc, rfl⟩ | hz
        · refine .inl (.inr ?_)
          rw [hoc]
          exact List.mem_singleton.2 rfl
        · exact .inl (.inl hz)
      | succ j => exact .inr ⟨j, s', hj, by rwa [Nat.add_right_comm, Nat.add_assoc]⟩
    · exact layers_eq e g c i s ss st
    · obtain ⟨j, hj, hv⟩ := hv
      rcases hu with ⟨k, hu⟩ | hu
      · have := hu.sub.index hv
        omega
      · have := (Under.self (hl y hu)).index hv
        omega

/-- The class of an element with fields, behind them. -/
theorem finish {st st1 : SwigSt} {k : SKind} {id : Str} (hk : k ≠ .global) (hd : ∀ r ∈ st.fields, e.used r = true → gdef e r ∈ st.out) (i1 : Inv e steps st1)
    (t1 : Step e (fun y => ∃ j, Under (SCls.sub ⟨k, id, []⟩ j) y) st st1) (hfresh : ∀ y ∈ st.out, ¬((itemCls y).kind = k ∧ (itemCls y).owner = id))
    (hn : ∀ c', NeedsCls e.find steps e.out ⟨k, id, []⟩ c' → definition e.out c' ∈ st1.out) :
    Inv e steps (st1.push (swigOwn e ⟨k, id, []⟩)) ∧
      (∀ r ∈ (st1.push (swigOwn e ⟨k, id, []⟩)).fields, e.used r = true → gdef e r ∈ (st1.push (swigOwn e ⟨k, id, []⟩)).out) ∧
      (∀ y ∈ (st1.push (swigOwn e ⟨k, id, []⟩)).out, y ∈ st.out ∨ (itemCls y).kind = .global ∨ ((itemCls y).kind = k ∧ (itemCls y).owner = id)) ∧
      (∀ y ∈ st.out, y ∈ (st1.push (swigOwn e ⟨k, id, []⟩)).out) ∧ definition e.out ⟨k, id, []⟩ ∈ (st1.push (swigOwn e ⟨k, id, []⟩)).out := by
  obtain ⟨y, hy, hcl, hdef⟩ := own_spec e (k := k) (id := id)
  rw [hy]
  obtain ⟨i2, _⟩ := push_ok (l := [y]) i1 (by simp) (fun z hz hm => by
      cases List.mem_singleton.1 hz
      rcases t1.global hm with h | ⟨j, h⟩ | h
      · exact hfresh y h (by rw [hcl]; exact ⟨rfl, rfl⟩)
      · exact h.ne hcl
      · rw [hcl] at h; exact hk h) (fun z hz h => by
      cases List.mem_singleton.1 hz
      rw [hcl] at h; exact absurd h hk) (fun z hz _ c' hc' => by
      cases List.mem_singleton.1 hz
      rw [hcl] at hc'
      exact hn c' hc')
  refine ⟨i2, fun r hr hu => List.mem_append_left _ ?_, fun z hz => ?_, fun z hz => List.mem_append_left _ (t1.mem hz), ?_⟩
  · rcases t1.done r hr with h | h
    · exact t1.mem (hd r h hu)
    · exact h hu
  · rcases List.mem_append.1 hz with hz | hz
    · rcases t1.global hz with h | ⟨j, h⟩ | h
      · exact .inl h
      · exact .inr (.inr ⟨h.1, h.2.1⟩)
      · exact .inr (.inl h)
    · cases List.mem_singleton.1 hz
      rw [hcl]
      exact .inr (.inr ⟨rfl, rfl⟩)
  · rw [hdef]
    exact List.mem_append_right _ (List.mem_singleton.2 rfl)

theorem needs_iface (ok : SwigOk e steps) {h : SHolder} (hs : .iface h ∈ steps) {c' : SCls} (hn : NeedsCls e.find steps e.out ⟨.iface, h.id, []⟩ c') :
    ∃ j f, h.fields[j]? = some f ∧ c' = ⟨.iface, h.id, [j]⟩ := by
  generalize hc : (⟨.iface, h.id, []⟩ : SCls) = c at hn
  cases hn with
  | member h' => subst hc; simpa using class_shape h'
  | refers h' => subst hc; simpa using class_shape h'
  | ofIface hs' hf =>
    injection hc with _ h1 _
    cases ok.sameIface _ _ hs hs' h1
    exact ⟨_, _, hf, rfl⟩
  | ofMessage => cases hc
  | main => cases hc
  | layer => cases hc
  | layerOwn => cases hc
  | layerRef => cases hc
  | frameOwn => cases hc
  | frameRef => cases hc

theorem needs_message (ok : SwigOk e steps) {h : SHolder} {m : Option SHolder} (hs : .message h m ∈ steps) {c' : SCls}
    (hn : NeedsCls e.find steps e.out ⟨.message, h.id, []⟩ c') :
    (∃ j f, h.fields[j]? = some f ∧ c' = ⟨.message, h.id, [j]⟩) ∨ ∃ i, m = some i ∧ e.out = .code ∧ c' = ⟨.iface, i.id, []⟩ := by
  generalize hc : (⟨.message, h.id, []⟩ : SCls) = c at hn
  cases hn with
  | member h' => subst hc; simpa using class_shape h'
  | refers h' => subst hc; simpa using class_shape h'
  | ofIface => cases hc
  | ofMessage hs' hf =>
    injection hc with _ h1 _
    cases (same_message ok hs hs' h1).1
    exact .inl ⟨_, _, hf, rfl⟩
  | main hs' ho =>
    injection hc with _ h1 _
    cases (same_message ok hs hs' h1).2
    exact .inr ⟨_, rfl, ho, rfl⟩
  | layer => cases hc
  | layerOwn => cases hc
  | layerRef => cases hc
  | frameOwn => cases hc
  | frameRef => cases hc

theorem needs_frame (ok : SwigOk e steps) {fr : SFrame} (hs : .frame fr ∈ steps) {c' : SCls} (hn : NeedsCls e.find steps e.out ⟨.frame, fr.id, []⟩ c') :
    ∃ j s, fr.layers[j]? = some s ∧ ((e.out = .code ∧ c' = ⟨.frame, fr.id, [j]⟩) ∨ (∃ f, s = .own f ∧ c' = ⟨.frame, fr.id, [j, 0]⟩) ∨ ∃ r, s = .ext r ∧ c' = globalCls r) := by
  generalize hc : (⟨.frame, fr.id, []⟩ : SCls) = c at hn
  cases hn with
  | member h' => subst hc; simpa using class_shape h'
  | refers h' => subst hc; simpa using class_shape h'
  | ofIface => cases hc
  | ofMessage => cases hc
  | main => cases hc
  | layer hs' hf ho =>
    injection hc with _ h1 _
    cases same_frame ok hs hs' h1
    exact ⟨_, _, hf, .inl ⟨ho, rfl⟩⟩
  | layerOwn => simp at hc
  | layerRef => simp at hc
  | frameOwn hs' hf =>
    injection hc with _ h1 _
    cases same_frame ok hs hs' h1
    exact ⟨_, _, hf, .inr (.inl ⟨_, rfl, rfl⟩)⟩
  | frameRef hs' hf =>
    injection hc with _ h1 _
    cases same_frame ok hs hs' h1
    exact ⟨_, _, hf, .inr (.inr ⟨_, rfl, rfl⟩)⟩

theorem needs_layer (ok : SwigOk e steps) {fr : SFrame} (hs : .frame fr ∈ steps) {i : Nat} {s : USlot UField} (hi : fr.layers[i]? = some s) {c' : SCls}
    (hn : NeedsCls e.find steps e.out ⟨.frame, fr.id, [i]⟩ c') :
    (∃ f, s = .own f ∧ c' = ⟨.frame, fr.id, [i, 0]⟩) ∨ ∃ r, s = .ext r ∧ c' = globalCls r := by
  generalize hc : (⟨.frame, fr.id, [i]⟩ : SCls) = c at hn
  cases hn with
  | member h' => subst hc; simpa using class_shape h'
  | refers h' => subst hc; simpa using class_shape h'
  | ofIface => cases hc
  | ofMessage => cases hc
  | main => cases hc
  | layer => simp at hc
  | layerOwn hs' hf =>
    injection hc with _ h1 h2
    injection h2 with h2 _
    cases same_frame ok hs hs' h1
    subst h2
    cases hi.symm.trans hf
    exact .inl ⟨_, rfl, rfl⟩
  | layerRef hs' hf =>
    injection hc with _ h1 h2
    injection h2 with h2 _
    cases same_frame ok hs hs' h1
    subst h2
    cases hi.symm.trans hf
    exact .inr ⟨_, rfl, rfl⟩
  | frameOwn => simp at hc
  | frameRef => simp at hc

/-- The invariant behind a call that adds nothing but global fields and what belongs to the element of the call. -/
theorem Between.next {a : List SStep} {s : SStep} {st st' : SwigSt} (h : Between e steps a st) (i : Inv e steps st')
    (hd : ∀ r ∈ st'.fields, e.used r = true → gdef e r ∈ st'.out) (hm : ∀ y ∈ st.out, y ∈ st'.out) (hif : st'.ifaces = st.ifaces)
    (hk : ∀ y ∈ st'.out, y ∈ st.out ∨ (itemCls y).kind = .global ∨
      match s with
      | .message h _ => (itemCls y).kind = .message ∧ (itemCls y).owner = h.id
      | .frame f => (itemCls y).kind = .frame ∧ (itemCls y).owner = f.id
      | _ => False) : Between e steps (a ++ [s]) st' := by
  refine ⟨i, hd, fun y hy => ?_, fun h' hs hin hu => hm _ (h.ifaces h' hs (hif ▸ hin) hu)⟩
  rcases hk y hy with h1 | h1 | h1
  · have := h.kinds y h1
    cases hkk : (itemCls y).kind with
    | global => trivial
    | iface => rw [hkk] at this; dsimp only at this ⊢; rw [hif]; exact this
    | message => rw [hkk] at this; obtain ⟨h', m, h2, h3⟩ := this; exact ⟨h', m, List.mem_append_left _ h2, h3⟩
    | frame => rw [hkk] at this; obtain ⟨f, h2, h3⟩ := this; exact ⟨f, List.mem_append_left _ h2, h3⟩
  · rw [h1]; trivial
  · cases s with
    | field => exact h1.elim
    | iface => exact h1.elim
    | message h' m => rw [h1.1]; exact ⟨h', m, List.mem_append_right _ (List.mem_singleton.2 rfl), h1.2.symm⟩
    | frame f => rw [h1.1]; exact ⟨f, List.mem_append_right _ (List.mem_singleton.2 rfl), h1.2.symm⟩

/-- One call. -/
theorem call_step (ok : SwigOk e steps) {m n : Nat} (hR : Ranked e.find m rank) (hmn : m < n) (hmain : e.out = .code → MainFirst steps) {a b : List SStep} {s : SStep}
    (hs : steps = a ++ s :: b) {st : SwigSt} (hb : Between e steps a st) (hg : ∀ s ∈ a, Got e st s) :
    ∃ st', swigStep e (swigGlobal e n) s st = .ok st' ∧ Between e steps (a ++ [s]) st' ∧ (∀ y ∈ st.out, y ∈ st'.out) ∧ Got e st' s := by
  have hin : s ∈ steps := by rw [hs]; exact List.mem_append_right _ (List.mem_cons_self ..)
  have hdone : Done e rank m st := fun r hr _ hu => hb.done r hr hu
  cases s with
  | field r =>
    by_cases hu : e.used r = true
    · obtain ⟨st', h1, i1, t1, k1⟩ := global_act ok hR n r (by have := hR.bound r (ok.found r hu); omega) hu m (hR.bound r (ok.found r hu)) st hb.inv hdone
        (fun _ _ h => h) (fun _ h => h.elim)
      exact ⟨st', h1, hb.next i1 (fun r hr hu' => (t1.done r hr).elim (fun h => t1.mem (hb.done r h hu')) (fun h => h hu')) (fun y hy => t1.mem hy) t1.ifaces
        (fun y hy => (t1.global hy).imp id (fun h => h.elim False.elim .inl)), fun y hy => t1.mem hy, fun _ => k1 _ rfl⟩
    · obtain ⟨n, rfl⟩ : ∃ k, n = k + 1 := ⟨n - 1, by omega⟩
      by_cases hm : r ∈ st.fields
      · refine ⟨st, by show swigGlobal e (n + 1) r st = _; rw [swigGlobal, if_pos hm]; rfl, hb.next hb.inv hb.done (fun _ h => h) rfl (fun _ h => .inl h), fun _ h => h,
          fun h => absurd h hu⟩
      · refine ⟨{ st with fields := r :: st.fields }, by
            show swigGlobal e (n + 1) r st = _; rw [swigGlobal, if_neg hm, Bool.eq_false_iff.2 hu]; rfl,
          hb.next ⟨hb.inv.nodup, fun y hy hk => List.mem_cons_of_mem _ (hb.inv.flag y hy hk), hb.inv.order⟩ (fun r' hr' hu' => ?_) (fun _ h => h) rfl (fun _ h => .inl h),
          fun _ h => h, fun h => absurd h hu⟩
        rcases List.mem_cons.1 hr' with rfl | hr'
        · exact absurd hu' hu
        · exact hb.done r' hr' hu'
  | iface h =>
    show ∃ st', swigIface e (swigGlobal e n) h st = .ok st' ∧ _
    unfold swigIface
    by_cases hm : h.id ∈ st.ifaces
    · rw [if_pos hm]
      exact ⟨st, rfl, hb.next hb.inv hb.done (fun _ h => h) rfl (fun _ h => .inl h), fun _ h => h, fun hu => hb.ifaces h hin hm hu⟩
    · rw [if_neg hm]
      by_cases hu : h.used = true
      · rw [hu]
        obtain ⟨s1, h1, i1, t1, k1⟩ := holder_act ok hR (Nat.le_of_lt hmn) (k := .iface) (id := h.id) (fs := h.fields)
          (fun j f hj => .iface (p := []) hin hj (.refl f)) (ok.iface h hin hu) { st with ifaces := h.id :: st.ifaces }
          ⟨hb.inv.nodup, hb.inv.flag, hb.inv.order⟩ hdone (fun y hy ⟨j, hyu⟩ => by
            have := hb.kinds y hy
            rw [hyu.1] at this
            exact hm (by have h2 := hyu.2.1; rw [h2] at this; exact this)) (fun y ⟨j, hyu⟩ hk => by rw [hyu.1] at hk; cases hk)
        obtain ⟨i2, d2, c2, m2, p2⟩ := finish (k := .iface) (id := h.id) (by decide) (st := { st with ifaces := h.id :: st.ifaces }) hb.done i1 t1 (fun y hy hyk => by
            have := hb.kinds y hy
            rw [hyk.1] at this
            exact hm (by have h2 := hyk.2; rw [h2] at this; exact this)) (fun c' hc' => by
            obtain ⟨j, f, hj, rfl⟩ := needs_iface ok hin hc'
            exact k1 _ ⟨j, f, hj, rfl⟩)
        refine ⟨s1.push (swigOwn e ⟨.iface, h.id, []⟩), ?_, ⟨i2, d2, fun y hy => ?_, fun h' hs' hin' hu' => ?_⟩, m2, fun _ => p2⟩
        · show (swigAll e (swigGlobal e n) ⟨.iface, h.id, []⟩ 0 h.fields { st with ifaces := h.id :: st.ifaces } >>= _) = _
          rw [h1]; rfl
        · rcases c2 y hy with h2 | h2 | h2
          · have := hb.kinds y h2
            cases hkk : (itemCls y).kind with
            | global => trivial
            | iface =>
              rw [hkk] at this
              show (itemCls y).owner ∈ s1.ifaces
              rw [t1.ifaces]; exact List.mem_cons_of_mem _ this
            | message => rw [hkk] at this; obtain ⟨h', m, h2, h3⟩ := this; exact ⟨h', m, List.mem_append_left _ h2, h3⟩
            | frame => rw [hkk] at this; obtain ⟨f, h2, h3⟩ := this; exact ⟨f, List.mem_append_left _ h2, h3⟩
          · rw [h2]; trivial
          · rw [h2.1, h2.2]
            show h.id ∈ s1.ifaces
            rw [t1.ifaces]; exact List.mem_cons_self ..
        · have h3 : h'.id ∈ s1.ifaces := hin'
          rw [t1.ifaces] at h3
          rcases List.mem_cons.1 h3 with h3 | h3
          · rw [h3]; exact p2
          · exact m2 _ (hb.ifaces h' hs' h3 hu')
      · rw [Bool.eq_false_iff.2 hu]
        refine ⟨{ st with ifaces := h.id :: st.ifaces }, rfl, ⟨⟨hb.inv.nodup, hb.inv.flag, hb.inv.order⟩, hb.done, fun y hy => ?_, fun h' hs' hin' hu' => ?_⟩, fun _ h => h,
          fun h => absurd h hu⟩
        · have := hb.kinds y hy
          cases hkk : (itemCls y).kind with
          | global => trivial
          | iface => rw [hkk] at this; exact List.mem_cons_of_mem _ this
          | message => rw [hkk] at this; obtain ⟨h', m, h2, h3⟩ := this; exact ⟨h', m, List.mem_append_left _ h2, h3⟩
          | frame => rw [hkk] at this; obtain ⟨f, h2, h3⟩ := this; exact ⟨f, List.mem_append_left _ h2, h3⟩
        · rcases List.mem_cons.1 hin' with h3 | h3
          · cases ok.sameIface _ _ hs' hin h3
            exact absurd hu' hu
          · exact hb.ifaces h' hs' h3 hu'
  | message h mn =>
    show ∃ st', swigMessage e (swigGlobal e n) h st = .ok st' ∧ _
    unfold swigMessage
    by_cases hu : h.used = true
    · rw [hu]
      have hfresh : ∀ y ∈ st.out, ¬((itemCls y).kind = .message ∧ (itemCls y).owner = h.id) := by
        intro y hy hyk
        have := hb.kinds y hy
        rw [hyk.1] at this
        obtain ⟨h', m', h2, h3⟩ := this
        have hd := ok.messages
        rw [hs] at hd
        exact nodup_split hd (b := h.id) rfl h2 (show some h'.id = some h.id by rw [h3, hyk.2])
      obtain ⟨s1, h1, i1, t1, k1⟩ := holder_act ok hR (Nat.le_of_lt hmn) (k := .message) (id := h.id) (fs := h.fields)
        (fun j f hj => .message (p := []) hin hj (.refl f)) (ok.message h mn hin hu) st hb.inv hdone (fun y hy ⟨j, hyu⟩ => hfresh y hy ⟨hyu.1, hyu.2.1⟩)
        (fun y ⟨j, hyu⟩ hk => by rw [hyu.1] at hk; cases hk)
      obtain ⟨i2, d2, c2, m2, p2⟩ := finish (k := .message) (id := h.id) (by decide) hb.done i1 t1 hfresh (fun c' hc' => by
          rcases needs_message ok hin hc' with ⟨j, f, hj, rfl⟩ | ⟨i, rfl, ho, rfl⟩
          · exact k1 _ ⟨j, f, hj, rfl⟩
          · exact t1.mem (hg _ (hmain ho a h i b hs) (ok.mainUsed h i hin)))
      refine ⟨s1.push (swigOwn e ⟨.message, h.id, []⟩), ?_, hb.next i2 d2 m2 t1.ifaces c2, m2, fun _ => p2⟩
      show (swigAll e (swigGlobal e n) ⟨.message, h.id, []⟩ 0 h.fields st >>= _) = _
      rw [h1]; rfl
    · rw [Bool.eq_false_iff.2 hu]
      exact ⟨st, rfl, hb.next hb.inv hb.done (fun _ h => h) rfl (fun _ h => .inl h), fun _ h => h, fun h => absurd h hu⟩
  | frame fr =>
    show ∃ st', swigFrame e (swigGlobal e n) fr st = .ok st' ∧ _
    unfold swigFrame
    by_cases hu : fr.valid = true
    · rw [hu]
      have hfresh : ∀ y ∈ st.out, ¬((itemCls y).kind = .frame ∧ (itemCls y).owner = fr.id) := by
        intro y hy hyk
        have := hb.kinds y hy
        rw [hyk.1] at this
        obtain ⟨f', h2, h3⟩ := this
        have hd := ok.frames
        rw [hs] at hd
        exact nodup_split hd (b := fr.id) rfl h2 (show some f'.id = some fr.id by rw [h3, hyk.2])
      have gl : ∀ r, e.used r = true → Act e steps rank m (fun _ => False) (· = gdef e r) (swigGlobal e n r) := fun r hr => by
        have := hR.bound r (ok.found r hr)
        exact global_act ok hR n r (by omega) hr m this
      obtain ⟨s1, h1, i1, t1, k1⟩ := Act.weaken (fun y (hy : ∃ j, 0 ≤ j ∧ Under (SCls.sub ⟨.frame, fr.id, []⟩ j) y) =>
          (by obtain ⟨j, _, hy⟩ := hy; exact ⟨j, hy⟩ : ∃ j, Under (SCls.sub ⟨.frame, fr.id, []⟩ j) y)) (fun _ h => h) (fun _ => rfl)
        (layers_act (e := e) (steps := steps) (rank := rank) (B := m) (g := swigGlobal e n) (c := ⟨.frame, fr.id, []⟩) fr.layers 0
          (fun j f hj => by
            rw [Nat.zero_add]
            obtain ⟨h1, h2⟩ := ok.layerOwn fr hin hu f (List.mem_of_getElem? hj)
            exact field_act ok f _ (.layer (p := []) hin hj (.refl f)) (.inl (by simp [SCls.sub])) h1 (fun r hr => gl r (h2 r hr)))
          (fun r hr => gl r (ok.layerRef fr hin hu r hr))
          (fun j s hj c' hc' => by
            rw [Nat.zero_add] at hc' ⊢
            exact needs_layer ok hin hj hc')) st hb.inv hdone (fun y hy ⟨j, hyu⟩ => hfresh y hy ⟨hyu.1, hyu.2.1⟩)
        (fun y ⟨j, hyu⟩ hk => by rw [hyu.1] at hk; cases hk)
      obtain ⟨i2, d2, c2, m2, p2⟩ := finish (k := .frame) (id := fr.id) (by decide) hb.done i1 t1 hfresh (fun c' hc' => by
          obtain ⟨j, s, hj, h2⟩ := needs_frame ok hin hc'
          refine k1 _ ⟨j, s, hj, ?_⟩
          rw [Nat.zero_add]
          rcases h2 with ⟨ho, rfl⟩ | ⟨f, rfl, rfl⟩ | ⟨r, rfl, rfl⟩
          · exact .inl ⟨ho, rfl⟩
          · exact .inr (.inl ⟨f, rfl, rfl⟩)
          · exact .inr (.inr ⟨r, rfl, rfl⟩))
      refine ⟨s1.push (swigOwn e ⟨.frame, fr.id, []⟩), ?_, hb.next i2 d2 m2 t1.ifaces c2, m2, fun _ => p2⟩
      show (swigLayers e (swigGlobal e n) ⟨.frame, fr.id, []⟩ 0 fr.layers st >>= _) = _
      rw [h1]; rfl
    · rw [Bool.eq_false_iff.2 hu]
      exact ⟨st, rfl, hb.next hb.inv hb.done (fun _ h => h) rfl (fun _ h => .inl h), fun _ h => h, fun h => absurd h hu⟩

theorem Got.mono {st st' : SwigSt} (h : ∀ y ∈ st.out, y ∈ st'.out) {s : SStep} (hg : Got e st s) : Got e st' s := by
  cases s <;> exact fun hu => h _ (hg hu)

theorem calls_spec (ok : SwigOk e steps) {m n : Nat} (hR : Ranked e.find m rank) (hmn : m < n) (hmain : e.out = .code → MainFirst steps) :
    ∀ (b a : List SStep), steps = a ++ b → ∀ st, Between e steps a st → (∀ s ∈ a, Got e st s) →
      ∃ st', swigCalls e (swigGlobal e n) b st = .ok st' ∧ Between e steps steps st' ∧ ∀ s ∈ steps, Got e st' s
  | [], a, hs, st, hb, hg => by
    rw [List.append_nil] at hs
    subst hs
    exact ⟨st, rfl, hb, hg⟩
  | s :: b, a, hs, st, hb, hg => by
    obtain ⟨s1, h1, b1, m1, g1⟩ := call_step ok hR hmn hmain hs hb hg
    obtain ⟨s2, h2, b2, g2⟩ := calls_spec ok hR hmn hmain b (a ++ [s]) (by rw [hs]; simp) s1 b1 (fun s' hs' => by
      rcases List.mem_append.1 hs' with h | h
      · exact (hg s' h).mono m1
      · cases List.mem_singleton.1 h; exact g1)
    exact ⟨s2, by rw [swigCalls, h1]; exact h2, b2, g2⟩

end

/-! ## The calls -/

/-- Every message comes behind its interface, or its interface is one of those known. -/
def Mf : (SHolder → Prop) → List SStep → Prop
  | _, [] => True
  | k, s :: l => (∀ h m, s = .message h (some m) → k m) ∧ Mf (fun x => k x ∨ s = .iface x) l

theorem Mf.mono : ∀ {l : List SStep} {k k' : SHolder → Prop}, (∀ x, k x → k' x) → Mf k l → Mf k' l
  | [], _, _, _, _ => trivial
  | _ :: _, _, _, h, hm => ⟨fun h' m hs => h _ (hm.1 h' m hs), Mf.mono (fun _ hx => hx.imp (h _) id) hm.2⟩

theorem Mf.append : ∀ {l r : List SStep} {k : SHolder → Prop}, Mf k l → Mf (fun x => k x ∨ .iface x ∈ l) r → Mf k (l ++ r)
  | [], _, _, _, hr => hr.mono (fun _ h => h.elim id (fun h => nomatch h))
  | _ :: _, _, _, hl, hr => ⟨hl.1, hl.2.append (hr.mono (fun _ h => h.elim (fun h => .inl (.inl h)) (fun h =>
      (List.mem_cons.1 h).elim (fun h => .inl (.inr h.symm)) .inr)))⟩

theorem Mf.main : ∀ {l : List SStep} {k : SHolder → Prop}, Mf k l → ∀ a h m b, l = a ++ .message h (some m) :: b → k m ∨ SStep.iface m ∈ a
  | [], _, _, a, _, _, _, he => by simp at he
  | s :: l, k, hm, a, h, m, b, he => by
    cases a with
    | nil =>
      injection he with h1 _
      exact .inl (hm.1 h m h1)
    | cons x a =>
      injection he with h1 h2
      subst h1
      rcases hm.2.main a h m b h2 with (h3 | h3) | h3
      · exact .inl h3
      · exact .inr (by rw [h3]; exact List.mem_cons_self ..)
      · exact .inr (List.mem_cons_of_mem _ h3)

theorem Mf.map {α : Type} {c : α → SStep} : ∀ (l : List α) {k : SHolder → Prop}, (∀ x h m, c x = .message h (some m) → k m) → Mf k (l.map c)
  | [], _, _ => trivial
  | x :: l, _, h => ⟨fun h' m hs => h x h' m hs, Mf.map l (fun y h' m hs => .inl (h y h' m hs))⟩

mutual
theorem main_ns (k : SHolder → Prop) : ∀ x : SNs, Mf k (swigSteps .code x)
  | .mk subs fields main ifaces messages => by
    rw [swigSteps]
    refine (Mf.map fields (fun _ _ _ h => nomatch h)).append ((Mf.map main.toList (fun _ _ _ h => nomatch h)).append
      ((Mf.map ifaces (fun _ _ _ h => nomatch h)).append ((Mf.map messages (fun x h m he => ?_)).append (main_nss _ subs))))
    injection he with _ he
    subst he
    exact .inl (.inr (by simp))
theorem main_nss (k : SHolder → Prop) : ∀ l : List SNs, Mf k (swigStepsAll .code l)
  | [] => by rw [swigStepsAll]; trivial
  | x :: xs => by
    rw [swigStepsAll]
    exact (main_ns k x).append (main_nss _ xs)
end

theorem elements_main (nss : List SNs) (frames : List SFrame) : MainFirst (elements .code nss frames) := by
  intro a h m b he
  have : Mf (fun _ => False) (elements .code nss frames) := (main_nss _ nss).append (Mf.map frames (fun _ _ _ h => nomatch h))
  exact (this.main a h m b he).elim False.elim id

theorem itemCls_definition (o : SwigOut) (c : SCls) : itemCls (definition o c) = c := by
  unfold definition
  cases o with
  | code => rfl
  | defs => dsimp only; split <;> rfl

theorem defines_definition (o : SwigOut) (c : SCls) : defines (definition o c) = true := by
  unfold definition
  cases o with
  | code => rfl
  | defs => dsimp only; split <;> rfl

theorem Ordered.deep {e : SwigEnv} {steps : List SStep} {out : List SItem} (ho : Ordered e steps out) {c c' : SCls} (h : NeedsDeep e.find steps e.out c c') :
    ∀ a y b, out = a ++ y :: b → defines y = true → itemCls y = c → definition e.out c' ∈ a := by
  induction h with
  | one h =>
    rintro a y b hs hd rfl
    exact ho a y b hs hd _ h
  | more h _ ih =>
    rintro a y b hs hd rfl
    obtain ⟨a1, b1, h1⟩ := List.append_of_mem (ho a y b hs hd _ h)
    have := ih a1 (definition e.out _) (b1 ++ y :: b) (by rw [hs, h1]; simp) (defines_definition _ _) (itemCls_definition _ _)
    rw [h1]
    exact List.mem_append_left _ this

end SwigProofs

open SwigProofs

/-- C122: the generation of the code for SWIG, and of its definitions, ends without following a null pointer. Nothing is in the list twice; every class is
    defined behind all classes it needs, directly or by way of other classes; and what must be in the list is there. -/
theorem C122_order {e : SwigEnv} {nss : List SNs} {frames : List SFrame} {m n : Nat} (ok : SwigOk e (elements e.out nss frames)) (hl : Layered e.find m)
    (hn : m < n) : ∃ out, swigRun e n nss frames = .ok out ∧ out.Nodup ∧
      (∀ a y b, out = a ++ y :: b → defines y = true → ∀ c, NeedsDeep e.find (elements e.out nss frames) e.out (itemCls y) c → definition e.out c ∈ a) ∧
      ∀ c, Wanted e (elements e.out nss frames) c → definition e.out c ∈ out := by
  obtain ⟨rank, hb, hd⟩ := hl
  have h0 : Inv e (elements e.out nss frames) {} :=
    ⟨List.nodup_nil, fun _ h => (nomatch h), fun a _ _ h => by cases a <;> cases h⟩
  obtain ⟨st, h1, h2, h3⟩ := calls_spec ok (rank := rank) ⟨hb, hd⟩ hn (fun ho => by rw [ho]; exact elements_main nss frames) (elements e.out nss frames) [] rfl {}
    ⟨h0, fun _ h => (nomatch h), fun _ h => (nomatch h), fun _ _ h => (nomatch h)⟩ (fun _ h => (nomatch h))
  refine ⟨st.out, by unfold swigRun; exact (by rw [show swigCalls e (swigGlobal e n) (swigStepsAll e.out nss ++ frames.map .frame) {} = .ok st from h1]; rfl),
    h2.inv.nodup, fun a y b hs hy c hc => h2.inv.order.deep hc a y b hs hy rfl, fun c hc => ?_⟩
  rcases hc with ⟨r, h, hu, rfl⟩ | ⟨x, h, hu, rfl⟩ | ⟨x, m, h, hu, rfl⟩ | ⟨f, h, hu, rfl⟩
  · exact h3 _ h hu
  · exact h3 _ h hu
  · exact h3 _ h hu
  · exact h3 _ h hu

namespace SwigSample

open UseSample (u_plain u_ref s_own single)

/-- `A` is a plain field, `B` a list of `A`; `C` is not used. -/
def sfind (r : Str) : Option UField :=
  if r = ['A'] then some (.plain false)
  else if r = ['B'] then some (.list false (.ext ['A']) .none .none .none .none)
  else if r = ['C'] then some (.plain false)
  else none

def iface : SHolder := ⟨['I'], true, [.plain false]⟩

/-- A message with a bundle of a reference to `B` and of a `<variant>`. -/
def msg : SHolder := ⟨['M'], true, [.bundle false [.ref false ['B'], .variant false [.plain false]]]⟩

def frame : SFrame := ⟨['F'], true, [.own (.plain false), .ext ['A'], .none]⟩

def ns : SNs := .mk [] [['B'], ['A'], ['C']] (some iface) [iface] [msg]

def env (o : SwigOut) : SwigEnv := { out := o, listElem := fun c => c == globalCls ['A'], used := fun r => r == ['A'] || r == ['B'], find := sfind }

/-- The code: `A` comes in front of the list `B`, although it is called for later. -/
theorem code : swigRun (env .code) 3 [ns] [frame] = .ok [.code ⟨.global, ['A'], []⟩, .code ⟨.global, ['B'], []⟩, .code ⟨.iface, ['I'], [0]⟩, .code ⟨.iface, ['I'], []⟩,
    .code ⟨.message, ['M'], [0, 0]⟩, .code ⟨.message, ['M'], [0, 1, 0]⟩, .handler ⟨.message, ['M'], [0, 1]⟩, .code ⟨.message, ['M'], [0, 1]⟩,
    .code ⟨.message, ['M'], [0]⟩, .code ⟨.message, ['M'], []⟩, .code ⟨.frame, ['F'], [0, 0]⟩, .code ⟨.frame, ['F'], [0]⟩, .code ⟨.frame, ['F'], [1]⟩,
    .code ⟨.frame, ['F'], [2]⟩, .code ⟨.frame, ['F'], []⟩] := rfl

theorem plain_filled : Filled (.plain false) := fun x hx => by
  cases hx with
  | refl => exact fun h => nomatch h
  | step h => cases h

theorem plain_uses (P : Str → Prop) : ∀ r, Uses (.plain false) r → P r := fun r h => by
  cases h with
  | ext h => cases h
  | own h => cases h

theorem msg_filled : Filled (.bundle false [.ref false ['B'], .variant false [.plain false]]) := by
  intro x hx
  cases hx with
  | refl => simp [swigInner]
  | step h hx =>
    simp only [slots, List.map_cons, List.map_nil, List.mem_cons, List.not_mem_nil, or_false] at h
    rcases h with h | h <;> cases h
    · cases hx with
      | refl => simp [swigInner]
      | step h => simp [slots] at h
    · cases hx with
      | refl => simp [swigInner]
      | step h hx =>
        simp only [slots, List.map_cons, List.map_nil, List.mem_cons, List.not_mem_nil, or_false] at h
        cases h
        exact plain_filled x hx

theorem msg_uses {r : Str} (h : Uses (.bundle false [.ref false ['B'], .variant false [.plain false]]) r) : r = ['B'] := by
  cases h with
  | ext h => simp [slots] at h
  | own h hx =>
    simp only [slots, List.map_cons, List.map_nil, List.mem_cons, List.not_mem_nil, or_false] at h
    rcases h with h | h <;> cases h
    · cases hx with
      | ext h => simpa [slots] using h
      | own h => simp [slots] at h
    · cases hx with
      | ext h => simp [slots] at h
      | own h hx =>
        simp only [slots, List.map_cons, List.map_nil, List.mem_cons, List.not_mem_nil, or_false] at h
        cases h
        exact plain_uses (fun r => r = ['B']) r hx

theorem list_uses {r : Str} (h : Uses (.list false (.ext ['A']) .none .none .none .none) r) : r = ['A'] := by
  cases h with
  | ext h => simpa [slots] using h
  | own h => simp [slots] at h

theorem list_filled : Filled (.list false (.ext ['A']) .none .none .none .none) := fun x hx => by
  cases hx with
  | refl => simp [swigInner]
  | step h => simp [slots] at h

theorem found {r : Str} {f : UField} (h : sfind r = some f) :
    (f = .plain false ∧ (r = ['A'] ∨ r = ['C'])) ∨ (f = .list false (.ext ['A']) .none .none .none .none ∧ r = ['B']) := by
  unfold sfind at h
  split at h
  · cases h; exact .inl ⟨rfl, .inl ‹_›⟩
  · split at h
    · cases h; exact .inr ⟨rfl, ‹_›⟩
    · split at h
      · cases h; exact .inl ⟨rfl, .inr ‹_›⟩
      · cases h

theorem steps_cases {o : SwigOut} {s : SStep} (h : s ∈ elements o [ns] [frame]) :
    s = .field ['B'] ∨ s = .field ['A'] ∨ s = .field ['C'] ∨ s = .iface iface ∨ s = .message msg (some iface) ∨ s = .frame frame := by
  cases o <;> (simp [elements, swigStepsAll, swigSteps, ns] at h; rcases h with h | h | h | h | h | h <;> simp [h])

theorem ok (o : SwigOut) : SwigOk (env o) (elements o [ns] [frame]) := by
  refine ⟨fun r h => ?_, fun r f h => ?_, fun r f hu h r' hr => ?_, fun h hs _ f hf => ?_, fun h m hs _ f hf => ?_, fun fr hs _ f hf => ?_, fun fr hs _ r hr => ?_,
    fun h m hs => ?_, fun h h' hs hs' _ => ?_, ?_, ?_⟩
  · simp only [env, Bool.or_eq_true, beq_iff_eq] at h
    rcases h with rfl | rfl <;> rfl
  · rcases found h with ⟨rfl, _⟩ | ⟨rfl, _⟩
    · exact plain_filled
    · exact list_filled
  · rcases found h with ⟨rfl, _⟩ | ⟨rfl, _⟩
    · exact plain_uses (fun r => (env o).used r = true) r' hr
    · rw [list_uses hr]; rfl
  · rcases steps_cases hs with h | h | h | h | h | h <;> cases h
    cases List.mem_singleton.1 hf
    exact ⟨plain_filled, plain_uses _⟩
  · rcases steps_cases hs with h | h | h | h | h | h <;> cases h
    cases List.mem_singleton.1 hf
    exact ⟨msg_filled, fun r hr => by rw [msg_uses hr]; rfl⟩
  · rcases steps_cases hs with h | h | h | h | h | h <;> cases h
    simp only [frame, List.mem_cons, List.not_mem_nil, or_false] at hf
    rcases hf with hf | hf | hf <;> cases hf
    exact ⟨plain_filled, plain_uses _⟩
  · rcases steps_cases hs with h | h | h | h | h | h <;> cases h
    simp only [frame, List.mem_cons, List.not_mem_nil, or_false] at hr
    rcases hr with hr | hr | hr <;> cases hr
    rfl
  · rcases steps_cases hs with h | h | h | h | h | h <;> cases h
    rfl
  · rcases steps_cases hs with h | h | h | h | h | h <;> cases h
    rcases steps_cases hs' with h | h | h | h | h | h <;> cases h
    rfl
  · cases o <;> simp [elements, swigStepsAll, swigSteps, ns]
  · cases o <;> simp [elements, swigStepsAll, swigSteps, ns]

theorem layered : Layered sfind 2 := by
  refine ⟨fun r => if r = ['B'] then 1 else 0, fun r _ => by dsimp only; split <;> omega, fun r f h r' hr => ?_⟩
  rcases found h with ⟨rfl, _⟩ | ⟨rfl, rfl⟩
  · exact (plain_uses (fun _ => False) r' hr).elim
  · rw [list_uses hr]; exact ⟨rfl, by decide⟩

/-- The conditions of C122 are met, and the class of the list needs that of the element. -/
example : ∃ out, swigRun (env .code) 3 [ns] [frame] = .ok out ∧ out.Nodup ∧
    (∀ a y b, out = a ++ y :: b → defines y = true → ∀ c, NeedsDeep sfind (elements .code [ns] [frame]) .code (itemCls y) c → definition .code c ∈ a) ∧
    NeedsDeep sfind (elements .code [ns] [frame]) .code (globalCls ['B']) (globalCls ['A']) ∧
    Wanted (env .code) (elements .code [ns] [frame]) (globalCls ['B']) := by
  obtain ⟨out, h1, h2, h3, _⟩ := C122_order (e := env .code) (nss := [ns]) (frames := [frame]) (ok .code) layered (by decide : 2 < 3)
  exact ⟨out, h1, h2, h3, .one (.refers (f := .list false (.ext ['A']) .none .none .none .none) (.global (p := []) rfl (.refl _)) (List.mem_singleton.2 rfl)),
    .inl ⟨['B'], by simp [elements, swigStepsAll, swigSteps, ns], rfl, rfl⟩⟩

end SwigSample

end Commsdsl.Props
