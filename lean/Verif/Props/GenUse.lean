import Verif.Spec.GenUse

/-! C121: the global fields that are generated are those in use. -/

namespace Commsdsl.Props

open Commsdsl.Gen Commsdsl.Spec

namespace UseProofs

theorem own_lt {f g : UField} (h : .own g ∈ slots f) : sizeOf g < sizeOf f := by
  cases f with
  | plain b => cases h
  | bitfield b ms =>
    obtain ⟨y, hy, he⟩ := List.mem_map.1 h
    cases he
    have := List.sizeOf_lt_of_mem hy
    simp only [UField.bitfield.sizeOf_spec]
    omega
  | bundle b ms =>
    obtain ⟨y, hy, he⟩ := List.mem_map.1 h
    cases he
    have := List.sizeOf_lt_of_mem hy
    simp only [UField.bundle.sizeOf_spec]
    omega
  | variant b ms =>
    obtain ⟨y, hy, he⟩ := List.mem_map.1 h
    cases he
    have := List.sizeOf_lt_of_mem hy
    simp only [UField.variant.sizeOf_spec]
    omega
  | string b p =>
    have := List.mem_singleton.1 h
    subst this
    simp only [UField.string.sizeOf_spec, USlot.own.sizeOf_spec]
    omega
  | data b p =>
    have := List.mem_singleton.1 h
    subst this
    simp only [UField.data.sizeOf_spec, USlot.own.sizeOf_spec]
    omega
  | list b e n l el t =>
    simp only [slots, List.mem_cons, List.not_mem_nil, or_false] at h
    simp only [UField.list.sizeOf_spec]
    rcases h with h | h | h | h | h <;> (subst h; simp only [USlot.own.sizeOf_spec]; omega)
  | ref b r => cases List.mem_singleton.1 h
  | optional b p =>
    have := List.mem_singleton.1 h
    subst this
    simp only [UField.optional.sizeOf_spec, USlot.own.sizeOf_spec]
    omega

theorem ind {P : UField → Prop} (h : ∀ f, (∀ g, .own g ∈ slots f → P g) → P f) (f : UField) : P f :=
  h f (fun g hg => have := own_lt hg; ind h g)
termination_by sizeOf f

/-- A step after the other. -/
def chain {α S : Type} (h : α → S → Res S) : List α → S → Res S
  | [], st => pure st
  | a :: as, st => h a st >>= chain h as

theorem bind_pure {α : Type} (x : Res α) : (x >>= fun a => pure a) = x := by cases x <;> rfl

theorem markAll_eq (g : Str → UseSt → Res UseSt) (ms : List UField) (st : UseSt) : markAll g ms st = chain (markSlot g) (ms.map .own) st := by
  induction ms generalizing st with
  | nil => rw [markAll]; rfl
  | cons f fs ih =>
    rw [markAll]
    show _ = (markSlot g (.own f) st >>= chain (markSlot g) (fs.map .own))
    rw [markSlot]
    congr 1
    funext s
    exact ih s

theorem markParts_eq (g : Str → UseSt → Res UseSt) (f : UField) (st : UseSt) : markParts g f st = chain (markSlot g) (slots f) st := by
  cases f with
  | plain b => rw [markParts]; rfl
  | bitfield b ms => rw [markParts]; exact markAll_eq g ms st
  | bundle b ms => rw [markParts]; exact markAll_eq g ms st
  | variant b ms => rw [markParts]; exact markAll_eq g ms st
  | string b p => rw [markParts]; exact (bind_pure _).symm
  | data b p => rw [markParts]; exact (bind_pure _).symm
  | list b e n l el t =>
    rw [markParts]
    simp only [slots, chain, bind_pure]
  | ref b r => rw [markParts]; simp only [slots, chain, bind_pure]; rw [markSlot]
  | optional b p => rw [markParts]; exact (bind_pure _).symm

theorem prepAll_eq (p g : Str → UseSt → Res UseSt) (ms : List UField) (st : UseSt) : prepAll p g ms st = chain (prepSlot p g) (ms.map .own) st := by
  induction ms generalizing st with
  | nil => rw [prepAll]; rfl
  | cons f fs ih =>
    rw [prepAll]
    show _ = (prepSlot p g (.own f) st >>= chain (prepSlot p g) (fs.map .own))
    rw [prepSlot]
    cases prepParts p g f st with
    | ok s =>
      show ((if f.force = true then markParts g f s else pure s) >>= fun st => prepAll p g fs st) = _
      congr 1
      funext s
      exact ih s
    | err => rfl
    | ub => rfl

theorem prepParts_eq (p g : Str → UseSt → Res UseSt) (f : UField) (st : UseSt) : prepParts p g f st = chain (prepSlot p g) (slots f) st := by
  cases f with
  | plain b => rw [prepParts]; rfl
  | bitfield b ms => rw [prepParts]; exact prepAll_eq p g ms st
  | bundle b ms => rw [prepParts]; exact prepAll_eq p g ms st
  | variant b ms => rw [prepParts]; exact prepAll_eq p g ms st
  | string b s => rw [prepParts]; exact (bind_pure _).symm
  | data b s => rw [prepParts]; exact (bind_pure _).symm
  | list b e n l el t =>
    rw [prepParts]
    simp only [slots, chain, bind_pure]
  | ref b r => rw [prepParts]; simp only [slots, chain, bind_pure]; rw [prepSlot]
  | optional b s => rw [prepParts]; exact (bind_pure _).symm

/-- The field `f` leads to the global field `r`. -/
inductive Leads (find : Str → Option UField) : UField → Str → Prop where
  | direct {f r} : Uses f r → Leads find f r
  | step {f r g r'} : Uses f r → find r = some g → Leads find g r' → Leads find f r'

theorem Leads.trans {find : Str → Option UField} {f g : UField} {r r' : Str} (h : Leads find f r) (hr : find r = some g) (h' : Uses g r') :
    Leads find f r' := by
  induction h with
  | direct hu => exact .step hu hr (.direct h')
  | step hu hf _ ih => exact .step hu hf (ih hr)

theorem uses_slot {f : UField} {r : Str} : Uses f r ↔ ∃ s ∈ slots f, s = .ext r ∨ ∃ g, s = .own g ∧ Uses g r := by
  constructor
  · intro h
    cases h with
    | ext h => exact ⟨_, h, .inl rfl⟩
    | own h hu => exact ⟨_, h, .inr ⟨_, rfl, hu⟩⟩
  · rintro ⟨s, hs, rfl | ⟨g, rfl, hu⟩⟩
    · exact .ext hs
    · exact .own hs hu

/-- The global fields of a slot. -/
def SlotUses (s : USlot UField) (r : Str) : Prop := s = .ext r ∨ ∃ g, s = .own g ∧ Uses g r

/-- The effect of marking: what is marked is what satisfies `P`, and nothing else happens. -/
def Marks (P : Str → Prop) (st st' : UseSt) : Prop := st'.prepared = st.prepared ∧ ∀ x, x ∈ st'.used ↔ x ∈ st.used ∨ P x

/-- Marking global fields works for those in question, in a state with these prepared fields. -/
def Marker (find : Str → Option UField) (g : Str → UseSt → Res UseSt) (l : List Str) (r : Str) : Prop :=
  ∀ st, st.prepared = l → ∃ st', g r st = .ok st' ∧ Marks (fun x => x = r ∨ ∃ f, find r = some f ∧ Leads find f x) st st'

theorem chain_marks (find : Str → Option UField) (g : Str → UseSt → Res UseSt) (l : List Str) :
    ∀ (ss : List (USlot UField)),
      (∀ s ∈ ss, ∀ st, st.prepared = l → ∃ st', markSlot g s st = .ok st' ∧
        Marks (fun x => ∃ r, SlotUses s r ∧ (x = r ∨ ∃ f, find r = some f ∧ Leads find f x)) st st') →
      ∀ st, st.prepared = l → ∃ st', chain (markSlot g) ss st = .ok st' ∧
        Marks (fun x => ∃ s ∈ ss, ∃ r, SlotUses s r ∧ (x = r ∨ ∃ f, find r = some f ∧ Leads find f x)) st st'
  | [], _, st, hl => ⟨st, rfl, rfl, fun x => ⟨.inl, fun h => h.elim id (fun ⟨_, h, _⟩ => nomatch h)⟩⟩
  | s :: ss, hs, st, hl => by
    obtain ⟨s1, h1, hp1, hm1⟩ := hs s (List.mem_cons_self ..) st hl
    obtain ⟨s2, h2, hp2, hm2⟩ := chain_marks find g l ss (fun s' h => hs s' (List.mem_cons_of_mem _ h)) s1 (hp1.trans hl)
    refine ⟨s2, ?_, hp2.trans hp1, fun x => ?_⟩
    · show (markSlot g s st >>= chain (markSlot g) ss) = _
      rw [h1]; exact h2
    · rw [hm2 x, hm1 x]
      constructor
      · rintro ((h | h) | ⟨s', hs', h⟩)
        · exact .inl h
        · exact .inr ⟨s, List.mem_cons_self .., h⟩
        · exact .inr ⟨s', List.mem_cons_of_mem _ hs', h⟩
      · rintro (h | ⟨s', hs', h⟩)
        · exact .inl (.inl h)
        · rcases List.mem_cons.1 hs' with rfl | hs'
          · exact .inl (.inr h)
          · exact .inr ⟨s', hs', h⟩

theorem parts_marks (find : Str → Option UField) (g : Str → UseSt → Res UseSt) (l : List Str) (f : UField) :
    (∀ r, Uses f r → Marker find g l r) → ∀ st, st.prepared = l → ∃ st', markParts g f st = .ok st' ∧ Marks (fun x => Leads find f x) st st' := by
  induction f using ind with
  | h f ih =>
    intro hg st hl
    have key := chain_marks find g l (slots f) (by
      intro s hs st hl
      cases s with
      | none =>
        refine ⟨st, by rw [markSlot]; rfl, rfl, fun x => ⟨.inl, ?_⟩⟩
        rintro (h | ⟨r, h | ⟨y, h, _⟩, _⟩)
        · exact h
        · cases h
        · cases h
      | ext r =>
        obtain ⟨s1, h1, hp, hm⟩ := hg r (.ext hs) st hl
        refine ⟨s1, by rw [markSlot]; exact h1, hp, fun x => ?_⟩
        rw [hm x]
        constructor
        · rintro (h | h)
          · exact .inl h
          · exact .inr ⟨r, .inl rfl, h⟩
        · rintro (h | ⟨r', h' | ⟨y, h', _⟩, h⟩)
          · exact .inl h
          · cases h'; exact .inr h
          · cases h'
      | own y =>
        obtain ⟨s1, h1, hp, hm⟩ := ih y hs (fun r hr => hg r (.own hs hr)) st hl
        refine ⟨s1, by rw [markSlot]; exact h1, hp, fun x => ?_⟩
        rw [hm x]
        constructor
        · rintro (h | h)
          · exact .inl h
          · cases h with
            | direct hu => exact .inr ⟨_, .inr ⟨y, rfl, hu⟩, .inl rfl⟩
            | step hu hf hL => exact .inr ⟨_, .inr ⟨y, rfl, hu⟩, .inr ⟨_, hf, hL⟩⟩
        · rintro (h | ⟨r', h' | ⟨z, h', hu⟩, h⟩)
          · exact .inl h
          · cases h'
          · cases h'
            rcases h with rfl | ⟨q, hq, hL⟩
            · exact .inr (.direct hu)
            · exact .inr (.step hu hq hL)) st hl
    obtain ⟨s1, h1, hp, hm⟩ := key
    refine ⟨s1, by rw [markParts_eq]; exact h1, hp, fun x => ?_⟩
    rw [hm x]
    constructor
    · rintro (h | ⟨s, hs, r, hu, h⟩)
      · exact .inl h
      · have hu : Uses f r := uses_slot.2 ⟨s, hs, hu⟩
        rcases h with rfl | ⟨q, hq, hL⟩
        · exact .inr (.direct hu)
        · exact .inr (.step hu hq hL)
    · rintro (h | h)
      · exact .inl h
      · cases h with
        | direct hu =>
          obtain ⟨s, hs, h⟩ := uses_slot.1 hu
          exact .inr ⟨s, hs, _, h, .inl rfl⟩
        | step hu hq hL =>
          obtain ⟨s, hs, h⟩ := uses_slot.1 hu
          exact .inr ⟨s, hs, _, h, .inr ⟨_, hq, hL⟩⟩

/-- The fields used by prepared ones are prepared. -/
def Closed (find : Str → Option UField) (l : List Str) : Prop := ∀ r ∈ l, ∀ f, find r = some f → ∀ r', Uses f r' → r' ∈ l

/-- The order of references. -/
structure Ranked (find : Str → Option UField) (n : Nat) (rank : Str → Nat) : Prop where
  bound : ∀ r, (find r).isSome = true → rank r < n
  down : ∀ r f, find r = some f → ∀ r', Uses f r' → (find r').isSome = true ∧ rank r' < rank r

theorem markGlobal_spec {find : Str → Option UField} {m : Nat} {rank : Str → Nat} (hr : Ranked find m rank) {l : List Str} (hl : Closed find l) :
    ∀ n r, rank r < n → (find r).isSome = true → r ∈ l → Marker find (markGlobal find n) l r
  | 0, _, h, _, _ => absurd h (Nat.not_lt_zero _)
  | n + 1, r, h, hs, hm => by
    intro st hp
    obtain ⟨f, hf⟩ := Option.isSome_iff_exists.1 hs
    have key := parts_marks find (markGlobal find n) l f (fun r' hu =>
      markGlobal_spec hr hl n r' (by have := (hr.down r f hf r' hu).2; omega) (hr.down r f hf r' hu).1 (hl r hm f hf r' hu))
      { st with used := r :: st.used } hp
    obtain ⟨s1, h1, hp1, hm1⟩ := key
    refine ⟨s1, ?_, hp1, fun x => ?_⟩
    · rw [markGlobal, hf]
      show (if r ∈ st.prepared then markParts (markGlobal find n) f { st with used := r :: st.used } else _) = _
      rw [if_pos (by rw [hp]; exact hm)]
      exact h1
    · rw [hm1 x]
      show x ∈ r :: st.used ∨ _ ↔ _
      rw [List.mem_cons]
      constructor
      · rintro ((rfl | h) | h)
        · exact .inr (.inl rfl)
        · exact .inl h
        · exact .inr (.inr ⟨f, hf, h⟩)
      · rintro (h | rfl | ⟨q, hq, h⟩)
        · exact .inl (.inr h)
        · exact .inl (.inl rfl)
        · cases hf.symm.trans hq
          exact .inr h

/-- What holds of the marks throughout. `N` is what may be marked. -/
structure Inv0 (find : Str → Option UField) (N : Str → Prop) (st : UseSt) : Prop where
  closed : Closed find st.prepared
  found : ∀ r ∈ st.prepared, (find r).isSome = true
  usedPrep : ∀ r ∈ st.used, r ∈ st.prepared
  usedClosed : ∀ r ∈ st.used, ∀ f, find r = some f → ∀ r', Uses f r' → r' ∈ st.used
  sound : ∀ r ∈ st.used, N r

/-- What the forced fields inside `f` use is marked. -/
def Inner (f : UField) (st : UseSt) : Prop := ∀ x, Owns f x → x.force = true → ∀ r, Uses x r → r ∈ st.used

/-- What must be generated because of the property of the schema is marked, as far as the fields are prepared. -/
def Forced (find : Str → Option UField) (st : UseSt) : Prop :=
  ∀ r ∈ st.prepared, ∀ f, find r = some f → (f.force = true → r ∈ st.used) ∧ Inner f st

/-- Nothing is forgotten. -/
structure Grow (st st' : UseSt) : Prop where
  prepared : ∀ r ∈ st.prepared, r ∈ st'.prepared
  used : ∀ r ∈ st.used, r ∈ st'.used

theorem Grow.refl (st : UseSt) : Grow st st := ⟨fun _ h => h, fun _ h => h⟩
theorem Grow.trans {a b c : UseSt} (h : Grow a b) (h' : Grow b c) : Grow a c :=
  ⟨fun r hr => h'.prepared r (h.prepared r hr), fun r hr => h'.used r (h.used r hr)⟩

theorem Inner.grow {f : UField} {a b : UseSt} (h : Inner f a) (hg : Grow a b) : Inner f b := fun x hx hf r hr => hg.used r (h x hx hf r hr)

theorem Forced.same {find : Str → Option UField} {a b : UseSt} (h : Forced find a) (hg : Grow a b) (hp : b.prepared = a.prepared) : Forced find b := by
  intro r hr f hf
  rw [hp] at hr
  exact ⟨fun hx => hg.used r ((h r hr f hf).1 hx), (h r hr f hf).2.grow hg⟩

variable {find : Str → Option UField} {N : Str → Prop} {m : Nat} {rank : Str → Nat}

theorem needed_leads (hN : ∀ r f r', N r → find r = some f → Uses f r' → N r') {f : UField} {x : Str} (h : Leads find f x)
    (hf : ∀ r, Uses f r → N r) : N x := by
  induction h with
  | direct hu => exact hf _ hu
  | step hu hq _ ih => exact ih (fun r hr => hN _ _ r (hf _ hu) hq hr)

theorem leads_prepared {l : List Str} (hl : Closed find l) {f : UField} {x : Str} (h : Leads find f x) (hf : ∀ r, Uses f r → r ∈ l) : x ∈ l := by
  induction h with
  | direct hu => exact hf _ hu
  | step hu hq _ ih => exact ih (fun r hr => hl _ (hf _ hu) _ hq r hr)

/-- Marking keeps what holds. -/
theorem marks_inv {P : Str → Prop} {st st' : UseSt} (hi : Inv0 find N st)
    (hm : Marks P st st') (hp : ∀ x, P x → x ∈ st.prepared ∧ N x) (hc : ∀ x, P x → ∀ f, find x = some f → ∀ r, Uses f r → P r) :
    Inv0 find N st' ∧ Grow st st' := by
  refine ⟨⟨by rw [hm.1]; exact hi.closed, by rw [hm.1]; exact hi.found, fun r hr => ?_, fun r hr f hf r' hu => ?_, fun r hr => ?_⟩,
    fun r hr => by rw [hm.1]; exact hr, fun r hr => (hm.2 r).2 (.inl hr)⟩
  · rw [hm.1]
    exact ((hm.2 r).1 hr).elim (hi.usedPrep r) (fun h => (hp r h).1)
  · rw [hm.2]
    exact ((hm.2 r).1 hr).elim (fun h => .inl (hi.usedClosed r h f hf r' hu)) (fun h => .inr (hc r h f hf r' hu))
  · exact ((hm.2 r).1 hr).elim (hi.sound r) (fun h => (hp r h).2)

/-- Marking a field. -/
theorem mark_field (hr : Ranked find m rank) (hN : ∀ r f r', N r → find r = some f → Uses f r' → N r') {f : UField} {st : UseSt}
    (hi : Inv0 find N st) (hu : ∀ r, Uses f r → r ∈ st.prepared) (hn : ∀ r, Uses f r → N r) :
    ∃ st', markParts (markGlobal find m) f st = .ok st' ∧ Inv0 find N st' ∧ Grow st st' ∧ st'.prepared = st.prepared ∧ ∀ r, Uses f r → r ∈ st'.used := by
  obtain ⟨s1, h1, hm⟩ := parts_marks find (markGlobal find m) st.prepared f (fun r h =>
    markGlobal_spec hr hi.closed m r (hr.bound r (hi.found r (hu r h))) (hi.found r (hu r h)) (hu r h)) st rfl
  have := marks_inv hi hm (fun x hx => ⟨leads_prepared hi.closed hx hu, needed_leads hN hx hn⟩) (fun x hx q hq r h => hx.trans hq h)
  exact ⟨s1, h1, this.1, this.2, hm.1, fun r h => (hm.2 r).2 (.inr (.direct h))⟩

/-- Marking a global field. -/
theorem mark_global (hr : Ranked find m rank) (hN : ∀ r f r', N r → find r = some f → Uses f r' → N r') {r : Str} {st : UseSt}
    (hi : Inv0 find N st) (hp : r ∈ st.prepared) (hn : N r) :
    ∃ st', markGlobal find m r st = .ok st' ∧ Inv0 find N st' ∧ Grow st st' ∧ st'.prepared = st.prepared ∧ r ∈ st'.used := by
  obtain ⟨s1, h1, hm⟩ := markGlobal_spec hr hi.closed m r (hr.bound r (hi.found r hp)) (hi.found r hp) hp st rfl
  have := marks_inv hi hm (fun x hx => by
      rcases hx with rfl | ⟨q, hq, hL⟩
      · exact ⟨hp, hn⟩
      · exact ⟨leads_prepared hi.closed hL (fun r' h => hi.closed r hp q hq r' h), needed_leads hN hL (fun r' h => hN r q r' hn hq h)⟩)
    (fun x hx q hq r' h => by
      rcases hx with rfl | ⟨q', hq', hL⟩
      · exact .inr ⟨q, hq, .direct h⟩
      · exact .inr ⟨q', hq', hL.trans hq h⟩)
  exact ⟨s1, h1, this.1, this.2, hm.1, (hm.2 r).2 (.inr (.inl rfl))⟩

/-- What holds between the steps. -/
def Inv (find : Str → Option UField) (N : Str → Prop) (st : UseSt) : Prop := Inv0 find N st ∧ Forced find st

/-- A step that goes well and has an effect. -/
def Act (find : Str → Option UField) (N : Str → Prop) (h : UseSt → Res UseSt) (Q : UseSt → Prop) : Prop :=
  ∀ st, Inv find N st → ∃ st', h st = .ok st' ∧ Inv find N st' ∧ Grow st st' ∧ Q st'

/-- The effect stays. -/
def Stays (Q : UseSt → Prop) : Prop := ∀ a b, Grow a b → Q a → Q b

theorem Act.nop {h : UseSt → Res UseSt} {Q : UseSt → Prop} (hh : ∀ st, h st = .ok st) (hq : ∀ st, Q st) : Act find N h Q :=
  fun st hi => ⟨st, hh st, hi, .refl st, hq st⟩

theorem Act.weaken {h : UseSt → Res UseSt} {Q Q' : UseSt → Prop} (ha : Act find N h Q) (hq : ∀ st, Q st → Q' st) : Act find N h Q' :=
  fun st hi => let ⟨s1, h1, i1, g1, q1⟩ := ha st hi; ⟨s1, h1, i1, g1, hq s1 q1⟩

theorem Act.bind {h h' : UseSt → Res UseSt} {Q Q' : UseSt → Prop} (hs : Stays Q) (ha : Act find N h Q) (ha' : Act find N h' Q') :
    Act find N (fun st => h st >>= h') (fun st => Q st ∧ Q' st) := by
  intro st hi
  obtain ⟨s1, h1, i1, g1, q1⟩ := ha st hi
  obtain ⟨s2, h2, i2, g2, q2⟩ := ha' s1 i1
  refine ⟨s2, ?_, i2, g1.trans g2, hs s1 s2 g2 q1, q2⟩
  show (h st >>= h') = _
  rw [h1]; exact h2

theorem Act.chain {α : Type} {h : α → UseSt → Res UseSt} {Q : α → UseSt → Prop} (hs : ∀ a, Stays (Q a)) :
    ∀ (as : List α), (∀ a ∈ as, Act find N (h a) (Q a)) → Act find N (chain h as) (fun st => ∀ a ∈ as, Q a st)
  | [], _ => .nop (fun _ => rfl) (fun _ _ h => nomatch h)
  | a :: as, ha => ((ha a (List.mem_cons_self ..)).bind (hs a) (Act.chain hs as (fun b hb => ha b (List.mem_cons_of_mem _ hb)))).weaken
      (fun st ⟨h1, h2⟩ b hb => by
        rcases List.mem_cons.1 hb with rfl | hb
        · exact h1
        · exact h2 b hb)

theorem stays_prepared (P : Str → Prop) : Stays (fun st => ∀ r, P r → r ∈ st.prepared) := fun _ _ g h r hr => g.prepared r (h r hr)
theorem stays_used (P : Str → Prop) : Stays (fun st => ∀ r, P r → r ∈ st.used) := fun _ _ g h r hr => g.used r (h r hr)
theorem stays_inner (f : UField) : Stays (Inner f) := fun _ _ g h => h.grow g

/-- What is there after a field is prepared. -/
def Ready (f : UField) (st : UseSt) : Prop := (∀ r, Uses f r → r ∈ st.prepared) ∧ Inner f st

theorem stays_ready (f : UField) : Stays (Ready f) := fun _ _ g h => ⟨fun r hr => g.prepared r (h.1 r hr), h.2.grow g⟩

/-- What is there after a slot is prepared. -/
def SlotReady (s : USlot UField) (st : UseSt) : Prop :=
  match s with
  | .none => True
  | .ext r => r ∈ st.prepared
  | .own f => Ready f st

theorem stays_slot (s : USlot UField) : Stays (SlotReady s) := by
  intro a b g h
  cases s with
  | none => trivial
  | ext r => exact g.prepared r h
  | own f => exact stays_ready f a b g h

/-- The mark of a forced field behind its preparation. -/
theorem finish (hr : Ranked find m rank) (hN : ∀ r f r', N r → find r = some f → Uses f r' → N r') {f : UField} {st : UseSt}
    (hi : Inv find N st) (hu : ∀ r, Uses f r → r ∈ st.prepared) (hin : ∀ g, .own g ∈ slots f → Inner g st)
    (hn : f.force = true → ∀ r, Uses f r → N r) :
    ∃ st', (if f.force = true then markParts (markGlobal find m) f st else pure st : Res UseSt) = .ok st' ∧ Inv find N st' ∧ Grow st st' ∧
      Ready f st' := by
  by_cases hf : f.force = true
  · rw [if_pos hf]
    obtain ⟨s1, h1, i1, g1, p1, u1⟩ := mark_field hr hN hi.1 hu (hn hf)
    refine ⟨s1, h1, ⟨i1, hi.2.same g1 p1⟩, g1, fun r h => g1.prepared r (hu r h), fun x hx hxf r h => ?_⟩
    cases hx with
    | refl => exact u1 r h
    | step hg hx => exact g1.used r (hin _ hg x hx hxf r h)
  · rw [if_neg hf]
    refine ⟨st, rfl, hi, .refl st, hu, fun x hx hxf r h => ?_⟩
    cases hx with
    | refl => exact absurd hxf hf
    | step hg hx => exact hin _ hg x hx hxf r h

theorem slots_ready {f : UField} {st : UseSt} (h : ∀ s ∈ slots f, SlotReady s st) :
    (∀ r, Uses f r → r ∈ st.prepared) ∧ ∀ g, .own g ∈ slots f → Inner g st := by
  refine ⟨fun r hu => ?_, fun g hg => (h _ hg).2⟩
  cases hu with
  | ext hs => exact h _ hs
  | own hs hu => exact (h _ hs).1 r hu

/-- Preparing a field, up to its own mark. -/
theorem prep_parts (hr : Ranked find m rank) (hN : ∀ r f r', N r → find r = some f → Uses f r' → N r') {p : Str → UseSt → Res UseSt} (f : UField) :
    (∀ r, Uses f r → Act find N (p r) (fun st => r ∈ st.prepared)) → (∀ x, Owns f x → x.force = true → ∀ r, Uses x r → N r) →
    Act find N (prepParts p (markGlobal find m) f) (fun st => (∀ r, Uses f r → r ∈ st.prepared) ∧ ∀ g, .own g ∈ slots f → Inner g st) := by
  induction f using ind with
  | h f ih =>
    intro hp hn
    have key : Act find N (chain (prepSlot p (markGlobal find m)) (slots f)) (fun st => ∀ s ∈ slots f, SlotReady s st) := by
      refine Act.chain (fun s => stays_slot s) (slots f) (fun s hs => ?_)
      cases s with
      | none => exact .nop (fun st => by rw [prepSlot]; rfl) (fun _ => trivial)
      | ext r =>
        intro st hi
        rw [prepSlot]
        exact hp r (.ext hs) st hi
      | own g =>
        intro st hi
        obtain ⟨s1, h1, i1, g1, q1⟩ := ih g hs (fun r h => hp r (.own hs h)) (fun x hx => hn x (.step hs hx)) st hi
        obtain ⟨s2, h2, i2, g2, q2⟩ := finish hr hN i1 q1.1 q1.2 (fun hf => hn g (.step hs (.refl g)) hf)
        refine ⟨s2, ?_, i2, g1.trans g2, q2⟩
        rw [prepSlot, h1]
        exact h2
    intro st hi
    obtain ⟨s1, h1, i1, g1, q1⟩ := key st hi
    exact ⟨s1, by rw [prepParts_eq]; exact h1, i1, g1, slots_ready q1⟩

/-- Preparing a field of a message, an interface or a layer. -/
theorem prep_field (hr : Ranked find m rank) (hN : ∀ r f r', N r → find r = some f → Uses f r' → N r') {p : Str → UseSt → Res UseSt} (f : UField)
    (hp : ∀ r, Uses f r → Act find N (p r) (fun st => r ∈ st.prepared)) (hn : ∀ x, Owns f x → x.force = true → ∀ r, Uses x r → N r) :
    Act find N (prepField p (markGlobal find m) f) (Ready f) := by
  intro st hi
  obtain ⟨s1, h1, i1, g1, q1⟩ := prep_parts hr hN f hp hn st hi
  obtain ⟨s2, h2, i2, g2, q2⟩ := finish hr hN i1 q1.1 q1.2 (fun hf => hn f (.refl f) hf)
  refine ⟨s2, ?_, i2, g1.trans g2, q2⟩
  rw [prepField, h1]
  exact h2

/-- Preparing a global field. -/
theorem prep_global (hr : Ranked find m rank) (hN : ∀ r f r', N r → find r = some f → Uses f r' → N r')
    (hforce : ∀ r f, find r = some f → f.force = true → N r)
    (hinner : ∀ r f x, find r = some f → Owns f x → x.force = true → ∀ r', Uses x r' → N r') :
    ∀ k r, rank r < k → (find r).isSome = true → Act find N (prepGlobal find m k r) (fun st => r ∈ st.prepared)
  | 0, _, h, _ => absurd h (Nat.not_lt_zero _)
  | k + 1, r, hk, hs => by
    intro st hi
    by_cases hp : r ∈ st.prepared
    · exact ⟨st, by rw [prepGlobal, if_pos hp]; rfl, hi, .refl st, hp⟩
    obtain ⟨f, hf⟩ := Option.isSome_iff_exists.1 hs
    obtain ⟨s1, h1, i1, g1, q1⟩ := prep_parts hr hN f (fun r' hu => prep_global hr hN hforce hinner k r'
      (by have := (hr.down r f hf r' hu).2; omega) (hr.down r f hf r' hu).1) (fun x hx => hinner r f x hf hx) st hi
    have gg : Grow s1 { s1 with prepared := r :: s1.prepared } := ⟨fun x hx => List.mem_cons_of_mem _ hx, fun x hx => hx⟩
    have i0 : Inv0 find N { s1 with prepared := r :: s1.prepared } := by
      refine ⟨fun x hx q hq r' hu => ?_, fun x hx => ?_, fun x hx => List.mem_cons_of_mem _ (i1.1.usedPrep x hx), i1.1.usedClosed, i1.1.sound⟩
      · rcases List.mem_cons.1 hx with rfl | hx
        · cases hf.symm.trans hq
          exact List.mem_cons_of_mem _ (q1.1 r' hu)
        · exact List.mem_cons_of_mem _ (i1.1.closed x hx q hq r' hu)
      · rcases List.mem_cons.1 hx with rfl | hx
        · exact hs
        · exact i1.1.found x hx
    have run : prepGlobal find m (k + 1) r st =
        (if f.force = true then markGlobal find m r { s1 with prepared := r :: s1.prepared } else pure { s1 with prepared := r :: s1.prepared } :
          Res UseSt) := by
      rw [prepGlobal, if_neg hp, hf]
      show (prepParts (prepGlobal find m k) (markGlobal find m) f st >>= _) = _
      rw [h1]
      rfl
    rw [run]
    by_cases hff : f.force = true
    · rw [if_pos hff]
      obtain ⟨s2, h2, i2, g2, p2, u2⟩ := mark_global hr hN i0 (List.mem_cons_self ..) (hforce r f hf hff)
      have g12 := gg.trans g2
      refine ⟨s2, h2, ⟨i2, fun x hx q hq => ?_⟩, g1.trans g12, g2.prepared r (List.mem_cons_self ..)⟩
      rw [p2] at hx
      rcases List.mem_cons.1 hx with rfl | hx
      · cases hf.symm.trans hq
        refine ⟨fun _ => u2, fun y hy hyf r' hu => ?_⟩
        cases hy with
        | refl => exact i2.usedClosed _ u2 _ hf r' hu
        | step hg hy => exact g12.used r' (q1.2 _ hg y hy hyf r' hu)
      · exact ⟨fun h => g12.used x ((i1.2 x hx q hq).1 h), (i1.2 x hx q hq).2.grow g12⟩
    · rw [if_neg hff]
      refine ⟨_, rfl, ⟨i0, fun x hx q hq => ?_⟩, g1.trans gg, List.mem_cons_self ..⟩
      rcases List.mem_cons.1 hx with rfl | hx
      · cases hf.symm.trans hq
        refine ⟨fun h => absurd h hff, fun y hy hyf r' hu => ?_⟩
        cases hy with
        | refl => exact absurd hyf hff
        | step hg hy => exact q1.2 _ hg y hy hyf r' hu
      · exact ⟨(i1.2 x hx q hq).1, (i1.2 x hx q hq).2⟩

/-- The fields of a holder are done. -/
def HolderDone (fs : List UField) (st : UseSt) : Prop := ∀ f ∈ fs, ∀ r, Uses f r → r ∈ st.used

/-- A layer is done. -/
structure LayerDone (comms : Bool) (l : ULayer) (st : UseSt) : Prop where
  own : ∀ f, l.field = .own f → ∀ r, Uses f r → r ∈ st.used
  ext : ∀ r, l.field = .ext r → r ∈ st.used
  escOwn : ∀ f, l.esc = .own f → Inner f st
  escExt : ∀ r, l.esc = .ext r → comms = true → r ∈ st.used

/-- A namespace is done, but for those inside it. -/
def NsDone (comms : Bool) : UNs → UseSt → Prop
  | .mk _ fields ifaces messages frames, st =>
    (∀ r ∈ fields, r ∈ st.prepared) ∧ (∀ h ∈ ifaces, h.1 = true → HolderDone h.2 st) ∧ (∀ h ∈ messages, h.1 = true → HolderDone h.2 st) ∧
      ∀ ls ∈ frames, ∀ l ∈ ls, LayerDone comms l st

theorem stays_layer (comms : Bool) (l : ULayer) : Stays (LayerDone comms l) := fun _ _ g h =>
  ⟨fun f hf r hr => g.used r (h.own f hf r hr), fun r hr => g.used r (h.ext r hr), fun f hf => (h.escOwn f hf).grow g,
    fun r hr hc => g.used r (h.escExt r hr hc)⟩

theorem stays_holder (fs : List UField) : Stays (HolderDone fs) := fun _ _ g h f hf r hr => g.used r (h f hf r hr)

theorem stays_ns (comms : Bool) (x : UNs) : Stays (NsDone comms x) := by
  intro a b g h
  cases x with
  | mk subs fields ifaces messages frames =>
    exact ⟨fun r hr => g.prepared r (h.1 r hr), fun x hx ht => stays_holder _ a b g (h.2.1 x hx ht), fun x hx ht => stays_holder _ a b g (h.2.2.1 x hx ht),
      fun ls hls l hl => stays_layer comms l a b g (h.2.2.2 ls hls l hl)⟩

/-- Everything the steps need. -/
structure Ctx (find : Str → Option UField) (N : Str → Prop) (m : Nat) (e : UEnv) : Prop where
  p : ∀ r, (find r).isSome = true → Act find N (e.p r) (fun st => r ∈ st.prepared)
  g : ∀ r st, Inv find N st → r ∈ st.prepared → N r → ∃ st', e.g r st = .ok st' ∧ Inv find N st' ∧ Grow st st' ∧ r ∈ st'.used
  parts : ∀ f st, Inv find N st → (∀ r, Uses f r → r ∈ st.prepared) → (∀ r, Uses f r → N r) →
    ∃ st', markParts e.g f st = .ok st' ∧ Inv find N st' ∧ Grow st st' ∧ ∀ r, Uses f r → r ∈ st'.used
  field : ∀ f, (∀ r, Uses f r → (find r).isSome = true) → (∀ x, Owns f x → x.force = true → ∀ r, Uses x r → N r) →
    Act find N (prepField e.p e.g f) (Ready f)

theorem owns_uses {f x : UField} {r : Str} (h : Owns f x) (hu : Uses x r) : Uses f r := by
  induction h with
  | refl => exact hu
  | step hg _ ih => exact .own hg (ih hu)

/-- Preparing and marking a field. -/
theorem Ctx.marked {e : UEnv} (c : Ctx find N m e) {f : UField} (hs : ∀ r, Uses f r → (find r).isSome = true) (hn : ∀ r, Uses f r → N r) :
    Act find N (fun st => prepField e.p e.g f st >>= markParts e.g f) (fun st => ∀ r, Uses f r → r ∈ st.used) := by
  intro st hi
  obtain ⟨s1, h1, i1, g1, q1⟩ := c.field f hs (fun x hx _ r hu => hn r (owns_uses hx hu)) st hi
  obtain ⟨s2, h2, i2, g2, q2⟩ := c.parts f s1 i1 q1.1 hn
  exact ⟨s2, by show (_ >>= _) = _; rw [h1]; exact h2, i2, g1.trans g2, q2⟩

/-- Preparing and marking a global field. -/
theorem Ctx.markedRef {e : UEnv} (c : Ctx find N m e) {r : Str} (hs : (find r).isSome = true) (hn : N r) :
    Act find N (fun st => e.p r st >>= e.g r) (fun st => r ∈ st.used) := by
  intro st hi
  obtain ⟨s1, h1, i1, g1, q1⟩ := c.p r hs st hi
  obtain ⟨s2, h2, i2, g2, q2⟩ := c.g r s1 i1 q1 hn
  exact ⟨s2, by show (_ >>= _) = _; rw [h1]; exact h2, i2, g1.trans g2, q2⟩

theorem Ctx.fields {e : UEnv} (c : Ctx find N m e) : ∀ (fs : List UField), (∀ f ∈ fs, ∀ r, Uses f r → (find r).isSome = true ∧ N r) →
    Act find N (prepFields e fs) (HolderDone fs)
  | [], _ => .nop (fun st => by rw [prepFields]; rfl) (fun _ _ h => nomatch h)
  | f :: fs, hf => by
    have key := (c.marked (f := f) (fun r h => (hf f (List.mem_cons_self ..) r h).1) (fun r h => (hf f (List.mem_cons_self ..) r h).2)).bind
      (stays_used _) (Ctx.fields c fs (fun x hx => hf x (List.mem_cons_of_mem _ hx)))
    intro st hi
    obtain ⟨s1, h1, i1, g1, q1⟩ := key st hi
    refine ⟨s1, ?_, i1, g1, fun x hx => ?_⟩
    · rw [prepFields]
      dsimp only at h1
      revert h1
      cases prepField e.p e.g f st <;> exact fun h => h
    · rcases List.mem_cons.1 hx with rfl | hx
      · exact q1.1
      · exact q1.2 x hx

theorem Ctx.holders {e : UEnv} (c : Ctx find N m e) : ∀ (hs : List (Bool × List UField)),
    (∀ h ∈ hs, h.1 = true → ∀ f ∈ h.2, ∀ r, Uses f r → (find r).isSome = true ∧ N r) →
    Act find N (prepHolders e hs) (fun st => ∀ h ∈ hs, h.1 = true → HolderDone h.2 st)
  | [], _ => .nop (fun st => by rw [prepHolders]; rfl) (fun _ _ h => nomatch h)
  | (u, fs) :: hs, hh => by
    have first : Act find N (fun st => (if u = true then prepFields e fs st else pure st : Res UseSt)) (fun st => u = true → HolderDone fs st) := by
      intro st hi
      by_cases hu : u = true
      · obtain ⟨s1, h1, i1, g1, q1⟩ := c.fields fs (hh _ (List.mem_cons_self ..) hu) st hi
        exact ⟨s1, by simp only [hu, if_true]; exact h1, i1, g1, fun _ => q1⟩
      · exact ⟨st, by simp only [if_neg hu]; rfl, hi, .refl st, fun h => absurd h hu⟩
    have key := first.bind (fun a b g h hu => stays_holder fs a b g (h hu)) (Ctx.holders c hs (fun x hx => hh x (List.mem_cons_of_mem _ hx)))
    intro st hi
    obtain ⟨s1, h1, i1, g1, q1⟩ := key st hi
    refine ⟨s1, ?_, i1, g1, fun x hx => ?_⟩
    · rw [prepHolders]; exact h1
    · rcases List.mem_cons.1 hx with rfl | hx
      · exact q1.1
      · exact q1.2 x hx

/-- What is asked of a layer. -/
structure LayerOk (find : Str → Option UField) (N : Str → Prop) (comms : Bool) (l : ULayer) : Prop where
  own : ∀ f, l.field = .own f → ∀ r, Uses f r → (find r).isSome = true ∧ N r
  ext : ∀ r, l.field = .ext r → (find r).isSome = true ∧ N r
  escOwn : ∀ f, l.esc = .own f → (∀ r, Uses f r → (find r).isSome = true) ∧ ∀ x, Owns f x → x.force = true → ∀ r, Uses x r → N r
  escExt : ∀ r, l.esc = .ext r → (find r).isSome = true ∧ (comms = true → N r)

theorem Ctx.layerField {e : UEnv} (c : Ctx find N m e) (l : ULayer) (h : LayerOk find N e.comms l) :
    Act find N (prepLayerField e l.field) (fun st => (∀ f, l.field = .own f → ∀ r, Uses f r → r ∈ st.used) ∧ ∀ r, l.field = .ext r → r ∈ st.used) := by
  cases hl : l.field with
  | none => exact .nop (fun st => by rw [prepLayerField]; rfl) (fun _ => ⟨fun _ h => (nomatch h), fun _ h => (nomatch h)⟩)
  | ext r =>
    intro st hi
    obtain ⟨s1, h1, i1, g1, q1⟩ := c.markedRef (h.ext r hl).1 (h.ext r hl).2 st hi
    exact ⟨s1, by rw [prepLayerField]; exact h1, i1, g1, fun _ h => (nomatch h), fun r' h' => by cases h'; exact q1⟩
  | own f =>
    intro st hi
    obtain ⟨s1, h1, i1, g1, q1⟩ := c.marked (fun r hu => (h.own f hl r hu).1) (fun r hu => (h.own f hl r hu).2) st hi
    exact ⟨s1, by rw [prepLayerField]; exact h1, i1, g1, fun f' h' => by cases h'; exact q1, fun _ h => (nomatch h)⟩

theorem Ctx.escField {e : UEnv} (c : Ctx find N m e) (l : ULayer) (h : LayerOk find N e.comms l) :
    Act find N (prepEsc e l.esc) (fun st => (∀ f, l.esc = .own f → Inner f st) ∧ ∀ r, l.esc = .ext r → e.comms = true → r ∈ st.used) := by
  cases hl : l.esc with
  | none => exact .nop (fun st => by rw [prepEsc]; rfl) (fun _ => ⟨fun _ h => (nomatch h), fun _ h => (nomatch h)⟩)
  | ext r =>
    intro st hi
    by_cases hc : e.comms = true
    · obtain ⟨s1, h1, i1, g1, q1⟩ := c.markedRef (h.escExt r hl).1 ((h.escExt r hl).2 hc) st hi
      refine ⟨s1, ?_, i1, g1, fun _ h => (nomatch h), fun r' h' _ => by cases h'; exact q1⟩
      rw [prepEsc]
      simp only [hc, if_true]
      exact h1
    · obtain ⟨s1, h1, i1, g1, q1⟩ := c.p r (h.escExt r hl).1 st hi
      refine ⟨s1, ?_, i1, g1, fun _ h => (nomatch h), fun r' h' hc' => absurd hc' hc⟩
      rw [prepEsc, h1]
      show (if e.comms = true then _ else pure s1 : Res UseSt) = _
      rw [if_neg hc]
      rfl
  | own f =>
    intro st hi
    obtain ⟨s1, h1, i1, g1, q1⟩ := c.field f (h.escOwn f hl).1 (h.escOwn f hl).2 st hi
    exact ⟨s1, by rw [prepEsc]; exact h1, i1, g1, fun f' h' => by cases h'; exact q1.2, fun _ h => (nomatch h)⟩

theorem Ctx.layers {e : UEnv} (c : Ctx find N m e) : ∀ (ls : List ULayer), (∀ l ∈ ls, LayerOk find N e.comms l) →
    Act find N (prepLayers e ls) (fun st => ∀ l ∈ ls, LayerDone e.comms l st)
  | [], _ => .nop (fun st => by rw [prepLayers]; rfl) (fun _ _ h => nomatch h)
  | l :: ls, hl => by
    have h0 := hl l (List.mem_cons_self ..)
    intro st hi
    obtain ⟨s1, h1, i1, g1, q1⟩ := c.layerField l h0 st hi
    obtain ⟨s2, h2, i2, g2, q2⟩ := c.escField l h0 s1 i1
    obtain ⟨s3, h3, i3, g3, q3⟩ := Ctx.layers c ls (fun x hx => hl x (List.mem_cons_of_mem _ hx)) s2 i2
    refine ⟨s3, ?_, i3, g1.trans (g2.trans g3), fun x hx => ?_⟩
    · rw [prepLayers, h1]
      show (prepEsc e l.esc s1 >>= _) = _
      rw [h2]
      exact h3
    · rcases List.mem_cons.1 hx with rfl | hx
      · exact stays_layer _ _ s2 s3 g3 ⟨fun f hf r hr => g2.used r (q1.1 f hf r hr), fun r hr => g2.used r (q1.2 r hr), q2.1, q2.2⟩
      · exact q3 x hx

theorem Ctx.frames {e : UEnv} (c : Ctx find N m e) : ∀ (fs : List (List ULayer)), (∀ ls ∈ fs, ∀ l ∈ ls, LayerOk find N e.comms l) →
    Act find N (prepFrames e fs) (fun st => ∀ ls ∈ fs, ∀ l ∈ ls, LayerDone e.comms l st)
  | [], _ => .nop (fun st => by rw [prepFrames]; rfl) (fun _ _ h => nomatch h)
  | ls :: fs, hl => by
    have key := (c.layers ls (hl ls (List.mem_cons_self ..))).bind (Q := fun st => ∀ l ∈ ls, LayerDone e.comms l st) (fun a b g h l hl => stays_layer _ l a b g (h l hl))
      (Ctx.frames c fs (fun x hx => hl x (List.mem_cons_of_mem _ hx)))
    intro st hi
    obtain ⟨s1, h1, i1, g1, q1⟩ := key st hi
    refine ⟨s1, by rw [prepFrames]; exact h1, i1, g1, fun x hx => ?_⟩
    rcases List.mem_cons.1 hx with rfl | hx
    · exact q1.1
    · exact q1.2 x hx

theorem Ctx.refs {e : UEnv} (c : Ctx find N m e) : ∀ (rs : List Str), (∀ r ∈ rs, (find r).isSome = true) →
    Act find N (prepRefs e rs) (fun st => ∀ r ∈ rs, r ∈ st.prepared)
  | [], _ => .nop (fun st => by rw [prepRefs]; rfl) (fun _ _ h => nomatch h)
  | r :: rs, hr => by
    have key := (c.p r (hr r (List.mem_cons_self ..))).bind (fun a b g h => g.prepared r h)
      (Ctx.refs c rs (fun x hx => hr x (List.mem_cons_of_mem _ hx)))
    intro st hi
    obtain ⟨s1, h1, i1, g1, q1⟩ := key st hi
    refine ⟨s1, by rw [prepRefs]; exact h1, i1, g1, fun x hx => ?_⟩
    rcases List.mem_cons.1 hx with rfl | hx
    · exact q1.1
    · exact q1.2 x hx

/-- What is asked of a namespace. -/
def NsOk (find : Str → Option UField) (N : Str → Prop) (comms : Bool) : UNs → Prop
  | .mk _ fields ifaces messages frames =>
    (∀ r ∈ fields, (find r).isSome = true) ∧ (∀ h ∈ ifaces, h.1 = true → ∀ f ∈ h.2, ∀ r, Uses f r → (find r).isSome = true ∧ N r) ∧
      (∀ h ∈ messages, h.1 = true → ∀ f ∈ h.2, ∀ r, Uses f r → (find r).isSome = true ∧ N r) ∧
      ∀ ls ∈ frames, ∀ l ∈ ls, LayerOk find N comms l

theorem Ctx.nss {e : UEnv} (c : Ctx find N m e) : ∀ (xs : List UNs), (∀ x, NsIn xs x → NsOk find N e.comms x) →
    Act find N (prepNss e xs) (fun st => ∀ x, NsIn xs x → NsDone e.comms x st)
  | [], _ => .nop (fun st => by rw [prepNss]; rfl) (fun _ x h => by cases h with | here h => cases h | sub h _ => cases h)
  | .mk subs fields ifaces messages frames :: xs, hok => by
    obtain ⟨o1, o2, o3, o4⟩ := hok _ (.here (List.mem_cons_self ..))
    intro st hi
    obtain ⟨s1, h1, i1, g1, q1⟩ := Ctx.nss c subs (fun x hx => hok x (.sub (List.mem_cons_self ..) hx)) st hi
    obtain ⟨s2, h2, i2, g2, q2⟩ := c.refs fields o1 s1 i1
    obtain ⟨s3, h3, i3, g3, q3⟩ := c.holders ifaces o2 s2 i2
    obtain ⟨s4, h4, i4, g4, q4⟩ := c.holders messages o3 s3 i3
    obtain ⟨s5, h5, i5, g5, q5⟩ := c.frames frames o4 s4 i4
    obtain ⟨s6, h6, i6, g6, q6⟩ := Ctx.nss c xs (fun x hx => hok x (by
      cases hx with
      | here h => exact .here (List.mem_cons_of_mem _ h)
      | sub h h' => exact .sub (List.mem_cons_of_mem _ h) h')) s5 i5
    have g25 := (g3.trans g4).trans g5
    refine ⟨s6, ?_, i6, (g1.trans g2).trans (g25.trans g6), fun x hx => ?_⟩
    · rw [prepNss, prepNs, h1]
      show ((prepRefs e fields s1 >>= _) >>= _) = _
      rw [h2]
      show ((prepHolders e ifaces s2 >>= _) >>= _) = _
      rw [h3]
      show ((prepHolders e messages s3 >>= _) >>= _) = _
      rw [h4]
      show (prepFrames e frames s4 >>= _) = _
      rw [h5]
      exact h6
    · have mine : NsDone e.comms (.mk subs fields ifaces messages frames) s5 :=
        ⟨fun r hr => g25.prepared r (q2 r hr), fun h hh ht => stays_holder _ _ _ (g4.trans g5) (q3 h hh ht),
          fun h hh ht => stays_holder _ _ _ g5 (q4 h hh ht), q5⟩
      cases hx with
      | here h =>
        rcases List.mem_cons.1 h with rfl | h
        · exact stays_ns _ _ s5 s6 g6 mine
        · exact q6 x (.here h)
      | sub h h' =>
        rcases List.mem_cons.1 h with h | h
        · cases h
          exact stays_ns _ _ s1 s6 ((g2.trans g25).trans g6) (q1 x h')
        · exact q6 x (.sub h h')
termination_by xs => sizeOf xs

theorem start (find : Str → Option UField) (N : Str → Prop) : Inv find N {} :=
  ⟨⟨fun _ h => (nomatch h), fun _ h => (nomatch h), fun _ h => (nomatch h), fun _ h => (nomatch h), fun _ h => (nomatch h)⟩, fun _ h => (nomatch h)⟩

theorem ctx (hr : Ranked find m rank) (nss : List UNs) (comms : Bool) :
    Ctx find (Needed find nss comms) m { p := prepGlobal find m m, g := markGlobal find m, comms := comms } := by
  have hN : ∀ r f r', Needed find nss comms r → find r = some f → Uses f r' → Needed find nss comms r' := fun _ _ _ h hf hu => .step h hf hu
  have hp : ∀ r, (find r).isSome = true → Act find (Needed find nss comms) (prepGlobal find m m r) (fun st => r ∈ st.prepared) := fun r hs =>
    prep_global hr hN (fun r f hf h => .forced hf h) (fun r f x hf ho h r' hu => .inGlobal hf ho h hu) m r (hr.bound r hs) hs
  refine ⟨hp, fun r st hi hr' hn => ?_, fun f st hi hu hn => ?_, fun f hs hn => prep_field hr hN f (fun r h => hp r (hs r h)) hn⟩
  · obtain ⟨s1, h1, i1, g1, p1, q1⟩ := mark_global hr hN hi.1 hr' hn
    exact ⟨s1, h1, ⟨i1, hi.2.same g1 p1⟩, g1, q1⟩
  · obtain ⟨s1, h1, i1, g1, p1, q1⟩ := mark_field hr hN hi.1 hu hn
    exact ⟨s1, h1, ⟨i1, hi.2.same g1 p1⟩, g1, q1⟩

theorem ns_ok {nss : List UNs} (hc : Complete find nss) (comms : Bool) : ∀ x, NsIn nss x → NsOk find (Needed find nss comms) comms x
  | .mk subs fields ifaces messages frames, hx => by
    refine ⟨fun r hr => (hc.defined r).2 ⟨subs, fields, ifaces, messages, frames, hx, hr⟩, fun h hh ht f hf r hu => ?_, fun h hh ht f hf r hu => ?_,
      fun ls hls l hl => ⟨fun f hf r hu => ?_, fun r hr => ?_, fun f hf => ?_, fun r hr => ?_⟩⟩
    · obtain ⟨u, fs⟩ := h
      cases ht
      have : FieldOf nss f := .iface hx hh hf
      exact ⟨hc.field f this r hu, .field this hu⟩
    · obtain ⟨u, fs⟩ := h
      cases ht
      have : FieldOf nss f := .message hx hh hf
      exact ⟨hc.field f this r hu, .field this hu⟩
    · have : FieldOf nss f := .layer hx hls hl hf
      exact ⟨hc.field f this r hu, .field this hu⟩
    · exact ⟨hc.layer r (.field hx hls hl hr), .layer (.field hx hls hl hr)⟩
    · have : EscapeOf nss f := ⟨subs, fields, ifaces, messages, frames, ls, l, hx, hls, hl, hf⟩
      exact ⟨hc.escape f this, fun x hox hf r hu => .inEscape this hox hf hu⟩
    · exact ⟨hc.layer r (.esc hx hls hl hr rfl), fun h => .layer (.esc hx hls hl hr h)⟩

end UseProofs

open UseProofs

/-- C121: the preparation of the elements of a schema ends, without following a null pointer, and behind it the fields marked as referenced, those that are
    generated, are exactly the ones needed: fields that a generated message, interface or layer leads to, and those the schema forces. -/
theorem C121_used {find : Str → Option UField} {nss : List UNs} {n : Nat} (hc : Complete find nss) (hl : Layered find n) (comms : Bool) (k : Nat) (hk : n ≤ k) :
    ∃ st, prepareRun find comms k nss = .ok st ∧ ∀ r, r ∈ st.used ↔ Needed find nss comms r := by
  obtain ⟨rank, hb, hd⟩ := hl
  have hr : Ranked find k rank := ⟨fun r h => Nat.lt_of_lt_of_le (hb r h) hk, hd⟩
  obtain ⟨st, h1, hi, _, hq⟩ := (ctx hr nss comms).nss nss (ns_ok hc comms) {} (start _ _)
  refine ⟨st, h1, fun r => ⟨hi.1.sound r, fun h => ?_⟩⟩
  induction h with
  | field hf hu =>
    cases hf with
    | iface hx hh hf => exact (hq _ hx).2.1 _ hh rfl _ hf _ hu
    | message hx hh hf => exact (hq _ hx).2.2.1 _ hh rfl _ hf _ hu
    | layer hx hls hl hf => exact ((hq _ hx).2.2.2 _ hls _ hl).own _ hf _ hu
  | layer h =>
    cases h with
    | field hx hls hl hf => exact ((hq _ hx).2.2.2 _ hls _ hl).ext _ hf
    | esc hx hls hl hf hcm => exact ((hq _ hx).2.2.2 _ hls _ hl).escExt _ hf hcm
  | forced hf hff =>
    obtain ⟨subs, fields, ifaces, messages, frames, hx, hr'⟩ := (hc.defined _).1 (by rw [hf]; rfl)
    exact (hi.2 _ ((hq _ hx).1 _ hr') _ hf).1 hff
  | inGlobal hf ho hff hu =>
    obtain ⟨subs, fields, ifaces, messages, frames, hx, hr'⟩ := (hc.defined _).1 (by rw [hf]; rfl)
    exact (hi.2 _ ((hq _ hx).1 _ hr') _ hf).2 _ ho hff _ hu
  | inEscape he ho hff hu =>
    obtain ⟨subs, fields, ifaces, messages, frames, ls, l, hx, hls, hl, hf⟩ := he
    exact ((hq _ hx).2.2.2 _ hls _ hl).escOwn _ hf _ ho hff _ hu
  | step _ hf hu ih => exact hi.1.usedClosed _ ih _ hf _ hu

/-- C121, the part that holds: no generated field, message, interface, and no field of a layer refers to a field that is not generated. What is missing: the
    escape field inside a `<sync>` layer, see `C121_escape`. -/
theorem C121_generated_partial {find : Str → Option UField} {nss : List UNs} {n : Nat} (hc : Complete find nss) (hl : Layered find n) {comms : Bool} {k : Nat}
    (hk : n ≤ k) {st : UseSt} (h : prepareRun find comms k nss = .ok st) :
    (∀ f, FieldOf nss f → ∀ r, Uses f r → r ∈ st.used) ∧ (∀ r, LayerRef nss comms r → r ∈ st.used) ∧
      ∀ r ∈ st.used, ∀ f, find r = some f → ∀ r', Uses f r' → r' ∈ st.used := by
  obtain ⟨st', h', hm⟩ := C121_used hc hl comms k hk
  cases h.symm.trans h'
  exact ⟨fun f hf r hu => (hm r).2 (.field hf hu), fun r hr => (hm r).2 (.layer hr), fun r hr f hf r' hu => (hm r').2 (.step ((hm r).1 hr) hf hu)⟩

namespace UseProofs

open Commsdsl.Fld

theorem all_mem {named : Str → Option Field} : ∀ {fs : List Field} {us : List UField}, MirrorsAll named fs us → ∀ u ∈ us, ∃ f ∈ fs, Mirrors named f u
  | _, _, .nil, _, h => nomatch h
  | _, _, .cons (f := f) hf hfs, u, h => by
    rcases List.mem_cons.1 h with rfl | h
    · exact ⟨f, List.mem_cons_self .., hf⟩
    · obtain ⟨q, hq, hm⟩ := all_mem hfs u h
      exact ⟨q, List.mem_cons_of_mem _ hq, hm⟩

theorem slot_of {named : Str → Option Field} {f : Field} {u : UField} (h : Mirrors named f u) :
    ∀ s ∈ slots u, ∃ s', MirrorsSlot named s' s ∧ sizeOf s' ≤ sizeOf f := by
  intro s hs
  cases h with
  | int => cases hs
  | enum => cases hs
  | set => cases hs
  | float => cases hs
  | bitfield h =>
    obtain ⟨u, hu, rfl⟩ := List.mem_map.1 hs
    obtain ⟨q, hq, hm⟩ := all_mem h u hu
    have := List.sizeOf_lt_of_mem hq
    exact ⟨.own q, .own hm, by simp only [Field.bitfield.sizeOf_spec, Slot.own.sizeOf_spec]; omega⟩
  | bundle h =>
    obtain ⟨u, hu, rfl⟩ := List.mem_map.1 hs
    obtain ⟨q, hq, hm⟩ := all_mem h u hu
    have := List.sizeOf_lt_of_mem hq
    exact ⟨.own q, .own hm, by simp only [Field.bundle.sizeOf_spec, Slot.own.sizeOf_spec]; omega⟩
  | variant h =>
    obtain ⟨u, hu, rfl⟩ := List.mem_map.1 hs
    obtain ⟨q, hq, hm⟩ := all_mem h u hu
    have := List.sizeOf_lt_of_mem hq
    exact ⟨.own q, .own hm, by simp only [Field.variant.sizeOf_spec, Slot.own.sizeOf_spec]; omega⟩
  | string h => cases List.mem_singleton.1 hs; exact ⟨_, h, by simp only [Field.string.sizeOf_spec]; omega⟩
  | data h => cases List.mem_singleton.1 hs; exact ⟨_, h, by simp only [Field.data.sizeOf_spec]; omega⟩
  | list h1 h2 h3 h4 h5 =>
    simp only [slots, List.mem_cons, List.not_mem_nil, or_false] at hs
    simp only [Field.list.sizeOf_spec]
    rcases hs with rfl | rfl | rfl | rfl | rfl
    · exact ⟨_, h1, by omega⟩
    · exact ⟨_, h2, by omega⟩
    · exact ⟨_, h3, by omega⟩
    · exact ⟨_, h4, by omega⟩
    · exact ⟨_, h5, by omega⟩
  | ref h => cases List.mem_singleton.1 hs; exact ⟨_, h, by simp only [Field.ref.sizeOf_spec]; omega⟩
  | optional h => cases List.mem_singleton.1 hs; exact ⟨_, h, by simp only [Field.optional.sizeOf_spec]; omega⟩

theorem use_smaller {named : Str → Option Field} (u : UField) : ∀ f, Mirrors named f u → ∀ r, Uses u r → ∃ g, named r = some g ∧ sizeOf g < sizeOf f := by
  induction u using ind with
  | h u ih =>
    intro f hm r hu
    cases hu with
    | ext hs =>
      obtain ⟨s', h, hz⟩ := slot_of hm _ hs
      cases h with
      | ext h => exact ⟨_, h, by simp only [Slot.ext.sizeOf_spec] at hz; omega⟩
    | own hs hu =>
      obtain ⟨s', h, hz⟩ := slot_of hm _ hs
      cases h with
      | own h =>
        obtain ⟨q, hq, hz'⟩ := ih _ hs _ h r hu
        exact ⟨q, hq, by simp only [Slot.own.sizeOf_spec] at hz; omega⟩

end UseProofs

open Commsdsl.Fld in
/-- C121: the objects made from parsed fields meet the condition of `C121_used`: a parsed field is a finite tree, and what it points to is a part of it. -/
theorem C121_layered {named : Str → Option Field} {find : Str → Option UField} (hm : ∀ r u, find r = some u → ∃ f, named r = some f ∧ Mirrors named f u)
    (hs : ∀ r f, named r = some f → (find r).isSome = true) {n : Nat} (hn : ∀ r f, named r = some f → sizeOf f < n) : Layered find n := by
  refine ⟨fun r => match named r with | some f => sizeOf f | none => 0, fun r h => ?_, fun r u hu r' hr' => ?_⟩
  · obtain ⟨u, hu⟩ := Option.isSome_iff_exists.1 h
    obtain ⟨f, hf, _⟩ := hm r u hu
    simp only [hf]
    exact hn r f hf
  · obtain ⟨f, hf, hmf⟩ := hm r u hu
    obtain ⟨q, hq, hz⟩ := use_smaller u f hmf r' hr'
    refine ⟨hs r' q hq, ?_⟩
    simp only [hf, hq]
    exact hz

namespace UseSample

theorem u_plain {b : Bool} {r : Str} : Uses (.plain b) r ↔ False := by
  rw [uses_slot]; simp [slots]

theorem u_ref {b : Bool} {q r : Str} : Uses (.ref b q) r ↔ r = q := by
  rw [uses_slot]; simp [slots, eq_comm]

theorem u_bundle {b : Bool} {ms : List UField} {r : Str} : Uses (.bundle b ms) r ↔ ∃ f ∈ ms, Uses f r := by
  rw [uses_slot]
  constructor
  · rintro ⟨s, hs, h | ⟨g, h, hu⟩⟩
    · subst h; obtain ⟨f, _, h⟩ := List.mem_map.1 hs; cases h
    · subst h; obtain ⟨f, hf, h⟩ := List.mem_map.1 hs; cases h; exact ⟨_, hf, hu⟩
  · rintro ⟨f, hf, hu⟩
    exact ⟨.own f, List.mem_map_of_mem hf, .inr ⟨f, rfl, hu⟩⟩

theorem u_optional {b : Bool} {s : USlot UField} {r : Str} : Uses (.optional b s) r ↔ SlotUses s r := by
  rw [uses_slot]; simp [slots, SlotUses]

theorem s_own {f : UField} {r : Str} : SlotUses (USlot.own f) r ↔ Uses f r := by
  constructor
  · rintro (h | ⟨g, h, hu⟩)
    · cases h
    · cases h; exact hu
  · exact fun h => .inr ⟨f, rfl, h⟩

theorem single {x y : UNs} (hx : ∃ a b c d, x = .mk [] a b c d) (h : NsIn [x] y) : y = x := by
  obtain ⟨a, b, c, d, rfl⟩ := hx
  cases h with
  | here h => exact List.mem_singleton.1 h
  | sub h h' =>
    cases List.mem_singleton.1 h
    cases h' with
    | here h => cases h
    | sub h _ => cases h

/-- A schema: `A` is a number, `B` a bundle with a reference to `A`, `C` and `D` are numbers, `E` is a forced reference to `D`; a message with an optional `B`, one
    with `C` that is not requested, and a frame with a reference to `D` as the escape field inside its layer. -/
def sfind (esc : Bool) (r : Str) : Option UField :=
  if r = ['A'] then some (.plain false)
  else if r = ['B'] then some (.bundle false [.ref false ['A'], .plain false])
  else if r = ['C'] then some (.plain false)
  else if r = ['D'] then some (.plain false)
  else if r = ['E'] then some (.ref (!esc) ['D'])
  else none

/-- Its namespace. -/
def ns (esc : Bool) : UNs :=
  .mk [] [['E'], ['A'], ['B'], ['C'], ['D']] [] [(true, [.optional false (.own (.ref false ['B']))]), (false, [.ref false ['C']])]
    [[{ field := .own (.plain false), esc := if esc then .own (.ref false ['D']) else .none }]]

theorem layered (esc : Bool) : Layered (sfind esc) 2 := by
  refine ⟨fun r => if r = ['B'] ∨ r = ['E'] then 1 else 0, fun r _ => by dsimp only; split <;> decide, fun r f hf r' hu => ?_⟩
  unfold sfind at hf
  split at hf
  · cases hf; exact (u_plain.1 hu).elim
  split at hf
  · cases hf
    subst r
    obtain ⟨q, hq, hu⟩ := u_bundle.1 hu
    rcases List.mem_cons.1 hq with rfl | hq
    · cases u_ref.1 hu
      exact ⟨rfl, by decide⟩
    · cases List.mem_singleton.1 hq
      exact (u_plain.1 hu).elim
  split at hf
  · cases hf; exact (u_plain.1 hu).elim
  split at hf
  · cases hf; exact (u_plain.1 hu).elim
  split at hf
  · cases hf
    subst r
    cases u_ref.1 hu
    exact ⟨rfl, by decide⟩
  · cases hf

theorem complete (esc : Bool) : Complete (sfind esc) [ns esc] := by
  have one : ∀ {a b c d e}, NsIn [ns esc] (.mk a b c d e) → .mk a b c d e = ns esc := fun h => single ⟨_, _, _, _, rfl⟩ h
  refine ⟨fun r => ⟨fun h => ?_, ?_⟩, fun f hf r hu => ?_, ?_, ?_⟩
  · refine ⟨_, _, _, _, _, .here (List.mem_singleton.2 rfl), ?_⟩
    unfold sfind at h
    simp only [List.mem_cons, List.not_mem_nil, or_false]
    split at h
    · exact .inr (.inl ‹_›)
    split at h
    · exact .inr (.inr (.inl ‹_›))
    split at h
    · exact .inr (.inr (.inr (.inl ‹_›)))
    split at h
    · exact .inr (.inr (.inr (.inr ‹_›)))
    split at h
    · exact .inl ‹_›
    · cases h
  · rintro ⟨_, _, _, _, _, hx, hr⟩
    cases one hx
    simp only [List.mem_cons, List.not_mem_nil, or_false] at hr
    rcases hr with rfl | rfl | rfl | rfl | rfl <;> rfl
  · cases hf with
    | iface hx hh hf => cases one hx; cases hh
    | message hx hh hf =>
      cases one hx
      rcases List.mem_cons.1 hh with h | h
      · cases h
        cases List.mem_singleton.1 hf
        cases u_ref.1 (s_own.1 (u_optional.1 hu))
        rfl
      · cases List.mem_singleton.1 h
    | layer hx hls hl hf =>
      cases one hx
      cases List.mem_singleton.1 hls
      cases List.mem_singleton.1 hl
      cases hf
      exact (u_plain.1 hu).elim
  · rintro f ⟨_, _, _, _, _, ls, l, hx, hls, hl, hf⟩ r hu
    cases one hx
    cases List.mem_singleton.1 hls
    cases List.mem_singleton.1 hl
    cases esc with
    | true => cases hf; cases u_ref.1 hu; rfl
    | false => cases hf
  · intro r hr
    cases hr with
    | field hx hls hl hf =>
      cases one hx
      cases List.mem_singleton.1 hls
      cases List.mem_singleton.1 hl
      cases hf
    | esc hx hls hl hf =>
      cases one hx
      cases List.mem_singleton.1 hls
      cases List.mem_singleton.1 hl
      cases esc <;> cases hf

/-- The run of the generator for the sample. -/
theorem run (esc : Bool) : ∃ st, prepareRun (sfind esc) true 2 [ns esc] = .ok st ∧
    st.used = (if esc then [['A'], ['B']] else [['A'], ['B'], ['D'], ['E']]) := by
  cases esc <;> exact ⟨_, rfl, rfl⟩

/-- The conditions of C121 are met: `A` and `B` are generated because of the message, `E` because it is forced and `D` because of `E`, but `C` is not. -/
example : ∃ st, prepareRun (sfind false) true 2 [ns false] = .ok st ∧ (∀ r, r ∈ st.used ↔ Needed (sfind false) [ns false] true r) ∧
    ['D'] ∈ st.used ∧ ['C'] ∉ st.used := by
  obtain ⟨st, h, hm⟩ := C121_used (complete false) (layered false) true 2 (Nat.le_refl _)
  obtain ⟨st', h', hu⟩ := run false
  cases h.symm.trans h'
  exact ⟨st, h, hm, by rw [hu]; decide, by rw [hu]; decide⟩

end UseSample

open UseSample in
/-- C121, a defect: a `<ref>` as the escape field inside a `<sync>` layer. The field it refers to is not generated, although the code of the layer includes its header
    (CommsSyncLayer.cpp:85-89). -/
theorem C121_escape : ∃ st, prepareRun (sfind true) true 2 [ns true] = .ok st ∧ Complete (sfind true) [ns true] ∧ Layered (sfind true) 2 ∧
    EscapeOf [ns true] (.ref false ['D']) ∧ Uses (.ref false ['D']) ['D'] ∧ ['D'] ∉ st.used := by
  obtain ⟨st, h, hu⟩ := run true
  exact ⟨st, h, complete true, layered true, ⟨_, _, _, _, _, _, _, .here (List.mem_singleton.2 rfl), List.mem_singleton.2 rfl, List.mem_singleton.2 rfl, rfl⟩,
    u_ref.2 rfl, by rw [hu]; decide⟩

end Commsdsl.Props
