import Verif.Lemmas.Members
import Verif.Lemmas.Sample
import Verif.Props.Text
/-!
# Members of bitfields, bundles and variants: C19, C29, C44, C45, C46, C48
-/
namespace Commsdsl.Props
open Commsdsl Fld Spec Text

/-! ## C48 -/

/-- C48 for fields: members of bitfields, bundles and variants have different names, in all field objects, however they were defined, reused,
    replaced or copied. -/
theorem C48_field_members_unique (f : Field) (h : Obj f) : (f.members.map Field.name).Nodup := by
  refine (obj_hered (P := fun f => (f.members.map Field.name).Nodup) ?_ ?_ ?_ f h).self
  · intro f hf
    have hf := hf.self
    rw [clone_members, List.map_map]
    have : (Field.name ∘ clone) = Field.name := by funext f; simp [Field.name, clone_common]
    rw [this]; exact hf
  · intro s f hf; rw [liftSince_members]; exact hf
  · intro env pc parent node f hf henv _ _
    have henv' : ∀ s g, env.findField s = some g → (g.members.map Field.name).Nodup := fun s g hg => (henv s g hg).self
    cases f with
    | bundle c ms al cd =>
      obtain ⟨b, ms0, al0, cd0, hb, _, _, _, _, hm, _⟩ := bundle_inv hf
      rcases (bundleMembers_ok hm).1 with h1 | ⟨ns, _, h1⟩
      · simp only [Field.members]; rw [h1]; exact (before_names hb henv').sublist (keepMembers_names _ _)
      · exact (validateNames_spec h1).1
    | variant c d ms =>
      obtain ⟨b, ms0, al0, hb, _, _, _, _, hm, _⟩ := variant_inv hf
      rcases (variantMembers_ok hm).1 with h1 | ⟨ns, _, h1⟩
      · simp only [Field.members]; rw [h1]; exact (before_names hb henv').sublist (keepMembers_names _ _)
      · exact (validateNames_spec h1).1
    | bitfield c e ms cd =>
      obtain ⟨b, ms0, cd0, hb, _, _, _, hm, _⟩ := bitfield_inv hf
      rcases bitfieldMembers_ok hm with ⟨h1, _⟩ | ⟨ns, _, _, _, h1, _⟩
      · simp only [Field.members]
        rw [h1, List.map_map]
        have : (Field.name ∘ liftSince b.ic.since) = Field.name := by funext f; exact liftSince_name _ f
        rw [this]; exact before_names hb henv'
      · exact (validateNames_spec h1).1
    | _ => simp [Field.members]

open Sample in
/-- A bundle of three members. -/
example : ∃ f, Accepted f ∧ f.members.map Field.name = ["a".toList, "b".toList, "c".toList] := by
  obtain ⟨f, h1, h2⟩ := accepted env0_ok (parent := .top)
    (x := el "bundle" [("name", "x")] [el "int" [("name", "a"), ("type", "uint8")], el "int" [("name", "b"), ("type", "uint8")],
      el "data" [("name", "c")]])
    (p := fun f => decide (f.members.map Field.name = ["a".toList, "b".toList, "c".toList])) (by decide +kernel)
  exact ⟨f, h1, by simpa using h2⟩

/-! ## C46 -/

namespace MemberProofs

theorem replaceFirst_get {r : Field} {ms ms' : List Field} (h : replaceFirst r ms = some ms') (hn : (ms.map Field.name).Nodup) (i : Nat) :
    ms'[i]? = ms[i]?.map fun m => if r.name = m.name then r else m := by
  induction ms generalizing ms' i with
  | nil => simp [replaceFirst] at h
  | cons m ms ih =>
    rw [List.map_cons, List.nodup_cons] at hn
    unfold replaceFirst at h
    split at h
    · rename_i e
      cases h
      cases i with
      | zero => simp [e]
      | succ i =>
        simp only [List.getElem?_cons_succ]
        cases hm : ms[i]? with
        | none => rfl
        | some x =>
          have hx : x ∈ ms := List.mem_of_getElem? hm
          have : r.name ≠ x.name := by
            intro hc
            exact hn.1 (List.mem_map.2 ⟨x, hx, by rw [← hc, e]⟩)
          simp [this]
    · rename_i e
      simp only [Option.map_eq_some_iff] at h
      obtain ⟨x, hx, rfl⟩ := h
      cases i with
      | zero => simp [e]
      | succ i => simpa using ih hx hn.2 i

theorem replaceFirst_none {r : Field} {ms : List Field} : replaceFirst r ms = none ↔ r.name ∉ ms.map Field.name := by
  induction ms with
  | nil => simp [replaceFirst]
  | cons m ms ih =>
    unfold replaceFirst
    split
    · rename_i e; simp [e]
    · rename_i e; simp only [Option.map_eq_none_iff, ih, List.map_cons, List.mem_cons, not_or]; exact ⟨fun h => ⟨e, h⟩, fun h => h.2⟩

theorem replaceMembers_get {chk : Field → Bool} {rs ms ms' : List Field} (h : replaceMembers chk rs ms = .ok ms')
    (hn : (ms.map Field.name).Nodup) (i : Nat) :
    ms'[i]? = ms[i]?.map fun m => (rs.reverse.find? fun r => r.name == m.name).getD m := by
  induction rs generalizing ms with
  | nil => cases h; cases ms'[i]? <;> simp
  | cons r rs ih =>
    unfold replaceMembers at h
    split at h
    · simp at h
    · rename_i x hx
      split at h
      · have hn' : (x.map Field.name).Nodup := by rw [(replaceFirst_names hx).1]; exact hn
        rw [ih h hn', replaceFirst_get hx hn i]
        cases hm : ms[i]? with
        | none => rfl
        | some m =>
          simp only [Option.map_some, Option.some.injEq, List.reverse_cons, List.find?_append]
          by_cases e : r.name = m.name
          · simp only [e, if_true]
            cases hf : rs.reverse.find? fun r => r.name == m.name <;> simp [e]
          · simp only [if_neg e]
            cases hf : rs.reverse.find? fun r => r.name == m.name <;> simp [e]
      · simp at h

theorem replaceMembers_known {chk : Field → Bool} {rs ms ms' : List Field} (h : replaceMembers chk rs ms = .ok ms') :
    ∀ r ∈ rs, r.name ∈ ms.map Field.name ∧ chk r = true := by
  induction rs generalizing ms with
  | nil => simp
  | cons r rs ih =>
    unfold replaceMembers at h
    split at h
    · simp at h
    · rename_i x hx
      split at h
      · rename_i hc
        intro y hy
        rcases List.mem_cons.1 hy with rfl | hy
        · exact ⟨(replaceFirst_names hx).2, hc⟩
        · have := ih h y hy
          rw [(replaceFirst_names hx).1] at this
          exact this
      · simp at h

theorem replaceMembers_total {chk : Field → Bool} {rs ms : List Field} (h : ∀ r ∈ rs, r.name ∈ ms.map Field.name ∧ chk r = true) :
    ∃ ms', replaceMembers chk rs ms = .ok ms' := by
  induction rs generalizing ms with
  | nil => exact ⟨ms, rfl⟩
  | cons r rs ih =>
    unfold replaceMembers
    split
    · rename_i hx
      exact absurd (h r (by simp)).1 (replaceFirst_none.1 hx)
    · rename_i x hx
      rw [if_pos (h r (by simp)).2]
      refine ih ?_
      intro y hy
      rw [(replaceFirst_names hx).1]
      exact h y (by simp [hy])

theorem replaceMembers_noub {chk : Field → Bool} {rs ms : List Field} : replaceMembers chk rs ms ≠ .ub := by
  induction rs generalizing ms with
  | nil => simp [replaceMembers]
  | cons r rs ih =>
    unfold replaceMembers
    split
    · simp
    · split
      · exact ih
      · simp

end MemberProofs

open MemberProofs

/-- C46: after a successful replacement there are as many members as before, in the same order and with the same names; a member whose name was
    not given is unchanged, one whose name was given is the last replacement of that name. (Names are unique by `C48_field_members_unique`.) -/
theorem C46_replace_exact (rs : List Field) (f f' : Field) (h : replaceImpl rs f = .ok f') (hn : (f.members.map Field.name).Nodup) :
    f'.kind = f.kind ∧ f'.common = f.common ∧ f'.members.length = f.members.length ∧
    f'.members.map Field.name = f.members.map Field.name ∧
    (∀ (i : Nat) (m : Field), f.members[i]? = some m → (∀ r ∈ rs, r.name ≠ m.name) → f'.members[i]? = some m) ∧
    (∀ (i : Nat) (m : Field) (before after : List Field) (r : Field), f.members[i]? = some m → rs = before ++ r :: after → r.name = m.name →
      (∀ x ∈ after, x.name ≠ m.name) → f'.members[i]? = some r) := by
  have key : ∀ {chk : Field → Bool} {ms ms' : List Field}, replaceMembers chk rs ms = .ok ms' → (ms.map Field.name).Nodup →
      ms'.length = ms.length ∧ ms'.map Field.name = ms.map Field.name ∧
      (∀ (i : Nat) (m : Field), ms[i]? = some m → (∀ r ∈ rs, r.name ≠ m.name) → ms'[i]? = some m) ∧
      (∀ (i : Nat) (m : Field) (before after : List Field) (r : Field), ms[i]? = some m → rs = before ++ r :: after → r.name = m.name →
        (∀ x ∈ after, x.name ≠ m.name) → ms'[i]? = some r) := by
    intro chk ms ms' h hn
    have hnames := replaceMembers_names h
    refine ⟨by simpa using congrArg List.length hnames, hnames, ?_, ?_⟩
    · intro i m hm hr
      rw [replaceMembers_get h hn i, hm]
      have : (rs.reverse.find? fun r => r.name == m.name) = none := by
        rw [List.find?_eq_none]
        intro x hx
        simpa using hr x (by simpa using hx)
      simp [this]
    · intro i m b a r hm e hr ha
      rw [replaceMembers_get h hn i, hm, e]
      have : (a.reverse.find? fun r => r.name == m.name) = none := by
        rw [List.find?_eq_none]
        intro x hx
        simpa using ha x (by simpa using hx)
      simp [this, hr]
  cases f with
  | bitfield c e ms cd =>
    simp only [replaceImpl, Res.bind_eq_ok, Res.pure_eq] at h
    obtain ⟨ms', h1, h2⟩ := h
    cases h2
    exact ⟨rfl, rfl, key h1 hn⟩
  | bundle c ms al cd =>
    simp only [replaceImpl, Res.bind_eq_ok, Res.pure_eq] at h
    obtain ⟨ms', h1, h2⟩ := h
    cases h2
    exact ⟨rfl, rfl, key h1 hn⟩
  | variant c d ms =>
    simp only [replaceImpl, Res.bind_eq_ok, Res.pure_eq] at h
    obtain ⟨ms', h1, h2⟩ := h
    cases h2
    exact ⟨rfl, rfl, key h1 hn⟩
  | _ => simp [replaceImpl] at h

/-- C46: replacing succeeds exactly if the field has members and all the names are known (and, in a bitfield, the versions are those of the
    bitfield); otherwise it is an error. -/
theorem C46_unknown_rejected (rs : List Field) (f : Field) :
    ((∃ f', replaceImpl rs f = .ok f') ↔ (f.kind = .bitfield ∨ f.kind = .bundle ∨ f.kind = .variant) ∧
      (∀ r ∈ rs, r.name ∈ f.members.map Field.name) ∧
      (f.kind = .bitfield → ∀ r ∈ rs, r.since = f.since ∧ r.depr = f.depr)) ∧
    ((¬ ∃ f', replaceImpl rs f = .ok f') → replaceImpl rs f = .err) := by
  have errs : ∀ (chk : Field → Bool) (ms : List Field) (k : List Field → Field),
      (¬ ∃ f', (replaceMembers chk rs ms >>= fun ms' => (pure (k ms') : Res Field)) = .ok f') →
      (replaceMembers chk rs ms >>= fun ms' => (pure (k ms') : Res Field)) = .err := by
    intro chk ms k h
    cases hr : replaceMembers chk rs ms with
    | ok x => exact absurd ⟨k x, by rw [hr]; rfl⟩ h
    | err => rfl
    | ub => exact absurd hr replaceMembers_noub
  cases f with
  | bitfield c e ms cd =>
    refine ⟨⟨?_, ?_⟩, fun h => errs _ _ _ h⟩
    · rintro ⟨f', h⟩
      simp only [replaceImpl, Res.bind_eq_ok] at h
      obtain ⟨ms', h1, _⟩ := h
      have := replaceMembers_known h1
      refine ⟨Or.inl rfl, fun r hr => (this r hr).1, fun _ r hr => ?_⟩
      have h3 := (this r hr).2
      simp only [Bool.and_eq_true, decide_eq_true_eq] at h3
      exact h3
    · rintro ⟨_, h1, h2⟩
      obtain ⟨ms', h⟩ := replaceMembers_total (chk := fun r => decide (r.since = c.w.since) && decide (r.depr = c.w.depr)) (rs := rs) (ms := ms)
        (fun r hr => ⟨h1 r hr, by have h3 := h2 rfl r hr; simp only [Bool.and_eq_true, decide_eq_true_eq]; exact h3⟩)
      exact ⟨_, by simp only [replaceImpl, h]; rfl⟩
  | bundle c ms al cd =>
    refine ⟨⟨?_, ?_⟩, fun h => errs _ _ _ h⟩
    · rintro ⟨f', h⟩
      simp only [replaceImpl, Res.bind_eq_ok] at h
      obtain ⟨ms', h1, _⟩ := h
      have := replaceMembers_known h1
      exact ⟨Or.inr (Or.inl rfl), fun r hr => (this r hr).1, fun h => by simp [Field.kind] at h⟩
    · rintro ⟨_, h1, _⟩
      obtain ⟨ms', h⟩ := replaceMembers_total (chk := fun _ => true) (rs := rs) (ms := ms) (fun r hr => ⟨h1 r hr, rfl⟩)
      exact ⟨_, by simp only [replaceImpl, h]; rfl⟩
  | variant c d ms =>
    refine ⟨⟨?_, ?_⟩, fun h => errs _ _ _ h⟩
    · rintro ⟨f', h⟩
      simp only [replaceImpl, Res.bind_eq_ok] at h
      obtain ⟨ms', h1, _⟩ := h
      have := replaceMembers_known h1
      exact ⟨Or.inr (Or.inr rfl), fun r hr => (this r hr).1, fun h => by simp [Field.kind] at h⟩
    · rintro ⟨_, h1, _⟩
      obtain ⟨ms', h⟩ := replaceMembers_total (chk := fun _ => true) (rs := rs) (ms := ms) (fun r hr => ⟨h1 r hr, rfl⟩)
      exact ⟨_, by simp only [replaceImpl, h]; rfl⟩
  | _ => exact ⟨⟨fun ⟨f', h⟩ => by simp [replaceImpl] at h, fun ⟨h, _⟩ => by simp [Field.kind] at h⟩, fun _ => rfl⟩

open Sample in
/-- A bundle that reuses another one and replaces its middle member: the type changes, the names do not. -/
example : ∃ f, Accepted f ∧ f.members.map Field.name = ["a".toList, "b".toList, "c".toList] ∧
    f.members.map Field.kind = [.int, .string, .int] := by
  obtain ⟨f, h1, h2⟩ := accepted (withGlobal_ok env0_ok "g" (el "bundle" [("name", "g")] [el "int" [("name", "a"), ("type", "uint8")],
      el "int" [("name", "b"), ("type", "uint8")], el "int" [("name", "c"), ("type", "uint8")]])) (parent := .top)
    (x := el "bundle" [("name", "x"), ("reuse", "g")] [el "replace" [] [el "string" [("name", "b")]]])
    (p := fun f => decide (f.members.map Field.name = ["a".toList, "b".toList, "c".toList] ∧
      f.members.map Field.kind = [.int, .string, .int])) (by decide +kernel)
  exact ⟨f, h1, by simpa using h2⟩

/-! ## C29 -/

/-- C29 for bundles and variants: with `reuse` and without `replace` the members are, in the same order, copies of exactly those members of the
    reused field that are not removed at or before the version of the new field, with `sinceVersion` raised to it, and then the newly
    defined ones. -/
theorem C29_reuse_members (env : FEnv) (fuel : Nat) (parent : ParentInfo) (node : Xml) (f : Field)
    (h : parseField env fuel parent node = .ok f) (hk : f.kind = .bundle ∨ f.kind = .variant) (props : Props) (s : Str) (g : Field)
    (hp : collectProps f.kind node = some props) (hs : props.find "reuse".toList = some s) (hg : env.findField s = some g)
    (hr : getChildren node ["replace".toList] = []) :
    ∃ new : List Field, f.members =
        (g.members.filter fun m => decide (¬ (m.removed = true ∧ m.depr ≤ f.since))).map
          (fun m => (clone m).setSince (max f.since m.since)) ++ new ∧
      ∀ m ∈ new, ∃ n fuel', parseField env fuel' (.field f.kind f.since f.depr) n = .ok m := by
  obtain ⟨n, rfl, h⟩ := parseField_ok h
  obtain ⟨b, c, props', f1, f2, pr⟩ := parseStep_prep h
  have e := pr.coll
  rw [hp] at e
  cases e
  have e2 : f2 = f1 := by
    rcases pr.replaced with e | ⟨r, _, e, _⟩
    · exact e
    · rw [hr] at e; cases e
  subst e2
  obtain ⟨c', hc', hreuse⟩ : ∃ c', c'.w = g.common.w ∧ reuseImpl env props c' g = .ok f2 := by
    rcases checkReuse_ok pr.reuse with ⟨e, _⟩ | ⟨s', g', code, e1, e2, _, _, e3⟩
    · rw [hs] at e; cases e
    · rw [hs] at e1; cases e1
      rw [hg] at e2; cases e2
      exact ⟨_, by exact (rfl : g.common.w = _), e3⟩
  have hmem : f2.members = cloneAll g.members := by
    cases g with
    | bundle c'' ms al cd =>
      simp only [reuseImpl, Res.bind_eq_ok, Res.pure_eq] at hreuse
      obtain ⟨al', _, hr⟩ := hreuse
      cases hr; rfl
    | _ => simp only [reuseImpl] at hreuse; cases hreuse; rfl
  have hw : f.common.w = c.w := by
    have := (parseBody_common pr.body).1
    rw [setCommon_common] at this
    exact this
  have hsince : b.ic.since = f.since := by rw [pr.ctx]; simp only [bodyCtx, Field.since, hw]
  have hchild : ∀ {n' g'}, b.child n' = .ok g' → parseField env n (.field f.kind f.since f.depr) n' = .ok g' := by
    intro n' g' hc
    rw [pr.ctx] at hc
    simp only [Field.since, Field.depr, hw]
    exact hc
  have hkeep : keepMembers b.ic.since f2.members =
      (g.members.filter fun m => decide (¬ (m.removed = true ∧ m.depr ≤ f.since))).map
          (fun m => (clone m).setSince (max f.since m.since)) := by
    rw [hmem, hsince, cloneAll_eq]
    unfold keepMembers
    rw [List.filter_map, List.map_map]
    congr 1
    · funext m
      simp [liftSince, Field.since, clone_common]
    · congr 1
      funext m
      have e1 : (clone m).removed = m.removed := by simp [Field.removed, clone_common]
      have e2 : (clone m).depr = m.depr := by simp [Field.depr, clone_common]
      simp only [Function.comp_apply, e1, e2]
      cases m.removed with
      | false => simp
      | true => by_cases h2 : m.depr ≤ f.since <;> simp [h2]
  have fin : ∀ {ms : List Field} {chk : List Field → Field → Res Bool}, (ms = keepMembers b.ic.since f2.members ∨
      ∃ ns, newMembers b chk ns (keepMembers b.ic.since f2.members) = .ok ms ∧ validateNames [] ms = true) →
      ∃ new : List Field, ms = keepMembers b.ic.since f2.members ++ new ∧
        ∀ m ∈ new, ∃ n fuel', parseField env fuel' (.field f.kind f.since f.depr) n = .ok m := by
    intro ms chk h
    rcases h with h | ⟨ns, h, _⟩
    · exact ⟨[], by simp [h], by simp⟩
    · obtain ⟨fs, e, hf⟩ := newMembers_prefix h
      refine ⟨fs, e, fun m hm => ?_⟩
      obtain ⟨n', _, hn'⟩ := hf m hm
      exact ⟨n', n, hchild hn'⟩
  rw [← hkeep]
  have hb := pr.body
  have hk2 := pr.kind2
  rcases hk with hk | hk
  · rw [hk] at hk2
    cases f2 <;> simp [Field.kind] at hk2
    simp only [Field.setCommon, parseBody, bundleImpl, Res.bind_eq_ok, Res.pure_eq] at hb
    obtain ⟨ms', h1, al', h2, cd', h3, h4⟩ := hb
    cases h4
    exact fin (bundleMembers_ok h1).1
  · rw [hk] at hk2
    cases f2 <;> simp [Field.kind] at hk2
    simp only [Field.setCommon, parseBody, variantImpl, Res.bind_eq_ok, Res.pure_eq] at hb
    obtain ⟨ms', h1, d', h2, h4⟩ := hb
    cases h4
    exact fin (variantMembers_ok h1).1

open Sample in
/-- A member removed in version 2 is dropped when the bundle is reused in version 3; the others are lifted, a new one follows. -/
example : ∃ f, Accepted f ∧ f.members.map (fun m => (m.name, m.since)) = [("a".toList, 3), ("c".toList, 3), ("d".toList, 3)] := by
  obtain ⟨f, h1, h2⟩ := accepted (withGlobal_ok env0_ok "g" (el "bundle" [("name", "g")] [el "int" [("name", "a"), ("type", "uint8")],
      el "int" [("name", "b"), ("type", "uint8"), ("deprecated", "2"), ("removed", "true")],
      el "int" [("name", "c"), ("type", "uint8"), ("sinceVersion", "1")]])) (parent := .message 3 4294967295)
    (x := el "bundle" [("name", "x"), ("reuse", "g")] [el "int" [("name", "d"), ("type", "uint8")]])
    (p := fun f => decide (f.members.map (fun m => (m.name, m.since)) = [("a".toList, 3), ("c".toList, 3), ("d".toList, 3)]))
    (by decide +kernel)
  exact ⟨f, h1, by simpa using h2⟩

/-! ## C44 -/

/-- The default member of a variant is "none" or an existing member. -/
def DefaultExists (f : Field) : Prop := ∀ c d ms, f = .variant c d ms → d = 2 ^ 64 - 1 ∨ d < ms.length

namespace MemberProofs

theorem defaultIdx_ok {ms : List Field} {v : Int} {d : Nat} (h : defaultIdx ms v = .ok d) :
    (v < 0 ∧ d = 2 ^ 64 - 1) ∨ (0 ≤ v ∧ d < ms.length ∧ d = castU64 v) := by
  unfold defaultIdx at h
  split at h
  · rename_i hv; cases h; exact Or.inl ⟨hv, rfl⟩
  · split at h
    · simp at h
    · rename_i h1 h2; cases h; exact Or.inr ⟨by omega, by omega, rfl⟩

theorem variantDefault_ok {env : FEnv} {b : BCtx} {ms : List Field} {cur d : Nat} (h : variantDefault env b ms cur = .ok d)
    {s : Str} (hs : b.props.getStr "defaultMember".toList = s) :
    (s = [] ∧ d = cur) ∨ (isValidName s = true ∧ ∃ m, ms[d]? = some m ∧ m.name = s ∧ ∀ j x, j < d → ms[j]? = some x → x.name ≠ s) ∨
    (isValidName s = false ∧ ∃ v, ((isValidRefName s = true ∧ env.strToEnum s = some v) ∨ (isValidRefName s = false ∧ strToIntMax s = some v)) ∧
      ((v < 0 ∧ d = 2 ^ 64 - 1) ∨ (0 ≤ v ∧ d < ms.length ∧ d = castU64 v))) := by
  unfold variantDefault at h
  split at h
  · simp at h
  · simp only [hs] at h
    split at h
    · rename_i hs
      cases h
      exact Or.inl ⟨by simpa using hs, rfl⟩
    · split at h
      · rename_i hv
        simp only [Res.ofOption_eq_ok] at h
        right; left
        refine ⟨hv, ?_⟩
        rw [List.findIdx?_eq_some_iff_getElem] at h
        obtain ⟨hlt, h1, h2⟩ := h
        refine ⟨ms[d], by simp [hlt], by simpa using (beq_iff_eq.1 h1).symm, ?_⟩
        intro j x hj hx he
        have := h2 j hj
        have hlt' : j < ms.length := by omega
        rw [List.getElem?_eq_getElem hlt'] at hx
        cases hx
        exact this (by rw [he]; simp)
      · rename_i hv
        right; right
        refine ⟨by simpa using hv, ?_⟩
        split at h
        · rename_i hr
          split at h
          · simp at h
          · rename_i v hv'
            exact ⟨v, Or.inl ⟨hr, hv'⟩, defaultIdx_ok h⟩
        · rename_i hr
          split at h
          · simp at h
          · rename_i v hv'
            exact ⟨v, Or.inr ⟨by simpa using hr, hv'⟩, defaultIdx_ok h⟩

end MemberProofs

/-- C44, partial: a variant that is defined with a `defaultMember`, or without `reuse`, has an existing default member: the (first) member of
    the given name, the one with the given number, the one with the number of the enum value, or none for negative numbers. Missing: the
    inherited index of a reused variant, which may be wrong, see below. -/
theorem C44_designated_partial (env : FEnv) (fuel : Nat) (parent : ParentInfo) (node : Xml) (c : Common) (d : Nat) (ms : List Field)
    (h : parseField env fuel parent node = .ok (.variant c d ms)) (props : Props) (hp : collectProps .variant node = some props)
    (s : Str) (hstr : props.getStr "defaultMember".toList = s) :
    (s = [] → props.find "reuse".toList = none → d = 2 ^ 64 - 1) ∧
    (s ≠ [] →
      (isValidName s = true ∧ ∃ m, ms[d]? = some m ∧ m.name = s) ∨
      (∃ v, ((isValidRefName s = true ∧ env.strToEnum s = some v) ∨ strToIntMax s = some v) ∧
        ((v < 0 ∧ d = 2 ^ 64 - 1) ∨ (d < ms.length ∧ (d : Int) = v % 2 ^ 64)))) := by
  obtain ⟨n, rfl, h⟩ := parseField_ok h
  obtain ⟨b, c', props', f1, f2, pr⟩ := parseStep_prep h
  have e := pr.coll
  simp only [Field.kind] at e
  rw [hp] at e
  cases e
  have hb := pr.body
  have hk2 := pr.kind2
  cases f2 <;> simp [Field.kind] at hk2
  rename_i c2 d2 ms2
  simp only [Field.setCommon, parseBody, variantImpl, Res.bind_eq_ok, Res.pure_eq] at hb
  obtain ⟨ms', h1, d', h2, h4⟩ := hb
  cases h4
  have hprops : b.props = props := by rw [pr.ctx]; rfl
  have hd := variantDefault_ok h2 (s := s) (by rw [hprops, hstr])
  constructor
  · intro hs hr
    rcases hd with ⟨_, hd⟩ | ⟨hv, _⟩ | ⟨_, v, hv, _⟩
    · rcases checkReuse_ok pr.reuse with ⟨_, e⟩ | ⟨s', _, _, e1, _⟩
      · rcases pr.replaced with e2 | ⟨r, rs, _, _, e2⟩
        · rw [e] at e2; simp only [initField] at e2; cases e2; exact hd
        · rw [e] at e2
          simp only [initField, replaceImpl] at e2
          simp only [Field.kind, Res.bind_eq_ok, Res.pure_eq] at e2
          obtain ⟨_, _, e2⟩ := e2
          cases e2; exact hd
      · rw [hr] at e1; cases e1
    · rw [hs] at hv; simp [isValidName] at hv
    · rw [hs] at hv
      rcases hv with ⟨hv, _⟩ | ⟨_, hv⟩
      · simp [isValidRefName] at hv
      · have e0 : strToIntMax [] = none := by decide
        rw [e0] at hv; cases hv
  · intro hs
    rcases hd with ⟨hd, _⟩ | ⟨hv, m, hm, hn, _⟩ | ⟨_, v, hv, hd⟩
    · exact absurd hd hs
    · exact Or.inl ⟨hv, m, hm, hn⟩
    · refine Or.inr ⟨v, ?_, ?_⟩
      · rcases hv with hv | ⟨_, hv⟩
        · exact Or.inl hv
        · exact Or.inr hv
      · rcases hd with hd | ⟨h0, hlt, hd⟩
        · exact Or.inl hd
        · refine Or.inr ⟨hlt, ?_⟩
          rw [hd]; unfold castU64; omega

open Sample in
/-- The second of two members as default. -/
example : ∃ c d ms, Accepted (.variant c d ms) ∧ d = 1 ∧ ms.length = 2 := by
  obtain ⟨f, h1, h2⟩ := accepted env0_ok (parent := .top)
    (x := el "variant" [("name", "v"), ("defaultMember", "b")] [el "int" [("name", "a"), ("type", "uint8")],
      el "int" [("name", "b"), ("type", "uint8")]])
    (p := fun f => match f with | .variant _ d ms => decide (d = 1 ∧ ms.length = 2) | _ => false) (by decide +kernel)
  split at h2
  · exact ⟨_, _, _, h1, by simpa using h2⟩
  · simp at h2

open Sample in
/-- Refutation of the full C44: the reused variant has members a (removed in version 1) and b, default b. The new one, of version 2, has only b,
    and the default member number 1, which does not exist. -/
theorem C44_stale_index_witness : ∃ f, Accepted f ∧ ¬ DefaultExists f := by
  obtain ⟨f, h1, h2⟩ := accepted (withGlobal_ok env0_ok "g" (el "variant" [("name", "g"), ("defaultMember", "b")]
      [el "int" [("name", "a"), ("type", "uint8"), ("deprecated", "1"), ("removed", "true")], el "int" [("name", "b"), ("type", "uint8")]]))
    (parent := .message 2 4294967295)
    (x := el "variant" [("name", "v"), ("reuse", "g")])
    (p := fun f => match f with | .variant _ d ms => decide (d = 1 ∧ ms.length = 1) | _ => false) (by decide +kernel)
  split at h2
  · refine ⟨_, h1, fun h => ?_⟩
    simp only [decide_eq_true_eq] at h2
    rcases h _ _ _ rfl with h | h <;> omega
  · simp at h2

open Sample in
/-- The same with a member behind: the default silently becomes c. -/
theorem C44_wrong_member_witness : ∃ c d ms m, Accepted (.variant c d ms) ∧ ms[d]? = some m ∧ m.name = "c".toList ∧
    ∃ c' d' ms' m', Accepted (.variant c' d' ms') ∧ ms'[d']? = some m' ∧ m'.name = "b".toList ∧ ms.length + 1 = ms'.length ∧
      ms.any (fun m => m.name == "b".toList) = true := by
  let g := el "variant" [("name", "g"), ("defaultMember", "b")]
      [el "int" [("name", "a"), ("type", "uint8"), ("deprecated", "1"), ("removed", "true")], el "int" [("name", "b"), ("type", "uint8")],
       el "int" [("name", "c"), ("type", "uint8")]]
  obtain ⟨f', h1', h2'⟩ := accepted env0_ok (parent := .top) (x := g)
    (p := fun f => match f with | .variant _ d ms => decide (d = 1 ∧ ms.map Field.name = ["a".toList, "b".toList, "c".toList]) | _ => false)
    (by decide +kernel)
  obtain ⟨f, h1, h2⟩ := accepted (withGlobal_ok env0_ok "g" g)
    (parent := .message 2 4294967295)
    (x := el "variant" [("name", "v"), ("reuse", "g")])
    (p := fun f => match f with | .variant _ d ms => decide (d = 1 ∧ ms.map Field.name = ["b".toList, "c".toList]) | _ => false)
    (by decide +kernel)
  split at h2
  · split at h2'
    · rename_i c d ms _ c' d' ms'
      simp only [decide_eq_true_eq] at h2 h2'
      obtain ⟨rfl, e⟩ := h2
      obtain ⟨rfl, e'⟩ := h2'
      obtain ⟨m0, ms1, rfl, em0, e⟩ := List.map_eq_cons_iff.1 e
      obtain ⟨m1, ms2, rfl, em1, e⟩ := List.map_eq_cons_iff.1 e
      obtain rfl := List.map_eq_nil_iff.1 e
      obtain ⟨n0, ns1, rfl, en0, e'⟩ := List.map_eq_cons_iff.1 e'
      obtain ⟨n1, ns2, rfl, en1, e'⟩ := List.map_eq_cons_iff.1 e'
      obtain ⟨n2, ns3, rfl, en2, e'⟩ := List.map_eq_cons_iff.1 e'
      obtain rfl := List.map_eq_nil_iff.1 e'
      exact ⟨_, _, _, m1, h1, rfl, em1, _, _, _, n1, h1', rfl, en1, rfl, by simp [em0]⟩
    · simp at h2'
  · simp at h2

/-! ## C45 -/

/-- No condition or alias of its own. -/
def Plain : Field → Prop
  | .bitfield _ _ _ cd => cd = none
  | .bundle _ _ al cd => al = [] ∧ cd = none
  | _ => True

/-- C45, partial: a copy of a field without conditions and aliases of bitfields and bundles equals the original. Missing: exactly these
    conditions and aliases, which are lost. -/
theorem C45_clone_eq_partial (f : Field) (h : Hered Plain f) : clone f = f := by
  induction h with
  | @mk f hp hs ih =>
    have slot : ∀ {s : Slot Field}, (∀ g ∈ s.toList, clone g = g) → cloneSlot s = s := by
      intro s hg
      cases s with
      | none => rfl
      | ext a => rfl
      | own a => simp [cloneSlot, hg a (by simp [Slot.toList])]
    have lst : ∀ {ms : List Field}, (∀ g ∈ ms, clone g = g) → cloneAll ms = ms := by
      intro ms hg
      rw [cloneAll_eq]
      exact (List.map_congr_left hg).trans (List.map_id _)
    cases f with
    | int | enum | set | float | ref => rfl
    | bitfield c e ms cd => simp only [Plain] at hp; simp [clone, lst (ms := ms) ih, hp]
    | bundle c ms al cd => simp only [Plain] at hp; simp [clone, lst (ms := ms) ih, hp.1, hp.2]
    | variant c d ms => simp [clone, lst (ms := ms) ih]
    | string c st p => simp [clone, slot (s := p) ih]
    | data c st p => simp [clone, slot (s := p) ih]
    | optional c st p cd => simp [clone, slot (s := p) ih]
    | list c st e cn l el t =>
      simp only [Field.subs, List.mem_append] at ih
      simp [clone, slot (s := e) fun g hg => ih g (by simp [hg]), slot (s := cn) fun g hg => ih g (by simp [hg]),
        slot (s := l) fun g hg => ih g (by simp [hg]), slot (s := el) fun g hg => ih g (by simp [hg]),
        slot (s := t) fun g hg => ih g (by simp [hg])]

/-- What copies always keep: kind, everything common to all fields, and the member names in order. -/
theorem C45_kept (f : Field) : (clone f).kind = f.kind ∧ (clone f).common = f.common ∧
    (clone f).members.map Field.name = f.members.map Field.name := by
  refine ⟨clone_kind f, clone_common f, ?_⟩
  rw [clone_members, List.map_map]
  exact List.map_congr_left fun m _ => by simp [Field.name, clone_common]

open Sample in
/-- Refutation of the full C45: a bundle with an alias loses it when copied, a bitfield its validity condition. -/
theorem C45_lost_witness : (∃ c ms al cd, Accepted (.bundle c ms al cd) ∧ al.length = 1 ∧ ∃ ms', clone (.bundle c ms al cd) = .bundle c ms' [] none) ∧
    ∃ c e ms cd, Accepted (.bitfield c e ms (some cd)) ∧ ∃ ms', clone (.bitfield c e ms (some cd)) = .bitfield c e ms' none := by
  constructor
  · obtain ⟨f, h1, h2⟩ := accepted env0_ok (parent := .top)
      (x := el "bundle" [("name", "b")] [el "members" [] [el "int" [("name", "a"), ("type", "uint8")]],
        el "alias" [("name", "x"), ("field", "$a")]])
      (p := fun f => match f with | .bundle _ _ al _ => decide (al.length = 1) | _ => false) (by decide +kernel)
    split at h2
    · exact ⟨_, _, _, _, h1, by simpa using h2, _, by rw [clone]⟩
    · simp at h2
  · obtain ⟨f, h1, h2⟩ := accepted env0_ok (parent := .top)
      (x := el "bitfield" [("name", "b"), ("validCond", "$a = 1")] [el "int" [("name", "a"), ("type", "uint8"), ("bitLength", "8")]])
      (p := fun f => match f with | .bitfield _ _ _ (some _) => true | _ => false) (by decide +kernel)
    split at h2
    · exact ⟨_, _, _, _, h1, _, by rw [clone]⟩
    · simp at h2

open Sample in
/-- A field with nested members that is copied faithfully. -/
example : ∃ f, Accepted f ∧ Hered Plain f ∧ f.members.length = 2 := by
  let plain : Field → Bool := fun f => match f with
    | .bitfield _ _ _ cd => cd.isNone
    | .bundle _ _ al cd => al.isEmpty && cd.isNone
    | _ => true
  obtain ⟨f, h1, h2⟩ := accepted env0_ok (parent := .top)
    (x := el "bundle" [("name", "b")] [el "int" [("name", "a"), ("type", "uint8")],
      el "bitfield" [("name", "f")] [el "int" [("name", "i"), ("type", "uint8")]]])
    (p := fun f => allB plain f && decide (f.members.length = 2)) (by decide +kernel)
  simp only [Bool.and_eq_true, decide_eq_true_eq] at h2
  refine ⟨f, h1, (hered h2.1).mono ?_, h2.2⟩
  intro g hg
  cases g with
  | bitfield => simpa [plain, Plain] using hg
  | bundle => simpa [plain, Plain] using hg
  | _ => trivial

end Commsdsl.Props
