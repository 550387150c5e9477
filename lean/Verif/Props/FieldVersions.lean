import Verif.Props.FieldMembers
import Verif.Props.Versions
/-!
# C26, C27 for whole fields
-/
namespace Commsdsl.Props
open Commsdsl Text Spec Fld

/-- `x` is somewhere inside `f` (a member, element, prefix, ... at any depth). -/
inductive Inside : Field → Field → Prop where
  | sub {f x : Field} : x ∈ f.subs → Inside f x
  | deeper {f m x : Field} : m ∈ f.subs → Inside m x → Inside f x

/-- The field exists in a version of the protocol. -/
def ExistsIn (f : Field) (ver : Nat) : Prop := f.since ≤ ver ∧ ver < f.depr

namespace VersionProofs

/-- The window is not empty and within the given one. -/
def Within (s d : Nat) (f : Field) : Prop := s ≤ f.since ∧ f.since < f.depr ∧ f.depr ≤ d

theorem fieldVersions_within {v s d : Nat} {props : Props} {w : Versions.Window} (h : Versions.fieldVersions v (.container s d) props = some w) :
    s ≤ w.since ∧ w.since < w.depr ∧ w.depr ≤ d := by
  unfold Versions.fieldVersions at h
  split at h
  · simp at h
  split at h
  · simp at h
  split at h
  · simp at h
  simp only [Option.bind_eq_bind, Option.bind_eq_some_iff] at h
  obtain ⟨⟨s', d'⟩, h1, r, h2, h3⟩ := h
  have e : w = ⟨s', d', r⟩ := by simpa using h3.symm
  subst e
  unfold Versions.getAndCheck at h1
  simp only [Option.bind_eq_bind, Option.bind_eq_some_iff] at h1
  obtain ⟨s1, _, d1, _, hc⟩ := h1
  split at hc
  · rename_i hck
    simp only [Option.some.injEq, Prod.mk.injEq] at hc
    obtain ⟨rfl, rfl⟩ := hc
    obtain ⟨_, h2, h3, h4, _⟩ := (C26_check_iff _ _ _ _ _).1 hck
    exact ⟨h2, h3, h4⟩
  · simp at hc

theorem prep_window {env : FEnv} {pc : ParentInfo → Xml → Res Field} {parent : ParentInfo} {node : Xml} {f f1 f2 : Field} {b : BCtx} {c : Common}
    {props : Props} (pr : Prep env pc parent node f b c props f1 f2) :
    f.common.w = c.w ∧ Versions.fieldVersions env.int.schemaVersion parent.versions props = some f.common.w := by
  have hw : f.common.w = c.w := by
    have := (parseBody_common pr.body).1
    rw [setCommon_common] at this
    exact this
  refine ⟨hw, ?_⟩
  have h := pr.comm
  simp only [updateCommon, Res.bind_eq_ok, Res.ofOption_eq_ok, Res.pure_eq] at h
  obtain ⟨_, _, _, _, _, _, w, h4, _, _, _, _, _, _, _, _, _, _, _, _, _, _, _, _, _, _, h⟩ := h
  cases h
  rw [hw]; exact h4

theorem step_within {env : FEnv} {pc : ParentInfo → Xml → Res Field} {parent : ParentInfo} {node : Xml} {f : Field}
    (h : parseStep env pc parent node = .ok f) {s d : Nat} (hp : parent.versions = .container s d) : Within s d f := by
  obtain ⟨b, c, props, f1, f2, pr⟩ := parseStep_prep h
  have := (prep_window pr).2
  rw [hp] at this
  exact fieldVersions_within this

end VersionProofs
open VersionProofs

/-- C26 for whole fields: an accepted field of a message or field has a non-empty window within the one of its parent. -/
theorem C26_field_in_parent (env : FEnv) (fuel : Nat) (node : Xml) (f : Field) (s d : Nat) :
    (parseField env fuel (.message s d) node = .ok f → s ≤ f.since ∧ f.since < f.depr ∧ f.depr ≤ d) ∧
    ∀ k, parseField env fuel (.field k s d) node = .ok f → s ≤ f.since ∧ f.since < f.depr ∧ f.depr ≤ d := by
  refine ⟨fun h => ?_, fun k h => ?_⟩ <;>
  · obtain ⟨n, rfl, h⟩ := parseField_ok h
    exact step_within h rfl

namespace VersionProofs

/-- Everything directly inside is global or within. -/
def Nested (env : FEnv) (f : Field) : Prop := ∀ m ∈ f.subs, (∃ s, env.findField s = some m) ∨ Within f.since f.depr m

theorem nested {env : FEnv} (hs : ∀ s g, env.findField s = some g → g.subs = []) :
    ∀ fuel parent node f, parseField env fuel parent node = .ok f → Hered (Nested env) f := by
  intro fuel
  induction fuel with
  | zero => intro parent node f h; simp [parseField] at h
  | succ n ih =>
    intro parent node f h
    change parseStep env (parseField env n) parent node = .ok f at h
    obtain ⟨b, c, props, f1, f2, pr⟩ := parseStep_prep h
    have hw := (prep_window pr).1
    have e1 : f1.subs = [] := by
      rcases pr.base with e | ⟨s, g, c', hg, _, hr, _⟩
      · rw [e, initField_subs]
      · cases hf : f1.subs with
        | nil => rfl
        | cons x xs =>
          have hx := reuseImpl_subs hr (x := x) (by rw [hf]; simp)
          obtain ⟨m, hm, _⟩ := clone_subs hx
          rw [hs s g hg] at hm; simp at hm
    have e2 : f2.subs = [] := by
      rcases pr.replaced with e | ⟨r, rs, _, _, hr⟩
      · rw [e, e1]
      · obtain ⟨_, _, h3, h4, chk, h5⟩ := replaceImpl_ok hr
        rw [← h3, e1] at h5
        rw [h4]
        cases rs with
        | nil => simp only [replaceMembers, Res.ok.injEq] at h5; exact h5.symm
        | cons r rs => simp [replaceMembers, replaceFirst] at h5
    have key : ∀ m ∈ f.subs, (∃ s, env.findField s = some m) ∨ ∃ x, parseField env n (.field f.kind f.since f.depr) x = .ok m := by
      intro m hm
      have := parseBody_subs pr.body hm
      rw [setCommon_subs, e2] at this
      rcases this with (h4 | h4 | ⟨x, h4⟩) | ⟨m, hm, _⟩
      · simp at h4
      · exact Or.inl h4
      · right
        refine ⟨x, ?_⟩
        rw [pr.ctx] at h4
        simp only [Field.since, Field.depr, hw]
        exact h4
      · simp at hm
    refine .mk ?_ ?_
    · intro m hm
      rcases key m hm with h1 | ⟨x, h1⟩
      · exact Or.inl h1
      · exact Or.inr ((C26_field_in_parent env n x m _ _).2 _ h1)
    · intro m hm
      rcases key m hm with ⟨s, h1⟩ | ⟨x, h1⟩
      · refine .mk ?_ ?_ <;> intro x hx <;> rw [hs s m h1] at hx <;> simp at hx
      · exact ih _ _ _ h1

end VersionProofs

/-- C27 for whole fields. If the global fields that can be reused or referred to are simple (nothing inside), then of any two fields in an
    accepted field tree where one is (at any depth) inside the other, the inner one exists only while the outer one does, and for at least one
    version; the only exceptions are fields outside of the tree, which are referred to by name.
    Missing for the full claim: reuse of composite fields, for which it is false (`C27_reuse_witness`). -/
theorem C27_field_nested_partial (env : FEnv) (fuel : Nat) (parent : ParentInfo) (node : Xml) (f : Field)
    (h : parseField env fuel parent node = .ok f) (hs : ∀ s g, env.findField s = some g → g.subs = []) (x y : Field)
    (hx : x = f ∨ Inside f x) (hy : Inside x y) :
    (∃ s, env.findField s = some y) ∨ ((∃ ver, ExistsIn y ver) ∧ ∀ ver, ExistsIn y ver → ExistsIn x ver) := by
  have hn := nested hs fuel parent node f h
  have hx' : Hered (Nested env) x := by
    rcases hx with rfl | hx
    · exact hn
    · clear hy h
      induction hx with
      | sub hm => exact hn.subs _ hm
      | deeper hm _ ih => exact ih (hn.subs _ hm)
  have : (∃ s, env.findField s = some y) ∨ Within x.since x.depr y := by
    clear hx hn h
    induction hy with
    | sub hm => exact hx'.self _ hm
    | @deeper f m x hm hi ih =>
      rcases ih (hx'.subs _ hm) with h1 | h1
      · exact Or.inl h1
      · rcases hx'.self _ hm with ⟨s, h2⟩ | h2
        · exfalso
          have := hs s m h2
          cases hi with
          | sub h3 => rw [this] at h3; simp at h3
          | deeper h3 _ => rw [this] at h3; simp at h3
        · right
          unfold Within at *
          omega
  rcases this with h1 | h1
  · exact Or.inl h1
  · right
    unfold Within at h1
    unfold ExistsIn
    exact ⟨⟨y.since, by omega⟩, fun ver hv => by omega⟩

open Sample in
/-- A list of bundles in version 2 with a member deprecated in version 3. -/
example : ∃ f x y, parseField env0 9 (.message 1 4294967295) (el "list" [("name", "l"), ("sinceVersion", "2")] [el "element" [] [
      el "bundle" [("name", "e")] [el "int" [("name", "a"), ("type", "uint8")], el "int" [("name", "b"), ("type", "uint8"), ("deprecated", "3")]]]]) = .ok f ∧
    (∀ s g, env0.findField s = some g → g.subs = []) ∧ Inside f x ∧ Inside x y ∧ f.since = 2 ∧ y.since = 2 ∧ y.depr = 3 := by
  have h : Sample.okWith (parseField env0 9 (.message 1 4294967295) (el "list" [("name", "l"), ("sinceVersion", "2")] [el "element" [] [
      el "bundle" [("name", "e")] [el "int" [("name", "a"), ("type", "uint8")], el "int" [("name", "b"), ("type", "uint8"), ("deprecated", "3")]]]]))
      (fun f => f.subs.any fun x => x.subs.any fun y => decide (f.since = 2 ∧ y.since = 2 ∧ y.depr = 3)) = true := by decide +kernel
  unfold Sample.okWith at h
  split at h
  · rename_i f hf
    simp only [List.any_eq_true, decide_eq_true_eq] at h
    obtain ⟨x, hx, y, hy, h⟩ := h
    exact ⟨f, x, y, hf, by simp [env0], .sub hx, .sub hy, h⟩
  · simp at h

/-- With or without reuse, no direct member of an accepted bundle, variant or bitfield is older than the field itself. -/
theorem C27_member_since (f : Field) (h : Accepted f) : ∀ m ∈ f.members, f.since ≤ m.since := by
  cases h with
  | @parse env fuel parent node f henv h =>
    obtain ⟨n, rfl, h⟩ := parseField_ok h
    obtain ⟨b, c, props, f1, f2, pr⟩ := parseStep_prep h
    have hw := (prep_window pr).1
    have hb : b.ic.since = f.since := by rw [pr.ctx]; simp [bodyCtx, Field.since, hw]
    have hc : ∀ {x g}, b.child x = .ok g → f.since ≤ g.since := by
      intro x g hx
      rw [pr.ctx] at hx
      have := ((C26_field_in_parent env n x g _ _).2 _ hx).1
      simpa [Field.since, hw] using this
    have hl : ∀ m : Field, f.since ≤ (liftSince b.ic.since m).since := by
      intro m
      rw [hb]
      simp only [liftSince, Field.setSince, Field.since, setCommon_common]
      omega
    have fin : ∀ {ms ms0 : List Field} {chk : List Field → Field → Res Bool}, (ms = keepMembers b.ic.since ms0 ∨
        ∃ ns, newMembers b chk ns (keepMembers b.ic.since ms0) = .ok ms ∧ validateNames [] ms = true) → ∀ m ∈ ms, f.since ≤ m.since := by
      intro ms ms0 chk h m hm
      have : m ∈ keepMembers b.ic.since ms0 ∨ ∃ x, b.child x = .ok m := by
        rcases h with rfl | ⟨ns, h, _⟩
        · exact Or.inl hm
        · exact newMembers_mem h hm
      rcases this with h1 | ⟨x, h1⟩
      · obtain ⟨m0, _, rfl, _⟩ := mem_keepMembers h1
        exact hl m0
      · exact hc h1
    have hbd := pr.body
    generalize hf2 : f2.setCommon c = f3 at hbd
    cases f3 with
    | bundle c' ms al cd =>
      simp only [parseBody, bundleImpl, Res.bind_eq_ok, Res.pure_eq] at hbd
      obtain ⟨ms', h1, _, _, _, _, h2⟩ := hbd
      have := fin (bundleMembers_ok h1).1
      rw [← Res.ok.inj h2] at this ⊢
      exact this
    | variant c' d ms =>
      simp only [parseBody, variantImpl, Res.bind_eq_ok, Res.pure_eq] at hbd
      obtain ⟨ms', h1, _, _, h2⟩ := hbd
      have := fin (variantMembers_ok h1).1
      rw [← Res.ok.inj h2] at this ⊢
      exact this
    | bitfield c' e ms cd =>
      simp only [parseBody, bitfieldImpl, Res.bind_eq_ok, Res.pure_eq] at hbd
      obtain ⟨_, _, ms', h1, _, _, h2⟩ := hbd
      have : ∀ m ∈ ms', f.since ≤ m.since := by
        intro m hm
        rcases bitfieldMembers_ok h1 with ⟨rfl, _⟩ | ⟨ns, _, _, h3, _⟩
        · obtain ⟨m0, _, rfl⟩ := List.mem_map.1 hm
          exact hl m0
        · rcases newMembers_mem h3 hm with h4 | ⟨x, h4⟩
          · simp at h4
          · exact hc h4
      rw [← Res.ok.inj h2] at this ⊢
      exact this
    | _ =>
      have hk : f.kind ≠ .bitfield ∧ f.kind ≠ .bundle ∧ f.kind ≠ .variant := by
        rw [parseBody_kind hbd]; simp [Field.kind]
      intro m hm
      cases f <;> simp [Field.members, Field.kind] at hm hk

open Sample in
/-- C27 is false with reuse: (1) a field inside a member of a reused bundle exists before the bundle and the member do; (2) a member that is
    deprecated but not removed before the new field is introduced ends up with an empty window; (3) a copied member outlives the new field. -/
theorem C27_reuse_witness :
    (∃ f m x, Accepted f ∧ m ∈ f.members ∧ x ∈ m.members ∧ ExistsIn x 0 ∧ ¬ ExistsIn m 0 ∧ ¬ ExistsIn f 0) ∧
    (∃ f m, Accepted f ∧ m ∈ f.members ∧ ∀ ver, ¬ ExistsIn m ver) ∧
    (∃ f m, Accepted f ∧ m ∈ f.members ∧ ExistsIn m 3 ∧ ¬ ExistsIn f 3) := by
  refine ⟨?_, ?_, ?_⟩
  · obtain ⟨f, h1, h2⟩ := accepted (withGlobal_ok env0_ok "g" (el "bundle" [("name", "g")] [el "bundle" [("name", "a")] [
        el "int" [("name", "b"), ("type", "uint8")]]])) (parent := .message 3 4294967295)
      (x := el "bundle" [("name", "x"), ("reuse", "g")])
      (p := fun f => f.members.any fun m => m.members.any fun x => decide (f.since = 3 ∧ m.since = 3 ∧ x.since = 0 ∧ 0 < x.depr)) (by decide +kernel)
    simp only [List.any_eq_true, decide_eq_true_eq] at h2
    obtain ⟨m, hm, x, hx, e1, e2, e3, e4⟩ := h2
    exact ⟨f, m, x, h1, hm, hx, ⟨by omega, e4⟩, fun h => by have := h.1; omega, fun h => by have := h.1; omega⟩
  · obtain ⟨f, h1, h2⟩ := accepted (withGlobal_ok env0_ok "g" (el "bundle" [("name", "g")] [el "int" [("name", "a"), ("type", "uint8")],
        el "int" [("name", "b"), ("type", "uint8"), ("deprecated", "2")]])) (parent := .message 3 4294967295)
      (x := el "bundle" [("name", "x"), ("reuse", "g")])
      (p := fun f => f.members.any fun m => decide (m.depr ≤ m.since)) (by decide +kernel)
    simp only [List.any_eq_true, decide_eq_true_eq] at h2
    obtain ⟨m, hm, e⟩ := h2
    exact ⟨f, m, h1, hm, fun ver h => by have := h.1; have := h.2; omega⟩
  · obtain ⟨f, h1, h2⟩ := accepted (withGlobal_ok env0_ok "g" (el "bundle" [("name", "g")] [el "int" [("name", "a"), ("type", "uint8")]]))
      (parent := .message 0 4294967295)
      (x := el "bundle" [("name", "x"), ("reuse", "g"), ("deprecated", "3")])
      (p := fun f => f.members.any fun m => decide (m.since ≤ 3 ∧ 3 < m.depr ∧ f.depr = 3)) (by decide +kernel)
    simp only [List.any_eq_true, decide_eq_true_eq] at h2
    obtain ⟨m, hm, e1, e2, e3⟩ := h2
    exact ⟨f, m, h1, hm, ⟨e1, e2⟩, fun h => by have := h.2; omega⟩

end Commsdsl.Props
