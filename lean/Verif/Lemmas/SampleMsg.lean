import Verif.Lemmas.Sample
import Verif.Spec.Message
/-!
# Concrete messages for witnesses and examples
-/
namespace Commsdsl.Sample
open Commsdsl Fld Msg Spec

/-- The schema of `env0` with three platforms. -/
def menv0 : MEnv := { fld := env0, platforms := ["A".toList, "B".toList, "C".toList] }

/-- The environment after a message has been parsed. -/
def withMsg (env : MEnv) (name : String) (x : Xml) : MEnv :=
  { env with findMessage := fun s =>
      if s = name.toList then (match parseMessage env x with | .ok f => some f | _ => none) else env.findMessage s }

/-- The environment after an interface has been parsed. -/
def withIface (env : MEnv) (name : String) (x : Xml) : MEnv :=
  { env with findInterface := fun s =>
      if s = name.toList then (match parseInterface env x with | .ok f => some f | _ => none) else env.findInterface s }

/-- All that can be found has been accepted. -/
def MEnvOk (env : MEnv) : Prop := EnvOk env.fld ∧ (∀ s x, env.findMessage s = some x → AcceptedMsg x) ∧
  ∀ s x, env.findInterface s = some x → AcceptedIface x

theorem menv0_ok : MEnvOk menv0 := ⟨env0_ok, by intro s x h; simp [menv0] at h, by intro s x h; simp [menv0] at h⟩

theorem withMsg_ok {env : MEnv} (h : MEnvOk env) (name : String) (x : Xml) : MEnvOk (withMsg env name x) := by
  refine ⟨h.1, ?_, h.2.2⟩
  intro s g hg
  simp only [withMsg] at hg
  split at hg
  · split at hg
    · rename_i f hf
      cases hg
      exact .parse h.1 h.2.1 hf
    · simp at hg
  · exact h.2.1 s g hg

theorem withIface_ok {env : MEnv} (h : MEnvOk env) (name : String) (x : Xml) : MEnvOk (withIface env name x) := by
  refine ⟨h.1, h.2.1, ?_⟩
  intro s g hg
  simp only [withIface] at hg
  split at hg
  · split at hg
    · rename_i f hf
      cases hg
      exact .parse h.1 h.2.2 hf
    · simp at hg
  · exact h.2.2 s g hg

/-- The environment after a global field has been parsed. -/
def withFld (env : MEnv) (name : String) (x : Xml) : MEnv := { env with fld := withGlobal env.fld name x }

theorem withFld_ok {env : MEnv} (h : MEnvOk env) (name : String) (x : Xml) : MEnvOk (withFld env name x) :=
  ⟨withGlobal_ok h.1 name x, h.2.1, h.2.2⟩

/-- The result is there and has the property. -/
def okIs {α : Type} (r : Res α) (p : α → Bool) : Bool :=
  match r with
  | .ok f => p f
  | _ => false

theorem okIs_spec {α : Type} {r : Res α} {p : α → Bool} (h : okIs r p = true) : ∃ f, r = .ok f ∧ p f = true := by
  unfold okIs at h
  split at h
  · exact ⟨_, rfl, h⟩
  · simp at h

theorem acceptedMsg {env : MEnv} (he : MEnvOk env) {x : Xml} {p : Message → Bool} (h : okIs (parseMessage env x) p = true) :
    ∃ m, parseMessage env x = .ok m ∧ AcceptedMsg m ∧ p m = true := by
  obtain ⟨f, h1, h2⟩ := okIs_spec h
  exact ⟨f, h1, .parse he.1 he.2.1 h1, h2⟩

theorem acceptedIface {env : MEnv} (he : MEnvOk env) {x : Xml} {p : Interface → Bool} (h : okIs (parseInterface env x) p = true) :
    ∃ m, parseInterface env x = .ok m ∧ AcceptedIface m ∧ p m = true := by
  obtain ⟨f, h1, h2⟩ := okIs_spec h
  exact ⟨f, h1, .parse he.1 he.2.2 h1, h2⟩

end Commsdsl.Sample
