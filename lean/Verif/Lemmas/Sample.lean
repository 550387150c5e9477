import Verif.Spec.Field
import Verif.Lemmas.FieldInv
/-!
# Concrete documents for witnesses and examples
-/
namespace Commsdsl.Sample
open Commsdsl Fld Spec

/-- A schema of version 3 without explicit DSL version requirements. -/
def env0 : FEnv := { int := { dsl := 7, schemaVersion := 3, schemaEndian := .little, strToNumeric := fun _ => none } }

/-- An XML element. -/
def el (n : String) (as : List (String × String)) (ch : List Xml := []) : Xml :=
  .elem n.toList (as.map fun p => (p.1.toList, p.2.toList)) ch

/-- The environment after a global field has been parsed. -/
def withGlobal (env : FEnv) (name : String) (x : Xml) : FEnv :=
  { env with findField := fun s =>
      if s = name.toList then (match parseField env 9 .top x with | .ok f => some f | _ => none) else env.findField s }

/-- All global fields have been accepted. -/
def EnvOk (env : FEnv) : Prop := ∀ s g, env.findField s = some g → Accepted g

theorem env0_ok : EnvOk env0 := by intro s g h; simp [env0] at h

theorem withGlobal_ok {env : FEnv} (h : EnvOk env) (name : String) (x : Xml) : EnvOk (withGlobal env name x) := by
  intro s g hg
  simp only [withGlobal] at hg
  split at hg
  · split at hg
    · rename_i f hf
      cases hg
      exact .parse h hf
    · simp at hg
  · exact h s g hg

/-- The result is there and has the property. -/
def okWith (r : Res Field) (p : Field → Bool) : Bool :=
  match r with
  | .ok f => p f
  | _ => false

theorem accepted {env : FEnv} (he : EnvOk env) {parent : ParentInfo} {x : Xml} {p : Field → Bool}
    (h : okWith (parseField env 9 parent x) p = true) : ∃ f, Accepted f ∧ p f = true := by
  unfold okWith at h
  split at h
  · rename_i f hf
    exact ⟨f, .parse he hf, h⟩
  · simp at h

/-- A result is a given number. -/
def isNum (r : Res Nat) (n : Nat) : Bool :=
  match r with
  | .ok m => m == n
  | _ => false

theorem isNum_spec {r : Res Nat} {n : Nat} (h : isNum r n = true) : r = .ok n := by
  unfold isNum at h
  split at h
  · simpa using h
  · simp at h

/-- A result is undefined. -/
def isUb {α : Type} (r : Res α) : Bool :=
  match r with
  | .ub => true
  | _ => false

theorem isUb_spec {α : Type} {r : Res α} (h : isUb r = true) : r = .ub := by
  unfold isUb at h
  split at h
  · rfl
  · simp at h

mutual
/-- The check holds of the field and everything inside. -/
def allB (p : Field → Bool) : Field → Bool
  | .int c st => p (.int c st)
  | .enum c st => p (.enum c st)
  | .set c st => p (.set c st)
  | .float c st => p (.float c st)
  | .bitfield c e ms cd => p (.bitfield c e ms cd) && allBs p ms
  | .bundle c ms al cd => p (.bundle c ms al cd) && allBs p ms
  | .string c st s => p (.string c st s) && allBo p s
  | .data c st s => p (.data c st s) && allBo p s
  | .list c st e cn l el t => p (.list c st e cn l el t) && (allBo p e && (allBo p cn && (allBo p l && (allBo p el && allBo p t))))
  | .ref c b s => p (.ref c b s) && allBo p s
  | .optional c st s cd => p (.optional c st s cd) && allBo p s
  | .variant c d ms => p (.variant c d ms) && allBs p ms
/-- For lists -/
def allBs (p : Field → Bool) : List Field → Bool
  | [] => true
  | m :: ms => allB p m && allBs p ms
/-- For slots -/
def allBo (p : Field → Bool) : Slot Field → Bool
  | .none => true
  | .ext f => allB p f
  | .own f => allB p f
end

theorem allBs_mem {p : Field → Bool} {ms : List Field} (h : allBs p ms = true) : ∀ m ∈ ms, allB p m = true := by
  induction ms with
  | nil => simp
  | cons m ms ih =>
    simp only [allBs, Bool.and_eq_true] at h
    intro x hx
    rcases List.mem_cons.1 hx with rfl | hx
    · exact h.1
    · exact ih h.2 x hx

theorem allBo_mem {p : Field → Bool} {s : Slot Field} (h : allBo p s = true) : ∀ m ∈ s.toList, allB p m = true := by
  cases s <;> simp [Slot.toList, allBo] at h ⊢ <;> exact h

theorem hered {p : Field → Bool} {f : Field} (h : allB p f = true) : Hered (fun g => p g = true) f := by
  induction f using Field.induction with
  | h f ih =>
    cases f with
    | int | enum | set | float =>
      rw [allB] at h
      exact .mk h (by simp [Field.subs])
    | bitfield | bundle | variant =>
      rw [allB, Bool.and_eq_true] at h
      exact .mk h.1 fun g hg => ih g hg (allBs_mem h.2 g hg)
    | string | data | ref | optional =>
      rw [allB, Bool.and_eq_true] at h
      exact .mk h.1 fun g hg => ih g hg (allBo_mem h.2 g hg)
    | list =>
      simp only [allB, Bool.and_eq_true] at h
      refine .mk h.1 fun g hg => ih g hg ?_
      simp only [Field.subs, List.mem_append] at hg
      rcases hg with hg | hg | hg | hg | hg
      · exact allBo_mem h.2.1 g hg
      · exact allBo_mem h.2.2.1 g hg
      · exact allBo_mem h.2.2.2.1 g hg
      · exact allBo_mem h.2.2.2.2.1 g hg
      · exact allBo_mem h.2.2.2.2.2 g hg

end Commsdsl.Sample
