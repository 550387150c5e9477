import Verif.Model.GenOptions
import Verif.Spec.Text
/-!
# What a command line means
-/
namespace Commsdsl.Spec
open Commsdsl Gen

/-- The text `-x` or `--name` names the option with index `k`. -/
def NamesOpt (opts : List Opt) (t : Str) (k : Nat) : Prop :=
  ∃ o, opts[k]? = some o ∧ (o.short ≠ [] ∧ t = '-' :: o.short ∨ o.long ≠ [] ∧ t = '-' :: '-' :: o.long)

/-- Short names are single characters, and no two options have the same name. -/
structure OptsSound (opts : List Opt) : Prop where
  single : ∀ o ∈ opts, o.short = [] ∨ ∃ c, o.short = [c] ∧ c ≠ '-'
  shorts : ∀ (i j : Nat) o o', opts[i]? = some o → opts[j]? = some o' → o.short ≠ [] → o.short = o'.short → i = j
  longs : ∀ (i j : Nat) o o', opts[i]? = some o → opts[j]? = some o' → o.long ≠ [] → o.long = o'.long → i = j

/-- The parts of a command line. -/
inductive CmdItem where
  | flag (text : Str) (k : Nat)
  | param (text : Str) (k : Nat) (value : Str)
  | arg (text : Str)
  | unknown (text : Str)

/-- The part stands on the command line as ... -/
def CmdItem.tokens : CmdItem → List Str
  | .flag t _ => [t]
  | .param t _ v => [t, v]
  | .arg t => [t]
  | .unknown t => [t]

/-- A flag names an option without a parameter; an option with a parameter is followed by its value, whatever that looks like; all else is an argument, unless it
    starts with a dash. -/
def CmdItem.Ok (opts : List Opt) : CmdItem → Prop
  | .flag t k => NamesOpt opts t k ∧ ∃ o, opts[k]? = some o ∧ o.hasParam = false
  | .param t k v => NamesOpt opts t k ∧ (∃ o, opts[k]? = some o ∧ o.hasParam = true) ∧ v ≠ []
  | .arg t => t ≠ [] ∧ t.head? ≠ some '-'
  | .unknown t => t.head? = some '-' ∧ ∀ k, ¬ NamesOpt opts t k

/-- The part uses the option. -/
def CmdItem.uses (k : Nat) : CmdItem → Bool
  | .flag _ k' => k' == k
  | .param _ k' _ => k' == k
  | _ => false

/-- The value it gives the option. -/
def CmdItem.valueFor (k : Nat) : CmdItem → Option Str
  | .param _ k' v => if k' = k then some v else none
  | _ => none

def CmdItem.asArg : CmdItem → Option Str
  | .arg t => some t
  | _ => none

def CmdItem.asUnknown : CmdItem → Option Str
  | .unknown t => some t
  | _ => none

/-- The result of reading these parts, and at the end perhaps an option (by its index) whose value is missing. -/
structure CmdResult (opts : List Opt) (items : List CmdItem) (last : Option Nat) (st : CmdState) : Prop where
  args : st.args = items.filterMap CmdItem.asArg
  unknown : st.unknown = items.filterMap CmdItem.asUnknown
  size : st.opts.length = opts.length
  each : ∀ (k : Nat) o, opts[k]? = some o → st.opts[k]? = some { o with
    used := o.used || items.any (CmdItem.uses k) || decide (last = some k),
    value := ((items.filterMap (CmdItem.valueFor k)).getLast?).getD o.value }

end Commsdsl.Spec
