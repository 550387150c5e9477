import Verif.Model.GenRun
/-!
# When a run of a generator should succeed
-/
namespace Commsdsl.Run

/-- The run has to look at the schemas: it isn't ended by the options. -/
def Works (o : Options) (x : Parts) : Prop := o.help = false ∧ o.version = false ∧ ¬(o.quiet = true ∧ o.debug = true) ∧ x.early = false

/-- The run is ended by its options, as asked for. -/
def EndsEarly (o : Options) (x : Parts) : Prop := o.help = true ∨ o.version = true ∨ (¬(o.quiet = true ∧ o.debug = true) ∧ x.early = true)

/-- The steps before anything is written, without the last. -/
def Parts.before (x : Parts) : List Step := x.parse ++ x.validate :: x.create ++ x.request :: x.complete :: x.defaults :: x.prepare

/-- There is something to do, and everything before writing succeeds; with warnings as errors there is none. -/
structure Prepared (o : Options) (x : Parts) : Prop where
  files : x.parse ≠ []
  schemas : x.create ≠ []
  options : x.options.good = true
  good : ∀ s ∈ x.before, s.good = true
  last : x.finish.good = true
  quiet : o.warnAsErr = true → ∀ s ∈ x.options :: x.before, Level.warning ∉ s.reports

/-- Everything is written. -/
def Written (o : Options) (x : Parts) : Prop := (o.outDir = true → x.directory.good = true) ∧ (∀ s ∈ x.write, s.good = true) ∧ x.writeRest.good = true

/-- Steps with their numbers -/
def numbered (p : Nat → Phase) : Nat → List Step → List (Phase × Step)
  | _, [] => []
  | n, s :: ss => (p n, s) :: numbered p (n + 1) ss

/-- The steps before writing, in their order. -/
def Parts.preparing (x : Parts) : List (Phase × Step) := numbered .parse 0 x.parse ++ [(.validate, x.validate)] ++ numbered .create 0 x.create ++
  [(.request, x.request), (.complete, x.complete), (.defaults, x.defaults)] ++ numbered .prepare 0 x.prepare ++ [(.finish, x.finish)]

/-- The steps of writing, in their order. -/
def Parts.writing (o : Options) (x : Parts) : List (Phase × Step) := (if o.outDir then [(.directory, x.directory)] else []) ++ numbered .write 0 x.write ++
  [(.writeRest, x.writeRest)]

end Commsdsl.Run
