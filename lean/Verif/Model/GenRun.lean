/-!
# The run of a generator (`lib/src/gen/GenGenerator.cpp`, `GenLogger.cpp`)

The order of the steps, when they are given up, the treatment of warnings, and the exit code. What the steps do is modelled elsewhere; here a step is what it
reports and whether it succeeds. A step reports the same whatever came before.
-/
namespace Commsdsl.Run

/-- `ParseErrorLevel`, lib/include/commsdsl/parse/ParseErrorLevel.h -/
inductive Level where
  | debug | info | warning | error
deriving DecidableEq, Repr

/-- lib/include/commsdsl/parse/ParseErrorLevel.h; the comparison is that of GenLogger.cpp:100-111. -/
def Level.num : Level → Nat
  | .debug => 0
  | .info => 1
  | .warning => 2
  | .error => 3

/-- What a step does: its messages and whether it returns `true`. Helper of `parseFiles`, GenGenerator.cpp:383-395. -/
structure Step where
  reports : List Level
  good : Bool
deriving DecidableEq

/-- The steps of a run, for the record of what is done. Helper of `St`, GenLogger.cpp:27-85. -/
inductive Phase where
  | parse (file : Nat) | validate | create (schema : Nat) | request | complete | defaults | prepare (schema : Nat) | finish
  | directory | write (schema : Nat) | writeRest
deriving DecidableEq

/-- The options that matter, GenProgramOptions.cpp. -/
structure Options where
  help : Bool
  version : Bool
  quiet : Bool
  debug : Bool
  warnAsErr : Bool
  outDir : Bool

/-- What the parts of the run do. Helper of `prepareAll`, GenGenerator.cpp:373-479 and 1047-1065. -/
structure Parts where
  /-- Options of the application: `genProcessOptionsImpl`, an overridden function. -/
  options : Step
  /-- The option asks for an early exit; otherwise a result that isn't good is a failure. -/
  early : Bool
  /-- One for each file. -/
  parse : List Step
  validate : Step
  /-- One for each schema. -/
  create : List Step
  request : Step
  complete : Step
  defaults : Step
  prepare : List Step
  finish : Step
  directory : Step
  write : List Step
  writeRest : Step

/-- State of the logger (`GenLoggerImpl`, GenLogger.cpp:27-85) and the record: messages printed and steps done. -/
structure St where
  min : Level := .info
  warnAsErr : Bool := false
  had : Bool := false
  printed : List Level := []
  done : List Phase := []

/-- `genLog`, GenLogger.cpp:100-111; the texts are left out. -/
def log (s : St) (l : Level) : St :=
  if l.num < s.min.num then s
  else { s with had := s.had || (s.warnAsErr && l == .warning), printed := s.printed ++ [l] }

/-- Helper of `processOptions`, GenGenerator.cpp:1352-1405. -/
def logAll (s : St) (ls : List Level) : St := ls.foldl log s

/-- One step. Modelling device, without code of its own; the calls are in GenGenerator.cpp:373-490. -/
def doStep (p : Phase) (x : Step) (s : St) : St × Bool := (logAll { s with done := s.done ++ [p] } x.reports, x.good)

/-- One step after another, as long as they succeed. Modelling device, without code of its own: `if (!f()) { return false; }`, e.g. GenGenerator.cpp:397-404. -/
def andThen (a b : St → St × Bool) (s : St) : St × Bool :=
  match a s with
  | (s, true) => b s
  | (s, false) => (s, false)

/-- The loops over files and schemas: for each element a step, ended by the first failure, which is reported if `say`. GenGenerator.cpp:383-395, 436-471, 1067-1079. -/
def steps (p : Nat → Phase) (check say : Bool) : Nat → List Step → St → St × Bool
  | _, [], s => (s, true)
  | n, x :: xs, s =>
    match doStep (p n) x s with
    | (s, false) => (if say then log s .error else s, false)
    | (s, true) => if check && s.had then (log s .error, false) else steps p check say (n + 1) xs s

/-- The tests of `genHadWarning`, GenGenerator.cpp:391-394, 401-404, 473-476 -/
def checkWarn (s : St) : St × Bool := if s.had then (log s .error, false) else (s, true)

/-- The loop over the files, GenGenerator.cpp:383-395. There is a message "Parsing" before each file, which is part of what the step reports here. -/
def parseFiles (ps : List Step) (s : St) : St × Bool := steps .parse true false 0 (ps.map fun x => { x with reports := .info :: x.reports }) s

/-- GenGenerator.cpp:406-410 -/
def someSchema (cs : List Step) (s : St) : St × Bool := if cs.isEmpty then (log s .error, false) else (s, true)

/-- `genPrepare`, GenGenerator.cpp:373-479 and 1047-1065 -/
def prepareAll (x : Parts) : St → St × Bool :=
  andThen (parseFiles x.parse) <| andThen (doStep .validate x.validate) <| andThen checkWarn <| andThen (someSchema x.create) <|
  andThen (steps .create false true 0 x.create) <| andThen (doStep .request x.request) <| andThen (doStep .complete x.complete) <|
  andThen (doStep .defaults x.defaults) <| andThen (steps .prepare false true 0 x.prepare) <| andThen checkWarn <| doStep .finish x.finish

/-- `genWrite`, GenGenerator.cpp:1067-1079 and 481-490 -/
def writeAll (o : Options) (x : Parts) : St → St × Bool :=
  andThen (fun s => if o.outDir then doStep .directory x.directory s else (s, true)) <|
  andThen (steps .write false false 0 x.write) <| doStep .writeRest x.writeRest

/-- `OptsProcessResult`. As used in GenGenerator.cpp:696-725. -/
inductive OptsResult where
  | go | earlyExit | failure

/-- `genProcessOptions`, GenGenerator.cpp:1352-1405. The other options only set values. What `genProcessOptionsImpl` reports is printed before the first step. -/
def processOptions (o : Options) (x : Parts) (s : St) : St × OptsResult :=
  if o.help || o.version then (s, .earlyExit)
  else if o.quiet && o.debug then (log s .error, .failure)
  else
    let s := if o.quiet then { s with min := .warning } else s
    let s := if o.debug then { s with min := .debug } else s
    let s := if o.warnAsErr then { s with warnAsErr := true } else s
    (logAll s x.options.reports, if x.early then .earlyExit else if x.options.good then .go else .failure)

/-- `genExec`, GenGenerator.cpp:696-725: the exit code of the program and the record. Exceptions are left out. -/
def run (o : Options) (x : Parts) : St × Int :=
  match processOptions o x {} with
  | (s, .earlyExit) => (s, 0)
  | (s, .failure) => (s, -1)
  | (s, .go) =>
    if x.parse.isEmpty then (log s .error, -1)
    else match prepareAll x s with
    | (s, false) => (log s .error, -1)
    | (s, true) =>
      match writeAll o x s with
      | (s, false) => (log s .error, -2)
      | (s, true) => (s, 0)

end Commsdsl.Run
