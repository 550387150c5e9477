import Verif.Model.GenText
/-!
# Command line of the generators (`lib/src/gen/GenProgramOptions.cpp`, `app/*/src/*ProgramOptions.cpp`)

The texts of the help are left out. Assertions are compiled out, as everywhere.
-/
namespace Commsdsl.Gen
open Commsdsl Text

/-- `OptInfo`, GenProgramOptions.cpp:235-243, without the description. -/
structure Opt where
  short : Str := []
  long : Str := []
  value : Str := []
  hasParam : Bool := false
  used : Bool := false
  deriving DecidableEq, Repr

/-- The loop, GenProgramOptions.cpp:260-274; `first` tells `idx == 0`. -/
def optNames : Bool → List Str → Opt → Opt
  | _, [], o => o
  | first, t :: ts, o =>
    if first && t.length == 1 then optNames false ts { o with short := t }
    else if !o.long.isEmpty then o
    else optNames false ts { o with long := t }

/-- The split is always defined, see C50. Helper of `makeOpt`, GenProgramOptions.cpp:251-277. -/
def commaParts (s : Str) : List Str := (splitByAnyChar s ",".toList true).getD []

/-- `genAddInternal`, GenProgramOptions.cpp:251-277 -/
def makeOpt (optStr : Str) (hasParam : Bool) (default : Str) : Opt :=
  optNames true (commaParts optStr) { value := default, hasParam := hasParam }

/-- `genRemove`, GenProgramOptions.cpp:72-89 -/
def removeOpt (optStr : Str) (opts : List Opt) : List Opt :=
  opts.filter fun o => !(commaParts optStr).any fun t => o.short == t || o.long == t

/-- The maps of `genPrepareOpts`, GenProgramOptions.cpp:279-292: of the options of the same name the last one is found. An option without a name is in no map. -/
def findName (get : Opt → Str) (name : Str) : Nat → List Opt → Option Nat
  | _, [] => none
  | i, o :: os =>
    match findName get name (i + 1) os with
    | some k => some k
    | none => if !(get o).isEmpty && get o == name then some i else none

/-- What is known while the command line is looked at. `unknown` are the texts reported by `genReportUnknownOption`. Helper of `useOpt`, GenProgramOptions.cpp:124-138. -/
structure CmdState where
  opts : List Opt
  args : List Str := []
  cur : Option Nat := none
  unknown : List Str := []
  deriving DecidableEq, Repr

/-- `processOptFunc`, GenProgramOptions.cpp:124-138 -/
def useOpt (tok name : Str) (get : Opt → Str) (st : CmdState) : CmdState :=
  match findName get name 0 st.opts with
  | none => { st with unknown := st.unknown ++ [tok] }
  | some k => match st.opts[k]? with
    | none => st
    | some o => { st with opts := st.opts.set k { o with used := true }, cur := if o.hasParam then some k else none }

/-- One round of the loop, GenProgramOptions.cpp:98-148 -/
def cmdStep (st : CmdState) (tok : Str) : CmdState :=
  if tok.isEmpty then st
  else match st.cur with
  | some k => match st.opts[k]? with
    | none => st
    | some o => { st with opts := st.opts.set k { o with value := tok }, cur := none }
  | none =>
    if tok.head? != some '-' then { st with args := st.args ++ [tok] }
    else if tok.length < 2 then { st with unknown := st.unknown ++ [tok] }
    else if tok[1]? == some '-' then useOpt tok (tok.drop 2) Opt.long st
    else useOpt tok (tok.drop 1) Opt.short st

/-- `genParse`, GenProgramOptions.cpp:91-149, on the arguments behind the name of the program. -/
def parseCmd (opts : List Opt) (argv : List Str) : CmdState := argv.foldl cmdStep { opts := opts }

/-- `genIsOptUsedInternal`, GenProgramOptions.cpp:311-319 -/
def usedIn (get : Opt → Str) (name : Str) (opts : List Opt) : Bool :=
  match findName get name 0 opts with
  | none => false
  | some k => match opts[k]? with
    | none => false
    | some o => o.used

/-- `genIsOptUsed`, GenProgramOptions.cpp:151-158 -/
def isOptUsed (opts : List Opt) (name : Str) : Bool :=
  if name.length == 1 && usedIn Opt.short name opts then true else usedIn Opt.long name opts

/-- `genValueInternal`, GenProgramOptions.cpp:321-330 -/
def valueIn (get : Opt → Str) (name : Str) (opts : List Opt) : Str :=
  match findName get name 0 opts with
  | none => []
  | some k => match opts[k]? with
    | none => []
    | some o => if o.hasParam then o.value else []

/-- `genValue`, GenProgramOptions.cpp:160-167 -/
def optValue (opts : List Opt) (name : Str) : Str :=
  if name.length == 1 && (findName Opt.short name 0 opts).isSome then valueIn Opt.short name opts else valueIn Opt.long name opts

/-! ## The options of the programs -/

/-- An option without, or with a parameter. Helper of `commonOpts`, GenProgramOptions.cpp:347-372. -/
def flagOpt (s : String) : Opt := makeOpt s.toList false []
/-- Helper of `commonOpts`, GenProgramOptions.cpp:347-372. -/
def paramOpt (s : String) : Opt := makeOpt s.toList true []

/-- `genAddCommonOptions`, GenProgramOptions.cpp:347-372 with the names of 24-54 -/
def commonOpts : List Opt := [flagOpt "h,help", flagOpt "version", flagOpt "q,quiet", flagOpt "d,debug", flagOpt "w,warn-as-err", paramOpt "o,output-dir",
  paramOpt "i,input-files-list", paramOpt "p,input-files-prefix", paramOpt "c,code-input-dir", flagOpt "s,multiple-schemas-enabled", paramOpt "n,namespace",
  paramOpt "m,min-remote-version", paramOpt "force-schema-version", flagOpt "code-inject-comments"]

/-- `genAddCodeVersionOptions`, GenProgramOptions.cpp:374-382 -/
def codeVersionOpts : List Opt := [paramOpt "V,code-version"]

/-- `genAddMessagesSelectionOptions`, GenProgramOptions.cpp:384-396 -/
def selectionOpts : List Opt := [paramOpt "messages-list", paramOpt "force-platform"]

/-- `genAddInterfaceSelectionOptions`, GenProgramOptions.cpp:398-404 -/
def interfaceOpts : List Opt := [paramOpt "force-interface"]

/-- `CommsProgramOptions`, CommsProgramOptions.cpp:37-62 -/
def commsOpts : List Opt := commonOpts ++ codeVersionOpts ++ [makeOpt "customization".toList true "limited".toList, flagOpt "version-independent-code",
  paramOpt "extra-messages-bundle", flagOpt "force-main-ns-in-options"]

/-- `CProgramOptions`, CProgramOptions.cpp:33-53 -/
def cOpts : List Opt := commonOpts ++ codeVersionOpts ++ selectionOpts ++ interfaceOpts ++ [paramOpt "P,names-prefix", paramOpt "comms-options", paramOpt "comms-input"]

/-- `SwigProgramOptions`, SwigProgramOptions.cpp:39-48, and `EmscriptenProgramOptions`, EmscriptenProgramOptions.cpp:39-48 -/
def swigOpts : List Opt := commonOpts ++ codeVersionOpts ++ selectionOpts ++ interfaceOpts ++ [flagOpt "force-main-ns-in-names", flagOpt "has-code-version"]

/-- `LatexProgramOptions`, LatexProgramOptions.cpp -/
def latexOpts : List Opt := commonOpts

/-- `TestProgramOptions`, TestProgramOptions.cpp; `genRemoveMinRemoteVersionOptions`, GenProgramOptions.cpp:406-410 -/
def testOpts : List Opt := removeOpt "m,min-remote-version".toList (commonOpts ++ codeVersionOpts)

/-- `ToolsQtProgramOptions`, ToolsQtProgramOptions.cpp:40-62 -/
def toolsOpts : List Opt := removeOpt "m,min-remote-version".toList (commonOpts ++ codeVersionOpts) ++ [paramOpt "protocol", flagOpt "force-main-ns-in-options"]

/-! ## Values of options -/

/-- `std::stoul(str)` with base 10: white space, a sign, digits; trailing text is ignored. `none` for the exceptions. Helper of `strToUnsigned32`, util.cpp:275-283. -/
def stoulDec (s : Str) : Option Nat :=
  let mag (neg : Bool) (r : Str) : Option Nat := match r with
    | [] => none
    | c :: cs => if digitVal c < 10 then
        let m := (scanDigits 10 0 (c :: cs)).1
        if u64Max < m then none else some (if neg then castU64 (-(m : Int)) else m)
      else none
  match s.dropWhile isSpace with
  | '-' :: r => mag true r
  | '+' :: r => mag false r
  | r => mag false r

/-- `genStrToUnsigned`, util.cpp:275-283 -/
def strToUnsigned32 (s : Str) : Nat := match stoulDec s with
  | none => 0
  | some n => castU32 n

/-- `genPathAddElem`, util.cpp:434-443 -/
def pathAddElem (path elem : Str) : Str :=
  (if !path.isEmpty && path.getLast? != some '/' then path ++ ['/'] else path) ++ elem

/-- `genGetInputFiles`, GenProgramOptions.cpp:483-516; `read` gives the contents of a file that can be read. -/
def inputFiles (read : Str → Option Str) (st : CmdState) : List Str :=
  let listed := match optValue st.opts "input-files-list".toList with
    | [] => []
    | f :: fs => match read (f :: fs) with
      | none => []
      | some contents =>
        let lines := (splitByAnyChar contents "\r\n".toList true).getD []
        let pre := optValue st.opts "input-files-prefix".toList
        if pre.isEmpty then lines else lines.map (pathAddElem pre)
  listed ++ st.args

/-- `genGetMinRemoteVersion`, GenProgramOptions.cpp:538-545 -/
def minRemoteOpt (opts : List Opt) : Nat :=
  if !isOptUsed opts "min-remote-version".toList then 0 else strToUnsigned32 (optValue opts "min-remote-version".toList)

/-- `genHasForcedSchemaVersion`, `genGetForcedSchemaVersion`, GenProgramOptions.cpp:547-555, as used by GenGenerator.cpp:1388-1390 -/
def forcedVersionOpt (opts : List Opt) : Option Nat :=
  if isOptUsed opts "force-schema-version".toList then some (strToUnsigned32 (optValue opts "force-schema-version".toList)) else none

/-- `genGetCodeVersionTokens`, GenGenerator.cpp:746-760 -/
def codeVersionTokens (v : Str) : List Str :=
  if v.isEmpty then []
  else
    let ts := (splitByAnyChar v ".".toList true).getD []
    ts ++ List.replicate (3 - ts.length) "0".toList

/-- Name and path of a bundle of messages: CommsGenerator.cpp:310-322; `stem` is `fs::path(path).stem()`. -/
def bundleName (stem : Str → Str) (b : Str) : Str × Str :=
  let path := if b.contains '@' then (b.dropWhile (· != '@')).drop 1 else b
  let name := if b.contains '@' then b.takeWhile (· != '@') else []
  (if name.isEmpty then stem path else name, path)

/-- `toolsGetPlugins`, ToolsQtProgramOptions.cpp:64-94: the five values of a plugin. -/
structure PluginInfo where
  frame : Str
  interface : Str
  name : Str
  desc : Str
  id : Str
  deriving DecidableEq, Repr

/-- One element of the list, ToolsQtProgramOptions.cpp:81-91. -/
def pluginInfo (text : Str) : PluginInfo :=
  let v := (splitByAnyChar text ":".toList false).getD []
  ⟨v.getD 0 [], v.getD 1 [], v.getD 2 [], v.getD 3 [], v.getD 4 []⟩

/-- `toolsGetPlugins` when the option is used, ToolsQtProgramOptions.cpp:64-94. -/
def pluginInfos (opts : List Opt) : List PluginInfo :=
  if !isOptUsed opts "protocol".toList then [] else (commaParts (optValue opts "protocol".toList)).map pluginInfo

end Commsdsl.Gen
