import Verif.Model.XsdgenCli
import Verif.Model.Gen
set_option autoImplicit false

/-! Model of the command lines: `GenCLI` (xsdgen/cli.go:111-156 and wsdlgen/cli.go:28-77), the `main`
functions (cmd/xsdgen/xsdgen.go:10-19, cmd/wsdlgen/wsdlgen.go:11-21, cmd/xsdparse/xsdparse.go:18-64), and the
part of the package `flag` of the standard library that they use. Simplifications: messages are left out; a
compiled regular expression is kept with the text it was made from, which is what its method `String`
returns; formatting and writing of the file are left out (`FormattedSource`, `ioutil.WriteFile`). -/

namespace GoXml.Cli
open Xsdgen

/-! ### Package flag -/

/-- What `FlagSet.parseOne` sees in an argument (Go 1.22, flag/flag.go:1076-1108). -/
inductive Arg where
  | stop
  | terminator
  | bad
  | flag (name : Str) (value : Option Str)
deriving DecidableEq, Repr

/-- The loop that looks for `=` (flag/flag.go:1101-1108). -/
def splitEq : Str → Str × Option Str
  | [] => ([], none)
  | c :: cs => if c = 61 then ([], some cs) else (c :: (splitEq cs).1, (splitEq cs).2)

/-- The name that follows the minuses: it is not empty and begins neither with `-` nor with `=`
(flag/flag.go:1093-1108). -/
def flagName : Str → Arg
  | [] => .bad
  | c :: cs => if c = 45 ∨ c = 61 then .bad else .flag (c :: (splitEq cs).1) (splitEq cs).2

/-- One argument (flag/flag.go:1076-1108). -/
def readArg : Str → Arg
  | [] => .stop
  | [_] => .stop
  | a :: b :: rest =>
    if a ≠ 45 then .stop
    else if b = 45 then (if rest = [] then .terminator else flagName rest)
    else flagName (b :: rest)

/-- `FlagSet.Parse` (flag/flag.go:1076-1170) with `ExitOnError`: the flags and the other arguments, `none` if
the program is ended. `known` says which flags are defined, and which of them are boolean; `set` is their
method `Set`, `none` if it returns an error. The flags `h` and `help` are not defined and end the program. -/
def parseFlags {σ : Type} (known : Str → Option Bool) (set : Str → Str → σ → Option σ) : List Str → σ → Option (σ × List Str)
  | [], st => some (st, [])
  | arg :: args, st => match readArg arg with
    | .stop => some (st, arg :: args)
    | .terminator => some (st, args)
    | .bad => none
    | .flag name value => match known name with
      | none => none
      | some true => match set name (value.getD b!"true") st with
        | none => none
        | some st => parseFlags known set args st
      | some false => match value with
        | some v => match set name v st with
          | none => none
          | some st => parseFlags known set args st
        | none => match args with
          | [] => none
          | v :: args => match set name v st with
            | none => none
            | some st => parseFlags known set args st

/-- `strconv.ParseBool` (strconv/atob.go:10-18). -/
def parseBool (s : Str) : Option Bool :=
  if s ∈ [b!"1", b!"t", b!"T", b!"TRUE", b!"true", b!"True"] then some true
  else if s ∈ [b!"0", b!"f", b!"F", b!"FALSE", b!"false", b!"False"] then some false
  else none

/-- `ReplaceRuleList` (internal/commandline/cli.go:15-22). -/
abbrev Rules := List ((Str × Regexp) × Str)

/-- `regexp.Compile`, with the text of the expression. -/
def compileText (env : Env) (s : Str) : Option (Str × Regexp) := (env.compile s).map fun r => (s, r)

/-- A rule on the command line (internal/commandline/cli.go:34-47). -/
def setRule (env : Env) (s : Str) (rules : Rules) : Option Rules :=
  let r := Gen.replaceSet (compileText env) rules s
  if r.2 then some r.1 else none

/-- How a command ends: the program ends with status 2 (or 0 if help is asked for), `GenCLI` returns an error about
the usage, or code is generated with this configuration from these files and written to this file. -/
inductive Plan (κ : Type) where
  | exit
  | usage
  | generate (cfg : κ) (files : List Str) (output : Str)

/-! ### xsdgen -/

/-- The flags of xsdgen (xsdgen/cli.go:112-124). -/
structure XFlags where
  packageName : Str := []
  output : Str := b!"xsdgen_output.go"
  followImports : Bool := false
  verbose : Bool := false
  debug : Bool := false
  rules : Rules := []
  xmlns : List Str := []

/-- The names of the flags (xsdgen/cli.go:117-124). -/
def xKnown (name : Str) : Option Bool :=
  if name ∈ [b!"pkg", b!"o", b!"r", b!"ns"] then some false
  else if name ∈ [b!"f", b!"v", b!"vv"] then some true
  else none

/-- The methods `Set` of the flags (xsdgen/cli.go:117-124). -/
def xSet (env : Env) (name value : Str) (fl : XFlags) : Option XFlags :=
  if name = b!"pkg" then some { fl with packageName := value }
  else if name = b!"o" then some { fl with output := value }
  else if name = b!"f" then (parseBool value).map fun b => { fl with followImports := b }
  else if name = b!"v" then (parseBool value).map fun b => { fl with verbose := b }
  else if name = b!"vv" then (parseBool value).map fun b => { fl with debug := b }
  else if name = b!"r" then (setRule env value fl.rules).map fun r => { fl with rules := r }
  else some { fl with xmlns := Gen.stringsSet fl.xmlns value }

/-- The options that `GenCLI` applies (xsdgen/cli.go:132-144). -/
def xOptions (fl : XFlags) : List Opt :=
  (if fl.debug then [.logLevel 5] else if fl.verbose then [.logLevel 1] else []) ++
    [.namespaces fl.xmlns, .followImports fl.followImports] ++
    fl.rules.map (fun r => .replaceAllNames r.1.2 r.2) ++
    (if fl.packageName ≠ [] then [.packageName fl.packageName] else [])

/-- `Config.GenCLI` (xsdgen/cli.go:111-156) up to the call of `GenAST`. -/
def xsdgenCLI (env : Env) (cfg : Config) (arguments : List Str) : Plan Config :=
  match parseFlags xKnown (xSet env) arguments {} with
  | none => .exit
  | some (_, []) => .usage
  | some (fl, files) => .generate (applyOpts env (xOptions fl) none cfg).1 files fl.output

/-- `DefaultOptions` (xsdgen/config.go:69-76). -/
def xDefaults : List Opt :=
  [.ignoreAttributes [b!"id", b!"href", b!"ref", b!"offset"], .replace b!"[._ \\s-]" b!"", .packageName b!"ws",
    .handleSOAPArrayType, .soapArrayAsSlice, .useFieldNames]

/-- The configuration of the command (cmd/xsdgen/xsdgen.go:11-14); `stderr` is the logger. -/
def xsdgenMain (env : Env) (stderr : Nat) : Config :=
  (applyOpts env (xDefaults ++ [.logOutput (some stderr)]) none {}).1

/-! ### wsdlgen -/

/-- The flags of wsdlgen (wsdlgen/cli.go:29-41). -/
structure WFlags where
  packageName : Str := []
  comment : Str := []
  output : Str := b!"wsdlgen_output.go"
  verbose : Bool := false
  debug : Bool := false
  rules : Rules := []
  ports : List Str := []

/-- The names of the flags (wsdlgen/cli.go:34-41). -/
def wKnown (name : Str) : Option Bool :=
  if name ∈ [b!"pkg", b!"c", b!"o", b!"r", b!"port"] then some false
  else if name ∈ [b!"v", b!"vv"] then some true
  else none

/-- The methods `Set` of the flags (wsdlgen/cli.go:34-41). -/
def wSet (env : Env) (name value : Str) (fl : WFlags) : Option WFlags :=
  if name = b!"pkg" then some { fl with packageName := value }
  else if name = b!"c" then some { fl with comment := value }
  else if name = b!"o" then some { fl with output := value }
  else if name = b!"v" then (parseBool value).map fun b => { fl with verbose := b }
  else if name = b!"vv" then (parseBool value).map fun b => { fl with debug := b }
  else if name = b!"r" then (setRule env value fl.rules).map fun r => { fl with rules := r }
  else some { fl with ports := Gen.stringsSet fl.ports value }

/-- `Config.Option` (wsdlgen/config.go:43-48), without the returned option. -/
def wApply (env : Env) (os : List WOpt) (cfg : WConfig) : WConfig := os.foldl (fun c o => (applyWOpt env o c).1) cfg

/-- `Config.XSDOption` (wsdlgen/config.go:52-54), without the returned option. -/
def xsdOption (env : Env) (os : List Opt) (cfg : WConfig) : WConfig :=
  { cfg with xsdgen := (applyOpts env os none cfg.xsdgen).1 }

/-- The effect of the flags on the configuration (wsdlgen/cli.go:49-66). -/
def wConfigure (env : Env) (fl : WFlags) (cfg : WConfig) : WConfig :=
  let cfg := wApply env (if fl.debug then [.logLevel 5] else if fl.verbose then [.logLevel 1] else []) cfg
  let cfg := if fl.packageName ≠ [] then
      xsdOption env [.packageName fl.packageName] (wApply env [.packageName fl.packageName] cfg)
    else cfg
  let cfg := wApply env (if fl.comment ≠ [] then [.packageComment fl.comment] else []) cfg
  let cfg := wApply env (if fl.ports ≠ [] then [.onlyPorts fl.ports] else []) cfg
  xsdOption env (fl.rules.map fun r => .replace r.1.1 r.2) cfg

/-- `Config.GenCLI` (wsdlgen/cli.go:28-77) up to the call of `GenAST`. -/
def wsdlgenCLI (env : Env) (cfg : WConfig) (arguments : List Str) : Plan WConfig :=
  match parseFlags wKnown (wSet env) arguments {} with
  | none => .exit
  | some (_, []) => .usage
  | some (fl, files) => .generate (wConfigure env fl cfg) files fl.output

/-- `DefaultOptions` (wsdlgen/config.go:61-65). -/
def wDefaults : List WOpt := [.packageName b!"ws", .inputThreshold 3, .outputThreshold 2]

/-- The configuration of the command (cmd/wsdlgen/wsdlgen.go:12-16), and of the function `GenCLI`
(wsdlgen/cli.go:82-88); `stderr` is the logger. -/
def wsdlgenMain (env : Env) (stderr : Nat) : WConfig :=
  wApply env [.logOutput (some stderr)] (xsdOption env xDefaults (wApply env wDefaults {}))

/-- The name of the package and the comment in front of it (wsdlgen/wsdlgen.go:94-99 and 131-132,
internal/gen/gen.go:206-212); `doc` is the documentation of the WSDL document. -/
def packageClause (cfg : WConfig) (doc : Str) : Str × List Str :=
  let name := if cfg.pkgName = [] then b!"ws" else cfg.pkgName
  let header := if cfg.pkgHeader = [] then b!"Package " ++ name else cfg.pkgHeader
  (name, Gen.commentGroup [header, b!"\n", doc])

/-! ### xsdparse -/

/-- The loop that chooses what is printed (cmd/xsdparse/xsdparse.go:51-59). `standard` are the target namespaces
of `xsd.StandardSchema` (cmd/xsdparse/xsdparse.go:36-44), `targetNS` is the flag `-ns`. -/
def printed (standard : List Str) (targetNS : Str) : List Element → List Element
  | [] => []
  | root :: roots =>
    let tns := root.attr [] b!"targetNamespace"
    if targetNS ≠ [] ∧ targetNS = tns then root :: printed standard targetNS roots
    else if tns ∉ standard then root :: printed standard targetNS roots
    else printed standard targetNS roots

end GoXml.Cli
