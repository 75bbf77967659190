import Verif.Model.Commands
import Verif.Model.Program
/-!
# The whole program: `main` from what the operating system, `git` and `go` answer

Not modelled: how kong reads the command line and the environment variables of the flags (`kong.DefaultEnvars`); `Given` is what it finds
there.  kong prints help and version and exits by itself.
-/
namespace Verif.Main
open Cmd Git Commands

/-- `filepath.Abs` on Unix: a relative path is joined to the working directory. -/
def abs (getwd : Except Str Str) (path : Str) : Except Str Str :=
  if Filepath.isAbs path then .ok (Filepath.clean path)
  else
    match getwd with
    | .error e => .error e
    | .ok wd => .ok (Filepath.clean (wd ++ go!"/" ++ path))

/-- What the program asks of its environment: the working directory, `git rev-parse --show-toplevel` there, `os.Stat`, the subprocesses of
main.go:280-308 run in a directory, the functions used for the module name, the variable `GOPACKAGESDRIVER` and `os.Args[1:]`;
`url.Parse` and the JSON decoder. -/
structure System where
  getwd : Except Str Str
  showToplevel : Output
  stat : Str → Stat
  tools : Str → Tools
  modules : ModuleEnv
  driver : Option Str
  args : List Str
  parseUrl : Str → Option (Str × Str)
  decode : Str → GoListAnswer

/-- The flags that are given (none: not given). -/
structure Given where
  moduleRoot : Option Str
  repositoryRemote : Option Str
  modulePath : Option Str
  moduleVersion : Option Str
  goVersion : Option Str
  quiet : Bool
  verbose : Int
  skipImplementations : Bool
  skipTests : Bool
  packagePatterns : List Str
  deriving DecidableEq

/-- main.go:26-37: the defaults in the tags of `SharedFlags`. -/
def sharedFlags (root : Str) (D : Defaults) (g : Given) : SharedFlags :=
  { moduleRoot := g.moduleRoot.getD root
    repositoryRemote := g.repositoryRemote.getD D.remote
    modulePath := g.modulePath.getD []
    moduleVersion := g.moduleVersion.getD D.version
    goVersion := g.goVersion.getD D.goVersion
    quiet := g.quiet
    verbose := g.verbose
    skipImplementations := g.skipImplementations
    skipTests := g.skipTests
    packagePatterns := if g.packagePatterns = [] then [go!"./..."] else g.packagePatterns }

/-- main.go:276-278 `defaultModuleRoot`; none: more steps are needed. -/
def defaultModuleRoot (Y : System) (steps : Nat) : Option Str :=
  searchForGoMod Y.stat steps (workingDirectory Y.getwd) (toplevel Y.showToplevel)

/-- main.go:245-270 `parseArgs`: the defaults are asked for before anything is parsed; the tools run in the default module root, whatever root
is given.  `parsed` is what kong makes of the arguments.  none: more steps are needed. -/
def parseArgs {α : Type} (Y : System) (steps : Nat) (parsed : Except Str (Given × α)) : Option (Res (SharedFlags × α)) :=
  (defaultModuleRoot Y steps).map fun root =>
    match defaults Y.parseUrl Y.decode (Y.tools root) with
    | .crash => .crash
    | .error e => .error e
    | .ok D =>
      match parsed with
      | .error e => .error (go!"failed to parse args: " ++ e)
      | .ok (g, c) => .ok (sharedFlags root D g, c)

/-- What `makeOptions` asks (main.go:73-119). -/
def surroundings (Y : System) : Surroundings :=
  { abs := abs Y.getwd, moduleName := moduleName Y.modules, driver := Y.driver, args := Y.args }

/-- The selected command with its own flags (main.go:39-58; the default of `--output` is filled in). -/
inductive Selected where
  | index (output : Option Str) (profile : Int)
  | packages
  | missing
  deriving DecidableEq

/-- How the process ends, and what it leaves: at the output path, of the index on standard output, and what a listing command prints there
(progress is printed there too, see Model/Stdout.lean). -/
structure Outcome where
  ending : Ending
  target : Target
  piped : Pb.Bytes
  printed : Str
  deriving DecidableEq

/-- scip.go:32-55 `GetPackages` and scip.go:57-82 `ListMissing` load the packages as `Index` does. -/
def loadFor (answer : Program.Query → Except Str Program.Delivered) (env : Loader.Env) (order : Nat → Nat → List Nat) (fuel : Nat) (o : IndexOpts) :
    Except Str (GoMap Index.Package × GoMap Index.Package) :=
  (Program.load answer env order fuel o o.moduleRoot).getD (.error [])

/-- main.go:200-243: a listing command ends if loading does. -/
def listing (answer : Program.Query → Except Str Program.Delivered) (env : Loader.Env) (order : Nat → Nat → List Nat) (fuel : Nat)
    (options : Res (IndexOpts × Level)) (body : Res IndexOpts → Listing) : Option Listing :=
  match options with
  | .crash => some (body .crash)
  | .error e => some (body (.error e))
  | .ok (o, _) => (Program.load answer env order fuel o o.moduleRoot).map fun _ => body (.ok o)

/-- main.go:60-71 `main`; `steps` bounds the search for go.mod and `fuel` the loading (none: more steps are needed).  `ord'` are the orders of the
two loops of `ListMissing`. -/
def main (D : Index.Deps) (answer : Program.Query → Except Str Program.Delivered) (env : Loader.Env) (order : Nat → Nat → List Nat) (steps fuel : Nat)
    (ord : Index.MapOrders) (ord' : (GoMap Index.Package → List Index.Package) × (GoMap Index.Package → List Index.Package)) (Y : System)
    (W : World) (parsed : Except Str (Given × Selected)) (before : Target) : Option Outcome :=
  match parseArgs Y steps parsed with
  | none => none
  | some .crash => some ⟨mainEnding (.ok ()) .crash, before, [], []⟩
  | some (.error e) => some ⟨mainEnding (.error e) (.ok ()), before, [], []⟩
  | some (.ok (sh, .index output profile)) =>
    (Program.command D answer env order fuel ord (surroundings Y) sh W profile (output.getD go!"index.scip") before).map fun r =>
      ⟨mainEnding (.ok ()) r.exit, r.target, r.piped, []⟩
  | some (.ok (sh, .packages)) =>
    (listing answer env order fuel (makeOptions (surroundings Y) sh) fun options =>
      packagesRun options (packagesOf (loadFor answer env order fuel))).map fun l => ⟨mainEnding (.ok ()) l.exit, before, [], l.printed⟩
  | some (.ok (sh, .missing)) =>
    (listing answer env order fuel (makeOptions (surroundings Y) sh) fun options =>
      missingRun options (missingOf ord'.1 ord'.2 (loadFor answer env order fuel))).map fun l => ⟨mainEnding (.ok ()) l.exit, before, [], l.printed⟩

end Verif.Main
