import Verif.Model.Git
import Verif.Model.Index
/-!
# The listing commands, the defaults of the flags and the exit status: cmd/scip-go/main.go

Not modelled: kong's parsing of the flags (the flags are what it delivers) and the text Go prints for a panic.
-/
namespace Verif.Commands
open Cmd Git

/-- `fmt.Println` of a string. -/
def println (s : Str) : Str := s ++ go!"\n"

/-- A loop of `fmt.Println`. -/
def printlns : List Str → Str
  | [] => []
  | s :: ss => println s ++ printlns ss

/-- What the body of a command printed to standard output (for progress, which is printed there too, see Model/Stdout.lean) and what it
returned. -/
structure Listing where
  printed : Str
  exit : Res Unit
  deriving DecidableEq

/-- main.go:200-221 `PackagesCmd.Run`. -/
def packagesRun (options : Res IndexOpts) (getPackages : IndexOpts → Res (List Str × List Str)) : Listing :=
  match options with
  | .crash => ⟨[], .crash⟩
  | .error e => ⟨[], .error e⟩
  | .ok o =>
    match getPackages o with
    | .crash => ⟨[], .crash⟩
    | .error e => ⟨[], .error e⟩
    | .ok (current, deps) =>
      ⟨println go!"Current packages" ++ printlns current ++ println go!"Dependency packages" ++ printlns deps, .ok ()⟩

/-- main.go:223-243 `MissingCmd.Run`. -/
def missingRun (options : Res IndexOpts) (listMissing : IndexOpts → Res (List Str)) : Listing :=
  match options with
  | .crash => ⟨[], .crash⟩
  | .error e => ⟨[], .error e⟩
  | .ok o =>
    match listMissing o with
    | .crash => ⟨[], .crash⟩
    | .error e => ⟨[], .error e⟩
    | .ok missing =>
      if missing.length = 0 then ⟨println go!"No missing documents", .ok ()⟩
      else ⟨println go!"Missing documents:" ++ printlns missing, .ok ()⟩

/-- scip.go:32-55 `GetPackages` as used by the command. -/
def packagesOf {α β : Type} (load : IndexOpts → Except Str (GoMap α × GoMap β)) : IndexOpts → Res (List Str × List Str) := fun o =>
  match Index.getPackages (load o) with
  | .ok x => .ok x
  | .error e => .error e

/-- scip.go:57-82 `ListMissing` as used by the command; the orders of its two loops are chosen from the project. -/
def missingOf {β : Type} (order order' : GoMap Index.Package → List Index.Package) (load : IndexOpts → Except Str (GoMap Index.Package × GoMap β)) :
    IndexOpts → Res (List Str) := fun o =>
  match load o with
  | .error e => .error e
  | .ok (project, _) =>
    match Index.listMissing o.moduleRoot (order project) (order' project) with
    | none => .crash
    | some l => .ok l

/-- How the process ends: exit status and what it printed itself to standard error (nothing for a panic, whose text is Go's). -/
structure Ending where
  status : Nat
  stderr : Str
  deriving DecidableEq

/-- main.go:60-71 `main`: `parsed` is what `parseArgs` delivers, `run` what the selected command returns.  A panic ends with status 2
(Go runtime). -/
def mainEnding (parsed : Except Str Unit) (run : Res Unit) : Ending :=
  match parsed with
  | .error e => ⟨1, go!"error: " ++ e ++ go!"\n"⟩
  | .ok () =>
    match run with
    | .ok () => ⟨0, []⟩
    | .error e => ⟨1, go!"error: " ++ e ++ go!"\n"⟩
    | .crash => ⟨2, []⟩

/-- paths.go:12-18 `wd`. -/
def workingDirectory (getwd : Except Str Str) : Str :=
  match getwd with
  | .ok d => d
  | .error _ => []

/-- internal/git/toplevel.go `TopLevel` and paths.go:20-26 `toplevel`; `o` is what `git rev-parse --show-toplevel` answers. -/
def toplevel (o : Output) : Str :=
  match command o with
  | (t, none) => t
  | (_, some _) => []

/-- main.go:280-286 `defaultRepositoryRemote`. -/
def defaultRepositoryRemote (parseUrl : Str → Option (Str × Str)) (getUrl : Output) : Str :=
  match inferRepo parseUrl getUrl with
  | .ok repo => repo
  | .error _ => []

/-- main.go:288-294 `defaultModuleVersion`. -/
def defaultModuleVersion (tags head : Output) : Res Str :=
  match inferModuleVersion tags head with
  | .ok v => .ok v
  | .error _ => .ok []
  | .crash => .crash

/-- What decoding the first JSON value into a `*packages.Module` gives: an error, nil (for `null`), or the field `GoVersion`. -/
inductive GoListAnswer where
  | error
  | null
  | module (goVersion : Str)
  deriving DecidableEq

/-- main.go:296-308 `defaultGoVersion`; `o` is what `go list -mod=readonly -m -json` answers. -/
def defaultGoVersion (decode : Str → GoListAnswer) (o : Output) : Res Str :=
  match command o with
  | (_, some _) => .ok []
  | (text, none) =>
    match decode text with
    | .error => .ok []
    | .null => .crash
    | .module v => .ok (go!"go" ++ v)

/-- What the subprocesses answer. -/
structure Tools where
  getUrl : Output
  tags : Output
  head : Output
  goList : Output

/-- The defaults of `--repository-remote`, `--module-version` and `--go-version`. -/
structure Defaults where
  remote : Str
  version : Str
  goVersion : Str
  deriving DecidableEq

/-- main.go:245-259: `parseArgs` asks for all defaults, also if the flags are given. -/
def defaults (parseUrl : Str → Option (Str × Str)) (decode : Str → GoListAnswer) (T : Tools) : Res Defaults :=
  match defaultModuleVersion T.tags T.head with
  | .crash => .crash
  | .error e => .error e
  | .ok version =>
    match defaultGoVersion decode T.goList with
    | .crash => .crash
    | .error e => .error e
    | .ok goVersion => .ok ⟨defaultRepositoryRemote parseUrl T.getUrl, version, goVersion⟩

end Verif.Commands
