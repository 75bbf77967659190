import Verif.Model.Wire
/-!
# The command line program: cmd/scip-go/main.go

Modelled: `getLogLevel`, `makeOptions`, the writer and the body of `IndexCmd.Run`.  Not modelled: flag parsing (kong), profiling data,
logging, `defer file.Close()` (its error is ignored by the program).
-/
namespace Verif.Cmd
open Pb

/-- `slog.Level` (log/slog): Debug −4, Info 0, Warn 4, Error 8. -/
abbrev Level := Int
def levelDebug : Level := -4
def levelInfo : Level := 0
def levelWarn : Level := 4
def levelError : Level := 8

/-- main.go:310-314 `logLevels`. -/
def logLevels : List Level := [levelWarn, levelInfo, levelDebug]

/-- main.go:316-326 `getLogLevel`; none is a panic (index out of range). -/
def getLogLevel (noOutput : Bool) (verbosity : Int) : Option Level :=
  if noOutput then some levelError
  else
    let v := if verbosity ≥ logLevels.length then (logLevels.length : Int) - 1 else verbosity
    if v < 0 then none else logLevels[v.toNat]?

/-- main.go:26-37 `SharedFlags`. -/
structure SharedFlags where
  moduleRoot : Str
  repositoryRemote : Str
  modulePath : Str
  moduleVersion : Str
  goVersion : Str
  quiet : Bool
  verbose : Int
  skipImplementations : Bool
  skipTests : Bool
  packagePatterns : List Str
  deriving DecidableEq

/-- internal/config/config.go `IndexOpts`. -/
structure IndexOpts where
  moduleRoot : Str
  moduleVersion : Str
  modulePath : Str
  isGoPackagesDriverSet : Bool
  goStdlibVersion : Str
  skipImplementations : Bool
  skipTests : Bool
  isIndexingStdlib : Bool
  packagePatterns : List Str
  arguments : List Str
  deriving DecidableEq

/-- The result of a function that may return an error or panic. -/
inductive Res (α : Type) where
  | ok (a : α)
  | error (e : Str)
  | crash
  deriving DecidableEq

/-- What `makeOptions` asks: `filepath.Abs`, `modules.ModuleName` (on root, remote and path), the environment variable
`GOPACKAGESDRIVER` (none: not set) and `os.Args[1:]`. -/
structure Surroundings where
  abs : Str → Except Str Str
  moduleName : Str → Str → Str → Res (Str × Bool)
  driver : Option Str
  args : List Str

/-- main.go:98-105: is a packages driver configured? -/
def driverSet : Option Str → Bool
  | none => false
  | some d => if d = go!"off" then false else true

/-- main.go:73-119 `makeOptions`, with the log level it sets (nothing if it ends before). -/
def makeOptions (S : Surroundings) (sh : SharedFlags) : Res (IndexOpts × Level) :=
  match S.abs sh.moduleRoot with
  | .error e => .error (go!"get abspath of module root: " ++ e)
  | .ok root =>
    match getLogLevel sh.quiet sh.verbose with
    | none => .crash
    | some level =>
      match S.moduleName root sh.repositoryRemote sh.modulePath with
      | .crash => .crash
      | .error e => .error e
      | .ok (path, std) =>
        .ok ({ moduleRoot := root, moduleVersion := sh.moduleVersion, modulePath := path, goStdlibVersion := sh.goVersion
               isIndexingStdlib := std, skipImplementations := sh.skipImplementations, skipTests := sh.skipTests
               packagePatterns := sh.packagePatterns, arguments := S.args, isGoPackagesDriverSet := driverSet S.driver }, level)

/-- What `file.Write` does: given what was written so far and the new bytes, none if all are written, otherwise how many of them are
and the error. -/
abbrev Disk := Bytes → Bytes → Option (Nat × Str)

/-- What one call of the writer adds to the file (main.go:171-183). -/
def appended (disk : Disk) (content : Bytes) (m : Index.Message) : Bytes :=
  match marshal (indexOf m) with
  | none => []
  | some b =>
    match disk content b with
    | none => b
    | some (k, _) => b.take k

/-- The content of the file after these calls of the writer. -/
def contentAfter (disk : Disk) (ms : List Index.Message) : Bytes := ms.foldl (fun c m => c ++ appended disk c m) []

/-- main.go:157-186: the writer; none is success.  What `proto.Marshal` says about the cause, which follows the text of the first error
after a colon, is left out. -/
def writer (disk : Disk) : Index.Writer := fun done m =>
  match marshal (indexOf m) with
  | none => some go!"failed to marshal SCIP index to Protobuf"
  | some b =>
    match disk (contentAfter disk done) b with
    | none => none
    | some (_, e) => some (go!"failed to write to scip index file: " ++ e)

/-- What is at the output path: nothing, a regular file, or something else that can be opened for writing (device, pipe). -/
inductive Target where
  | absent
  | regular (content : Bytes)
  | special
  deriving DecidableEq

/-- What the file system answers: the error of creating `mem.pprof`, of `os.Create` on the output path, what writing does, whether
`os.Stat` and `os.Remove` succeed; and how `fmt` quotes a text for `%q` (strconv.Quote). -/
structure World where
  createProfile : Option Str
  create : Option Str
  disk : Disk
  statOk : Bool
  removeOk : Bool
  quote : Str → Str

/-- How the program ends, what is at the output path, and the bytes of the index that went to standard output (for everything that goes there see
Model/Stdout.lean). -/
structure Result where
  exit : Res Unit
  target : Target
  piped : Bytes
  deriving DecidableEq

/-- main.go:149 `os.Create`: an existing regular file is truncated. -/
def createdTarget : Target → Target
  | .special => .special
  | _ => .regular []

/-- main.go:121-198 `IndexCmd.Run`. `indexing` is `index.Index` with the options and a writer; a panic in it ends the program. -/
def run (W : World) (profile : Int) (output : Str) (options : Res IndexOpts) (indexing : IndexOpts → Index.Writer → Index.Run)
    (before : Target) : Result :=
  match (if profile > 0 then W.createProfile else none) with
  | some e => ⟨.error (go!"could not create memory profile: " ++ e), before, []⟩
  | none =>
    match options with
    | .error e => ⟨.error e, before, []⟩
    | .crash => ⟨.crash, before, []⟩
    | .ok o =>
      if output = go!"-" then
        let r := indexing o (writer W.disk)
        let c := contentAfter W.disk r.messages
        match r.outcome with
        | .ok => ⟨.ok (), before, c⟩
        | .failed e => ⟨.error e, before, c⟩
        | .crash => ⟨.crash, before, c⟩
      else
        match W.create with
        | some e => ⟨.error (go!"failed to create scip index file " ++ W.quote output ++ go!": " ++ e), before, []⟩
        | none =>
          let r := indexing o (writer W.disk)
          let after := match createdTarget before with
            | .regular _ => Target.regular (contentAfter W.disk r.messages)
            | t => t
          match r.outcome with
          | .ok => ⟨.ok (), after, []⟩
          | .crash => ⟨.crash, after, []⟩
          | .failed e =>
            let removed := match after with
              | .regular c => if W.statOk && W.removeOk then .absent else .regular c
              | t => t
            ⟨.error e, removed, []⟩

end Verif.Cmd
