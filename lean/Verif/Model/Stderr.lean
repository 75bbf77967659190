import Verif.Model.Main
import Verif.Model.Warnings
/-!
# Standard error: what the whole program logs

The records of the levels Info, Warn and Error of a run of `main`, in the order in which they are made, and which of them the handler of output.go:75-82
prints.  The records of level Debug are left out (those of the file visitor are in Model/Log.lean), so this is all that is shown unless `-V` is given twice.
Not modelled: the time stamps and the formatting of `slog`'s text handler, and the text that Go prints for a panic.
-/
namespace Verif.Stderr
open Cmd Git Commands Main Index Warnings

/-- A record of the level Info, Warn or Error. -/
inductive Rec where
  /-- main.go:86 `Info("Go standard library version: ")` -/
  | goVersion (v : Str)
  /-- main.go:87 `Info("Resolved module name: ")` -/
  | moduleName (m : Str)
  /-- main.go:89 `Info("Resolved as stdlib: true")` -/
  | stdlib
  /-- main.go:92 `Info("Skipping implementations")` -/
  | skipImplementations
  /-- main.go:95 `Info("Skipping tests")` -/
  | skipTests
  /-- main.go:103 `Info("GOPACKAGESDRIVER")` -/
  | driver (d : Str)
  | warn (w : Warning)
  /-- main.go:131 `Error("could not write memory profile")` -/
  | profileNotWritten (e : Str)
  /-- main.go:134 `Error("could not close memory profile")` -/
  | profileNotClosed (e : Str)
  deriving DecidableEq, Repr

/-- The level of a record. -/
def Rec.level : Rec → Level
  | .goVersion _ => levelInfo
  | .moduleName _ => levelInfo
  | .stdlib => levelInfo
  | .skipImplementations => levelInfo
  | .skipTests => levelInfo
  | .driver _ => levelInfo
  | .warn _ => levelWarn
  | .profileNotWritten _ => levelError
  | .profileNotClosed _ => levelError

/-- output.go:75-82: above `Warn` everything is discarded, otherwise what has at least the level is printed.  none: `SetOutputOptions` has not been called, and
slog's default logger, whose level is Info, prints. -/
def printed (level : Option Level) (rs : List Rec) : List Rec :=
  match level with
  | none => rs.filter fun r => decide (r.level ≥ levelInfo)
  | some l => if l > levelWarn then [] else rs.filter fun r => decide (r.level ≥ l)

/-- main.go:97-105. -/
def driverLog : Option Str → List Rec
  | none => []
  | some d => if d = go!"off" then [] else [.driver d]

/-- main.go:73-105 `makeOptions`: the level that is set (none: it ends before), and what is logged. -/
def makeOptionsLog (Y : System) (sh : SharedFlags) : Option Level × List Rec :=
  match abs Y.getwd sh.moduleRoot with
  | .error _ => (none, [])
  | .ok root =>
    match getLogLevel sh.quiet sh.verbose with
    | none => (none, [])
    | some level =>
      (some level, (moduleNameWarned Y.modules root sh.modulePath).map .warn ++
        match Git.moduleName Y.modules root sh.repositoryRemote sh.modulePath with
        | .crash => []
        | .error _ => []
        | .ok (path, std) =>
          [.goVersion sh.goVersion, .moduleName path] ++ (if std then [.stdlib] else []) ++
            (if sh.skipImplementations then [.skipImplementations] else []) ++ (if sh.skipTests then [.skipTests] else []) ++ driverLog Y.driver)

/-- loader.go:48-79 `addImportsToPkgs` (as `Loader.collect`). -/
def collectLog (env : Loader.Env) (opts : Loader.Opts) (g : Loader.Graph) (order : Nat → Nat → List Nat) : Nat → Loader.St → List Nat → List Warning
  | _, _, [] => []
  | 0, _, _ :: _ => []
  | fuel + 1, st, i :: rest =>
    let st := { st with met := st.met ++ [i] }
    if Loader.alreadyKept g st i then collectLog env opts g order fuel st rest
    else normalizeWarned opts (st.pkgs i) ++
      match Loader.normalize env opts (st.pkgs i) with
      | none => []
      | some p =>
        collectLog env opts g order fuel
          { st with pkgs := fun j => if j = i then p else st.pkgs j, all := st.all.set p.path (.loaded i) } (order st.met.length i ++ rest)

/-- loader.go:120-123: the loop over the loaded packages. -/
def collectRootsLog (env : Loader.Env) (opts : Loader.Opts) (g : Loader.Graph) (order : Nat → Nat → List Nat) (fuel : Nat) :
    Loader.St → List Nat → List Warning
  | _, [] => []
  | st, i :: rest => collectLog env opts g order fuel st [i] ++
    match Loader.collect env opts g order fuel st [i] with
    | some (some st) => collectRootsLog env opts g order fuel st rest
    | _ => []

/-- loader.go:81-128 `LoadPackages`. -/
def loadLog (answer : Program.Query → Except Str Program.Delivered) (env : Loader.Env) (order : Nat → Nat → List Nat) (fuel : Nat) (o : IndexOpts) :
    List Warning :=
  patternsWarned o.packagePatterns ++
    match answer (Program.query o.moduleRoot o) with
    | .error _ => []
    | .ok d =>
      let opts := Program.loaderOpts o
      let opts := if opts.moduleVersion = [] then { opts with moduleVersion := go!"." } else opts
      collectRootsLog env opts d.seen order fuel ⟨d.info, [(go!"builtin", .builtin)], []⟩ d.roots

/-- scip.go:84-178 `Index`: packages are loaded when the metadata has been written. -/
def indexLog (D : Deps) (answer : Program.Query → Except Str Program.Delivered) (env : Loader.Env) (order : Nat → Nat → List Nat) (fuel : Nat)
    (ord : MapOrders) (o : IndexOpts) (w : Writer) : List Warning :=
  match w [] (.metadata (metadata D (Program.indexOpts o))) with
  | some _ => []
  | none =>
    loadLog answer env order fuel o ++
      match Program.load answer env order fuel o o.moduleRoot with
      | none => []
      | some loaded => indexWarned D (Program.indexOpts o) ord w loaded

/-- scip.go:66-70: the first loop of `ListMissing`. -/
def syntaxLog (root : Str) : List Package → Docs → List Warning
  | [], _ => []
  | p :: ps, docs => (visitPackageSyntaxWarned p.env (p.files.map SourceFile.node) []).map .conflict ++
    match visitSyntaxOf root p docs with
    | none => []
    | some (docs, _) => syntaxLog root ps docs

/-- scip.go:57-82 `ListMissing`. -/
def missingLog (answer : Program.Query → Except Str Program.Delivered) (env : Loader.Env) (order : Nat → Nat → List Nat) (fuel : Nat)
    (ord : GoMap Package → List Package) (o : IndexOpts) : List Warning :=
  loadLog answer env order fuel o ++
    match Program.load answer env order fuel o o.moduleRoot with
    | some (.ok (project, _)) => syntaxLog o.moduleRoot (ord project) []
    | _ => []

/-- What becomes of the memory profile: the errors of writing and of closing the file (none: no error). -/
structure ProfileEnd where
  write : Option Str
  close : Option Str
  deriving DecidableEq

/-- main.go:128-136: the deferred function (made also if the command fails).  Simplification: a panic in one of the goroutines of scip.go ends the process
without it; this is not told apart. -/
def profileLog (P : ProfileEnd) (profile : Int) : List Rec :=
  if profile > 0 then
    (match P.write with
      | none => []
      | some e => [.profileNotWritten e]) ++
    (match P.close with
      | none => []
      | some e => [.profileNotClosed e])
  else []

/-- main.go:121-198 `IndexCmd.Run`: the level that is set, and what is logged. -/
def runLog (D : Deps) (answer : Program.Query → Except Str Program.Delivered) (env : Loader.Env) (order : Nat → Nat → List Nat) (fuel : Nat)
    (ord : MapOrders) (Y : System) (sh : SharedFlags) (W : World) (P : ProfileEnd) (profile : Int) (output : Str) : Option Level × List Rec :=
  match (if profile > 0 then W.createProfile else none) with
  | some _ => (none, [])
  | none =>
    let (level, rs) := makeOptionsLog Y sh
    (level, rs ++
      (match makeOptions (surroundings Y) sh with
        | .error _ => []
        | .crash => []
        | .ok (o, _) =>
          match (if output = go!"-" then none else W.create) with
          | some _ => []
          | none => (indexLog D answer env order fuel ord o (writer W.disk)).map .warn) ++
      profileLog P profile)

/-- main.go:200-243: a listing command. -/
def listingLog (Y : System) (sh : SharedFlags) (body : IndexOpts → List Warning) : Option Level × List Rec :=
  let (level, rs) := makeOptionsLog Y sh
  (level, rs ++
    match makeOptions (surroundings Y) sh with
    | .error _ => []
    | .crash => []
    | .ok (o, _) => (body o).map .warn)

/-- main.go:60-71 `main`: what is printed of the log.  (`steps` and `fuel` as in `Main.main`; this has a meaning if they are enough there.) -/
def mainLog (D : Deps) (answer : Program.Query → Except Str Program.Delivered) (env : Loader.Env) (order : Nat → Nat → List Nat) (steps fuel : Nat)
    (ord : MapOrders) (ord' : (GoMap Package → List Package) × (GoMap Package → List Package)) (Y : System)
    (W : World) (P : ProfileEnd) (parsed : Except Str (Given × Selected)) : List Rec :=
  match parseArgs Y steps parsed with
  | none => []
  | some .crash => []
  | some (.error _) => []
  | some (.ok (sh, .index output profile)) =>
    let (level, rs) := runLog D answer env order fuel ord Y sh W P profile (output.getD go!"index.scip")
    printed level rs
  | some (.ok (sh, .packages)) =>
    let (level, rs) := listingLog Y sh (loadLog answer env order fuel)
    printed level rs
  | some (.ok (sh, .missing)) =>
    let (level, rs) := listingLog Y sh (missingLog answer env order fuel ord'.1)
    printed level rs

end Verif.Stderr
