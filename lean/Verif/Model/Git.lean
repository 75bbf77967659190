import Verif.Model.Cmd
import Verif.Model.Filepath
import Verif.Model.Semver
/-!
# Defaults taken from the repository: internal/git, internal/modules, cmd/scip-go/paths.go, cmd/scip-go/main.go:273-292

Running `git`, reading files, `url.Parse`, `modfile.ParseLax` and `vcs.RepoRootForImportPath` are parameters.
-/
namespace Verif.Git
open Cmd

/-- `filepath.Join(a, "go.mod")` on Unix. -/
def goModIn (a : Str) : Str := if a = [] then go!"go.mod" else Filepath.clean (a ++ go!"/go.mod")

/-- What a command printed (standard output and error together) and the error of running it. -/
structure Output where
  text : Str
  err : Option Str

/-- internal/command/command.go:11-17 `Run`: the text is trimmed. -/
def command (o : Output) : Str × Option Str := (Str.trimSpace o.text, o.err)

/-- internal/git/infer_repo.go:23-40 `parseRemote`. `parseUrl` is `url.Parse` with `Hostname()` and `Path` of the result. -/
def parseRemote (parseUrl : Str → Option (Str × Str)) (remote : Str) : Except Str Str :=
  let asUrl : Except Str Str :=
    match parseUrl remote with
    | some (host, path) => .ok (host ++ Str.trimSuffix path go!".git")
    | none => .error (go!"unrecognized remote URL: " ++ remote)
  if Str.hasPrefix remote go!"git@" then
    match Str.splitOn ':' remote with
    | [a, b] => .ok (Str.join go!"/" [Str.trimPrefix a go!"git@", Str.trimSuffix b go!".git"])
    | _ => asUrl
  else asUrl

/-- internal/git/infer_repo.go:13-20 `InferRepo`. -/
def inferRepo (parseUrl : Str → Option (Str × Str)) (getUrl : Output) : Except Str Str :=
  match command getUrl with
  | (_, some e) => .error e
  | (url, none) => parseRemote parseUrl url

/-- internal/git/infer_module_version.go:15-38 `InferModuleVersion`; `tags` is what `git tag -l --points-at HEAD` answers, `head` what
`git rev-parse HEAD` answers. A slice out of range is a panic. -/
def inferModuleVersion (tags head : Output) : Res Str :=
  match command tags with
  | (t, some e) => .error (go!"failed to tags for current commit: " ++ e ++ go!"\n" ++ t)
  | (t, none) =>
    if t ≠ [] then
      let lines := Str.splitOn '\n' t
      match lines.find? Semver.isValid with
      | some tag => .ok tag
      | none => .ok (lines.headD [])
    else
      match command head with
      | (c, some e) => .error (go!"failed to get current commit: " ++ e ++ go!"\n" ++ c)
      | (c, none) => if c.length < 12 then .crash else .ok (c.take 12)

/-- What the resolution of the module name asks: the content of `go.mod` (none: reading fails), what `modfile.ParseLax` gives (the
module path, if there is a module directive), and the root of the repository of an import path. -/
structure ModuleEnv where
  readGoMod : Str → Option Str
  parseGoMod : Str → Except Str (Option Str)
  repoRoot : Str → Except Str Str

/-- internal/modules/modules.go:56-76 `resolveModuleName`. -/
def resolveModuleName (E : ModuleEnv) (repo name : Str) : Except Str (Str × Bool) :=
  let suffix := match E.repoRoot name with
    | .ok root => Str.trimPrefix name root
    | .error _ => []
  match E.repoRoot repo with
  | .error e => .error (e ++ go!"\n\nMake sure your git repo has a remote (git remote add origin git@github.com:owner/repo)")
  | .ok root =>
    let name := root ++ suffix
    .ok (name, name == go!"std")

/-- internal/modules/modules.go:15-50 `ModuleName`.  The named results are the three variables; the closure `resolve` (lines 16-38)
returns the error, the first three components are what it leaves in them.  Line 40 overwrites `err`. -/
def moduleName (E : ModuleEnv) (dir repo inName : Str) : Res (Str × Bool) :=
  let resolved : Res (Str × Bool × Option Str × Option Str) :=
    if inName ≠ [] then .ok (inName, false, none, none)
    else
      match E.readGoMod (goModIn dir) with
      | none =>
        match resolveModuleName E repo repo with
        | .ok (name, std) => .ok (name, std, none, none)
        | .error e => .ok ([], false, some e, none)
      | some data =>
        match E.parseGoMod data with
        | .error e => .ok (repo, false, none, some (go!"failed to parse go.mod: " ++ e))
        | .ok none => .crash
        | .ok (some path) => .ok (path, false, none, none)
  match resolved with
  | .crash => .crash
  | .error e => .error e
  | .ok (name, std, _, returned) =>
    match returned with
    | some e => .error e
    | none => .ok (name, if name = go!"std" then true else std)

/-- What `os.Stat` says about a path. -/
inductive Stat where
  | found
  | missing
  | error
  deriving DecidableEq

/-- cmd/scip-go/paths.go:49-56 `rel`. -/
def rel (wd path : Str) : Str :=
  match Filepath.rel wd path with
  | none => go!"."
  | some r => r

/-- cmd/scip-go/paths.go:28-47 `searchForGoMod`, with a bound on the number of iterations (none: bound reached). -/
def searchLoop (stat : Str → Stat) (wd repositoryRoot : Str) : Nat → Str → Option Str
  | 0, _ => none
  | fuel + 1, path =>
    if Str.hasPrefix path repositoryRoot then some go!"."
    else
      match stat (goModIn path) with
      | .found => some (rel wd path)
      | .error => some go!"."
      | .missing =>
        if Filepath.dir path = path then some go!"."
        else searchLoop stat wd repositoryRoot fuel (Filepath.dir path)

/-- cmd/scip-go/main.go:276-278 `defaultModuleRoot`: the search starts in the working directory. -/
def searchForGoMod (stat : Str → Stat) (fuel : Nat) (wd repositoryRoot : Str) : Option Str := searchLoop stat wd repositoryRoot fuel wd

end Verif.Git
