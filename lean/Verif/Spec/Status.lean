import Verif.Spec.Checkout
/-!
# Specification: when a command can do its work

What has to be true of the arguments, of git's and go's answers and of the module for the program to get as far as loading packages, and with which options
it does.
-/
namespace Verif.Spec
open Verif.Main Verif.Git Verif.Commands Verif.Cmd

/-- What `git` and `go` answer in a directory makes the defaults panic: git knows no tag and gives an id of less than 12 characters, or
`go list` prints the JSON value `null`. -/
def BadAnswers (Y : System) (dir : Str) : Prop :=
  ((Y.tools dir).tags.err = none ∧ Str.trimSpace (Y.tools dir).tags.text = [] ∧ (Y.tools dir).head.err = none ∧
    (Str.trimSpace (Y.tools dir).head.text).length < 12) ∨
  ((Y.tools dir).goList.err = none ∧ Y.decode (Str.trimSpace (Y.tools dir).goList.text) = .null)

/-- The flags make the program panic: the verbosity is negative, or the go.mod file of the module root `root` has no module directive although
it is needed. -/
def BadFlags (Y : System) (g : Given) (root : Str) : Prop :=
  (g.quiet = false ∧ g.verbose < 0) ∨
  ((g.modulePath = none ∨ g.modulePath = some []) ∧ ∃ data, Y.modules.readGoMod (goModIn root) = some data ∧ Y.modules.parseGoMod data = .ok none)

/-- The name of the module in the directory `root` and whether it counts as the standard library. -/
inductive ModuleNamed (Y : System) (root remote : Str) (given : Option Str) : Str → Bool → Prop
  /-- by the flag, -/
  | given {m} : given = some m → m ≠ [] → ModuleNamed Y root remote given m (decide (m = go!"std"))
  /-- by the go.mod file, -/
  | goMod {data m} : given = none ∨ given = some [] → Y.modules.readGoMod (goModIn root) = some data → Y.modules.parseGoMod data = .ok (some m) →
      ModuleNamed Y root remote given m (decide (m = go!"std"))
  /-- without a go.mod file by the remote, -/
  | remote {m std} : given = none ∨ given = some [] → Y.modules.readGoMod (goModIn root) = none → resolveModuleName Y.modules remote remote = .ok (m, std) →
      ModuleNamed Y root remote given m (decide (m = go!"std") || std)
  /-- or not at all. -/
  | unknown {e} : given = none ∨ given = some [] → Y.modules.readGoMod (goModIn root) = none → resolveModuleName Y.modules remote remote = .error e →
      ModuleNamed Y root remote given [] false

/-- The program, given these flags, gets as far as loading packages, with the options `o`; `dir` is the directory in which git and go are asked. -/
structure Starts (Y : System) (dir : Str) (g : Given) (o : IndexOpts) : Prop where
  answers : ¬ BadAnswers Y dir
  root : Main.abs Y.getwd (g.moduleRoot.getD dir) = .ok o.moduleRoot
  verbosity : g.quiet = true ∨ 0 ≤ g.verbose
  named : ModuleNamed Y o.moduleRoot (g.repositoryRemote.getD (defaultRepositoryRemote Y.parseUrl (Y.tools dir).getUrl)) g.modulePath
    o.modulePath o.isIndexingStdlib
  version : GivenOr g.moduleVersion (fun v => defaultModuleVersion (Y.tools dir).tags (Y.tools dir).head = .ok v) o.moduleVersion
  goVersion : GivenOr g.goVersion (fun v => defaultGoVersion Y.decode (Y.tools dir).goList = .ok v) o.goStdlibVersion
  driver : o.isGoPackagesDriverSet = driverSet Y.driver
  skipImplementations : o.skipImplementations = g.skipImplementations
  skipTests : o.skipTests = g.skipTests
  patterns : o.packagePatterns = if g.packagePatterns = [] then [go!"./..."] else g.packagePatterns
  arguments : o.arguments = Y.args

end Verif.Spec
