import Verif.Model.Semver
import Verif.Model.Filepath
import Verif.Model.GoMap
/-!
# internal/loader/loader.go

`packages.Load`, the file system and the version control lookup are parameters.  Packages are numbered; two numbers may have the
same import path (test variants).
-/
namespace Verif.Loader

/-- The fields of `packages.Module` that the loader uses (dependency golang.org/x/tools/go/packages), without the replacement. -/
structure ModBase where
  path : Str
  version : Str
  dir : Str
  goMod : Str
  deriving DecidableEq, Repr

/-- `packages.Module`.  Simplified: a replacement module has no further replacement (the go command never reports one). -/
structure ModInfo extends ModBase where
  replace : Option ModBase
  deriving DecidableEq, Repr

/-- The mutable part of a `packages.Package`: `PkgPath` and `Module`. Simplified: `Module` objects are not shared between packages
(they are decoded separately for every package). -/
structure PkgSt where
  path : Str
  module : Option ModInfo
  deriving DecidableEq, Repr

/-- The part of `config.IndexOpts` that the loader uses (internal/config/config.go:3-27). -/
structure Opts where
  moduleRoot : Str
  moduleVersion : Str
  modulePath : Str
  driverSet : Bool
  goVersion : Str
  stdlib : Bool
  deriving DecidableEq, Repr

/-- What reading and parsing a go.mod file gives (loader.go:203-211). -/
inductive ModRead where
  /-- `os.ReadFile` fails -/
  | unreadable
  /-- `modfile.ParseLax` fails, or there is no module directive; in both cases `parsed.Module` cannot be dereferenced -/
  | broken
  | parsed (path version : Str)
  deriving DecidableEq, Repr

structure Env where
  readMod : Str → ModRead
  /-- `vcs.RepoRootForImportPath(path, false)`, none for an error -/
  repoRoot : Str → Option Str

/-- isStandardLib (loader.go:130-132). -/
def isStandardLib (p : PkgSt) : Bool :=
  match p.module with
  | none => true
  | some m => m.path == go!"std"

/-- hasSameRepoRoot (loader.go:270-280). -/
def hasSameRepoRoot (env : Env) (a b : Str) : Bool :=
  if a = b then true
  else match env.repoRoot a, env.repoRoot b with
    | some x, some y => x == y
    | _, _ => false

/-- loader.go:163-185: standard library packages, and the fallback for a missing module. -/
def standardStep (opts : Opts) (p : PkgSt) : Str × ModInfo :=
  if isStandardLib p || opts.stdlib then
    (Str.trimPrefix p.path go!"std/", ⟨⟨go!"github.com/golang/go/src", opts.goVersion, [], []⟩, none⟩)
  else
    (p.path, p.module.getD ⟨⟨go!".", go!".", [], []⟩, none⟩)

/-- loader.go:187-196: follow replaced modules. -/
def replaceStep (opts : Opts) (m : ModInfo) : ModBase :=
  match m.replace with
  | none => m.toModBase
  | some r => if r.version = [] then { r with version := opts.moduleVersion } else r

/-- loader.go:198-224: modules replaced by a local directory; none is a nil dereference (loader.go:213). -/
def localStep (env : Env) (m : ModBase) : Option ModBase :=
  if Str.hasPrefix m.path go!"." && m.goMod ≠ [] then
    match env.readMod m.goMod with
    | .unreadable => some m
    | .broken => none
    | .parsed path version => some { m with path := path, version := if version ≠ [] then version else m.version }
  else some m

/-- loader.go:226-228. -/
def pathStep (m : ModBase) : ModBase := if m.path = [] then { m with path := go!"." } else m

/-- loader.go:243-263: pseudo-versions and build metadata. -/
def reduceVersion (v : Str) : Str :=
  if Semver.isPseudoVersion v then (match Semver.pseudoVersionRev v with | none => v | some rev => rev)
  else if Semver.build v ≠ [] then Str.trimSuffix v (Semver.build v)
  else v

/-- loader.go:230-263. -/
def versionStep (env : Env) (opts : Opts) (m : ModBase) : ModBase :=
  if m.version = [] then
    if Filepath.isNestedDir m.dir opts.moduleRoot || hasSameRepoRoot env m.path opts.modulePath then
      { m with version := opts.moduleVersion }
    else { m with version := go!"." }
  else { m with version := reduceVersion m.version }

/-- loader.go:141-161: with a packages driver. -/
def driverStep (opts : Opts) : ModInfo :=
  ⟨⟨if opts.modulePath ≠ [] then opts.modulePath else go!".",
    if opts.moduleVersion ≠ [] then opts.moduleVersion else go!".", [], []⟩, none⟩

/-- normalizePackage (loader.go:134-266); none is a panic. -/
def normalize (env : Env) (opts : Opts) (p : PkgSt) : Option PkgSt :=
  if opts.driverSet then some { p with module := some (driverStep opts) }
  else
    let s := standardStep opts p
    match localStep env (replaceStep opts s.2) with
    | none => none
    | some m => some ⟨s.1, some ⟨versionStep env opts (pathStep m), none⟩⟩

/-- What `packages.Load` delivers: number of source files (`len(pkg.Syntax)`) and imports of every package, and the packages
matched by the patterns. -/
structure Graph where
  files : Nat → Nat
  imports : Nat → List Nat
  roots : List Nat

/-- A value of a `PackageLookup`: the builtin package literal (loader.go:91-98) or a loaded package. -/
inductive Kept where
  | builtin
  | loaded (i : Nat)
  deriving DecidableEq, Repr

def Kept.files (g : Graph) : Kept → Nat
  | .builtin => 0
  | .loaded i => g.files i

structure St where
  pkgs : Nat → PkgSt
  all : GoMap Kept
  /-- Not in the code: the packages in the order in which `addImportsToPkgs` is called on them. -/
  met : List Nat

/-- loader.go:69-71: is there already a package of this path with at least as many files? -/
def alreadyKept (g : Graph) (st : St) (i : Nat) : Bool :=
  match st.all.get (st.pkgs i).path with
  | none => false
  | some k => decide (g.files i ≤ k.files g)

/-- addImportsToPkgs (loader.go:48-79) on a list of packages.  The recursion is replaced by a work list (in the code the recursive
calls are the last thing done, so packages are met in the same order).  `order n i` is the order in which the map of imports of `i`
is iterated when `n` packages have been met.  Outer none: more steps are needed; inner none: panic. -/
def collect (env : Env) (opts : Opts) (g : Graph) (order : Nat → Nat → List Nat) : Nat → St → List Nat → Option (Option St)
  | _, st, [] => some (some st)
  | 0, _, _ :: _ => none
  | fuel + 1, st, i :: rest =>
    let st := { st with met := st.met ++ [i] }
    if alreadyKept g st i then collect env opts g order fuel st rest
    else match normalize env opts (st.pkgs i) with
      | none => some none
      | some p =>
        collect env opts g order fuel
          { st with pkgs := fun j => if j = i then p else st.pkgs j, all := st.all.set p.path (.loaded i) }
          (order st.met.length i ++ rest)

/-- The loop over the loaded packages (loader.go:120-123). -/
def collectRoots (env : Env) (opts : Opts) (g : Graph) (order : Nat → Nat → List Nat) (fuel : Nat) :
    St → GoMap (Option Kept) → List Nat → Option (Option (St × GoMap (Option Kept)))
  | st, project, [] => some (some (st, project))
  | st, project, i :: rest =>
    match collect env opts g order fuel st [i] with
    | none => none
    | some none => some none
    | some (some st) =>
      collectRoots env opts g order fuel st (project.set (st.pkgs i).path (st.all.get (st.pkgs i).path)) rest

structure Loaded where
  st : St
  project : GoMap (Option Kept)

/-- LoadPackages (loader.go:81-128).  `loaded` is the result of `packages.Load` (none: error).  Outer none: more steps are
needed; inner none: an error is returned (of `packages.Load` or a recovered panic). -/
def loadPackages (env : Env) (opts : Opts) (loaded : Option (Graph × (Nat → PkgSt))) (order : Nat → Nat → List Nat) (fuel : Nat) :
    Option (Option Loaded) :=
  let opts := if opts.moduleVersion = [] then { opts with moduleVersion := go!"." } else opts
  match loaded with
  | none => some none
  | some (g, pkgs) =>
    match collectRoots env opts g order fuel ⟨pkgs, [(go!"builtin", .builtin)], []⟩ [] g.roots with
    | none => none
    | some none => some none
    | some (some (st, project)) => some (some ⟨st, project⟩)

/-- The module of a kept package; the builtin package has a fixed one (loader.go:94-97). -/
def moduleOf (opts : Opts) (st : St) : Kept → Option ModInfo
  | .builtin => some ⟨⟨go!"github.com/golang/go/src/builtin", opts.goVersion, [], []⟩, none⟩
  | .loaded i => (st.pkgs i).module

end Verif.Loader
