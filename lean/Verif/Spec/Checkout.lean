import Verif.Model.Main
import Verif.Spec.Program
import Verif.Props.Git
/-!
# Specification: a module checked out in a git repository

What `git` and the go command say in the directory of a module, and how packages are then identified.  Nothing here refers to flags, defaults,
options or loading.
-/
namespace Verif.Spec
open Verif.Main Verif.Git Verif.Commands Verif.Loader Verif.Loader.Spec Verif.Program

/-- The version of a commit with these tags: the first tag that is a semantic version, else the first tag, else a beginning of the commit id. -/
inductive CommitVersion (tags : List Str) (id : Str) : Str → Prop
  | versionTag {before t later b} : tags = before ++ t :: later → Semver.Spec.Version t b → (∀ x ∈ before, ∀ b, ¬ Semver.Spec.Version x b) →
      CommitVersion tags id t
  | firstTag {t later} : tags = t :: later → (∀ x ∈ tags, ∀ b, ¬ Semver.Spec.Version x b) → CommitVersion tags id t
  | commitId : tags = [] → CommitVersion tags id (id.take 12)

/-- What the program finds if it is started in a directory of a git repository, with these tags at the current commit. -/
structure InRepository (Y : System) (dir tags : List Str) (id : Str) : Prop where
  wd : Y.getwd = .ok (pathOf dir)
  names : ∀ x ∈ dir, x ≠ [] ∧ x ≠ go!"." ∧ x ≠ go!".." ∧ '/' ∉ x
  top : ∃ top, Y.showToplevel = ⟨top ++ go!"\n", none⟩ ∧ Line top ∧ top <+: pathOf dir
  tagNames : ∀ t ∈ tags, TagName t
  tagList : (Y.tools go!".").tags = ⟨tagOutput tags, none⟩
  commit : TagName id ∧ 12 ≤ id.length
  head : (Y.tools go!".").head = ⟨id ++ go!"\n", none⟩

/-- What the go command says in the working directory about the Go version of the module there. -/
def GoListSays (Y : System) (goVersion : Str) : Prop :=
  (Y.tools go!".").goList.err = none ∧ Y.decode (Str.trimSpace (Y.tools go!".").goList.text) = .module goVersion

/-- A directory has a go.mod file for this module. -/
def DeclaresModule (Y : System) (dir : List Str) (module : Str) : Prop :=
  ∃ data, Y.modules.readGoMod (pathOf (dir ++ [go!"go.mod"])) = some data ∧ Y.modules.parseGoMod data = .ok (some module)

/-- The value of a flag: the given one, else one with the property `P`. -/
def GivenOr (given : Option Str) (P : Str → Prop) (x : Str) : Prop :=
  match given with
  | some y => x = y
  | none => P x

/-- The directory that a path denotes for a program started in `wd`. -/
def denoted (wd : List Str) (path : Str) : List Str := if path.head? = some '/' then directory path else (Str.splitOn '/' path).foldl enter wd

/-- The module that is indexed: root directory, module path, module version and Go version, given by flags, else found in the working directory and, for
the module path, in the go.mod file of the root. -/
structure Indexed (Y : System) (dir tags : List Str) (id : Str) (g : Given) (root : List Str) (module version goVersion : Str) : Prop where
  atRoot : root = match g.moduleRoot with
    | some path => denoted dir path
    | none => dir
  named : GivenOr g.modulePath (DeclaresModule Y root) module
  versioned : GivenOr g.moduleVersion (CommitVersion tags id) version
  goVersioned : GivenOr g.goVersion (fun x => ∃ v, GoListSays Y v ∧ x = go!"go" ++ v) goVersion

/-- No packages driver is configured. -/
def NoDriver (Y : System) : Prop := Y.driver = none ∨ Y.driver = some go!"off"

/-- The package belongs to the standard library. -/
def StandardPackage (p : PkgSt) : Prop := p.module = none ∨ ∃ m, p.module = some m ∧ m.path = go!"std"

/-- How a package is identified in an index of the module `module` of version `version` in the directory `root`: -/
structure IdentifiedAs (root : List Str) (module version goVersion : Str) (p : PkgSt) (path v : Str) : Prop where
  /-- packages of the standard library by the Go version, -/
  standard : StandardPackage p → path = go!"github.com/golang/go/src" ∧ ReportedAs goVersion v ∧ (go!"go" <+: goVersion → v = goVersion)
  /-- packages of the module itself by its version, -/
  ofModule : ∀ m, p.module = some m → m.replace = none → m.path = module → m.version = [] → path = module ∧ v = version
  /-- packages of a dependency by the dependency's version (a pseudo-version as the commit it names), -/
  ofDependency : ∀ m, p.module = some m → m.replace = none → m.path ≠ go!"std" → m.path ≠ [] → ¬ go!"." <+: m.path → m.version ≠ [] →
    path = m.path ∧ ReportedAs m.version v
  /-- also if the dependency is replaced by another module, -/
  replaced : ∀ m r, p.module = some m → m.replace = some r → m.path ≠ go!"std" → r.path ≠ [] → ¬ go!"." <+: r.path → r.version ≠ [] →
    path = r.path ∧ ReportedAs r.version v
  /-- and packages of another module of the same workspace, which is nested with this one, by this one's version. -/
  nested : ∀ m, p.module = some m → m.replace = none → m.path ≠ go!"std" → m.path ≠ [] → ¬ go!"." <+: m.path → m.version = [] → Absolute m.dir →
    (AtOrAbove (directory m.dir) root ∨ AtOrAbove root (directory m.dir)) → path = m.path ∧ v = version

/-- The symbol names a package of the program, identified as above, and perhaps something in it. -/
def SymbolOf (d : Delivered) (root : List Str) (module version goVersion sym : Str) : Prop :=
  ∃ q path v ds, sym = formatSymbol ⟨path, v⟩ (⟨q, .nspace⟩ :: ds) ∧
    (q = go!"builtin" ∧ path = go!"github.com/golang/go/src/builtin" ∧ v = goVersion ∨
     ∃ i, Reachable d.graph i ∧ (d.info i).path = q ∧ IdentifiedAs root module version goVersion (d.info i) path v)

/-- All symbols in a message are of this kind, or local. -/
def EverySymbol (P : Str → Prop) : Index.Message → Prop
  | .metadata _ => True
  | .document _ occs syms => (∀ x ∈ occs, (∃ k, x.symbol = localName k) ∨ P x.symbol) ∧
      ∀ s ∈ syms, ((∃ k, s.1.symbol = localName k) ∨ P s.1.symbol) ∧ ∀ x ∈ s.2, P x
  | .external sym rels => P sym ∧ ∀ x ∈ rels, P x

end Verif.Spec
