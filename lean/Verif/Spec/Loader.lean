import Verif.Model.Loader
import Verif.Spec.Semver
import Verif.Spec.Directory
/-! # Specification for package loading -/
namespace Verif.Loader.Spec

/-- Packages reachable from the packages matched by the patterns through imports. -/
inductive Reachable (g : Graph) : Nat → Prop
  | root {i} : i ∈ g.roots → Reachable g i
  | imported {i j} : Reachable g i → j ∈ g.imports i → Reachable g j

/-- Only finitely many packages are involved; the import graph may have cycles. -/
def FiniteGraph (g : Graph) : Prop := ∃ l : List Nat, ∀ i, Reachable g i → i ∈ l

/-- A possible behaviour of iterating over the maps of imports. -/
def ValidOrder (g : Graph) (order : Nat → Nat → List Nat) : Prop := ∀ n i, (order n i).Perm (g.imports i)

/-- The module identity a package was delivered with: the replacement if there is one. -/
def effective (m : ModInfo) : ModBase := m.replace.getD m.toModBase

/-- No import path starts with `std/`. -/
def NoStdPrefix (pkgs : Nat → PkgSt) : Prop := ∀ i, ¬ (go!"std/" <+: (pkgs i).path)

/-- When are import paths unambiguous: with a packages driver they are not changed; otherwise `std/` prefixes occur only while
indexing the standard library, and only once. -/
def PathsOnce (opts : Opts) (pkgs : Nat → PkgSt) : Prop :=
  opts.driverSet = true ∨ NoStdPrefix pkgs ∨ (opts.stdlib = true ∧ ∀ i, ¬ (go!"std/std/" <+: (pkgs i).path))

/-- The module version used for unversioned packages: `.` if none is configured (loader.go:85-88). -/
def projectVersion (opts : Opts) : Str := if opts.moduleVersion = [] then go!"." else opts.moduleVersion

/-- For every path, some package matched by the patterns has at least as many files as any reachable package of this path. -/
def RootsLargest (g : Graph) (pkgs : Nat → PkgSt) : Prop :=
  ∀ i j, i ∈ g.roots → Reachable g j → (pkgs j).path = (pkgs i).path →
    ∃ i' ∈ g.roots, (pkgs i').path = (pkgs i).path ∧ g.files j ≤ g.files i'

end Verif.Loader.Spec

namespace Verif.Loader.Spec

/-- The module is a local directory with a go.mod file. -/
def IsLocal (e : ModBase) : Prop := go!"." <+: e.path ∧ e.goMod ≠ []

/-- The version a module comes with: that of its go.mod file if it is local and the file names one, else the delivered one. -/
inductive ComesWithVersion (env : Env) (e : ModBase) : Str → Prop
  | delivered : (IsLocal e → env.readMod e.goMod = .unreadable ∨ ∃ p, env.readMod e.goMod = .parsed p []) →
      ComesWithVersion env e e.version
  | goMod {p v} : IsLocal e → env.readMod e.goMod = .parsed p v → v ≠ [] → ComesWithVersion env e v

/-- The path a module comes with. -/
inductive ComesWithPath (env : Env) (e : ModBase) : Str → Prop
  | delivered : (IsLocal e → env.readMod e.goMod = .unreadable) → ComesWithPath env e e.path
  | goMod {p v} : IsLocal e → env.readMod e.goMod = .parsed p v → ComesWithPath env e p

/-- A package of an ordinary (not standard library) module, loaded by the go command. -/
structure Userland (opts : Opts) (p : PkgSt) (m : ModInfo) : Prop where
  noDriver : opts.driverSet = false
  noStd : opts.stdlib = false
  module : p.module = some m
  notStd : m.path ≠ go!"std"

/-- A module with directory `dir` and path `path` belongs to the repository of the project: its directory is nested with the module root,
or it has the same path or the same repository root as the project's module. -/
def BelongsToProject (env : Env) (opts : Opts) (dir path : Str) : Prop :=
  (Verif.Spec.Absolute dir ∧ Verif.Spec.Absolute opts.moduleRoot ∧
    (Verif.Spec.AtOrAbove (Verif.Spec.directory dir) (Verif.Spec.directory opts.moduleRoot) ∨
      Verif.Spec.AtOrAbove (Verif.Spec.directory opts.moduleRoot) (Verif.Spec.directory dir))) ∨
  path = opts.modulePath ∨ ∃ r, env.repoRoot path = some r ∧ env.repoRoot opts.modulePath = some r

end Verif.Loader.Spec

namespace Verif.Loader.Spec
open Verif.Semver.Spec

/-- How a version is reported: a pseudo-version as its revision, any other version without its build metadata. -/
inductive ReportedAs : Str → Str → Prop
  | pseudo {v rev} : PseudoVersion v rev → ReportedAs v rev
  | build {x b} : Version (x ++ b) b → b ≠ [] → (∀ rev, ¬ PseudoVersion (x ++ b) rev) → ReportedAs (x ++ b) x
  | plain {v} : (∀ b, Version v b → b = []) → (∀ rev, ¬ PseudoVersion v rev) → ReportedAs v v

/-- The version under which a module is indexed that comes with version `v` (empty: none), lies in directory `dir` and has the path `path`. -/
inductive IndexedVersion (env : Env) (opts : Opts) (dir path : Str) : Str → Str → Prop
  | versioned {v r} : v ≠ [] → ReportedAs v r → IndexedVersion env opts dir path v r
  | ofProject : BelongsToProject env opts dir path → IndexedVersion env opts dir path [] (projectVersion opts)
  | foreign : ¬ BelongsToProject env opts dir path → IndexedVersion env opts dir path [] go!"."

/-- The package belongs to the standard library, or is treated so. -/
def Standard (opts : Opts) (p : PkgSt) : Prop :=
  p.module = none ∨ (∃ m, p.module = some m ∧ m.path = go!"std") ∨ opts.stdlib = true

/-- The module that stands for module `m`: its replacement, which gets the project's version if it has none. -/
def standsFor (opts : Opts) (m : ModInfo) : ModBase :=
  match m.replace with
  | none => m.toModBase
  | some r => if r.version = [] then { r with version := projectVersion opts } else r

/-- `.` stands for an empty path. -/
def orDot (s : Str) : Str := if s = [] then go!"." else s

/-- The module path and version that identify a delivered package in symbols. -/
inductive Identity (env : Env) (opts : Opts) (p : PkgSt) : Str → Str → Prop
  | driver : opts.driverSet = true → Identity env opts p (orDot opts.modulePath) (projectVersion opts)
  | standard {v} : opts.driverSet = false → Standard opts p → IndexedVersion env opts [] go!"github.com/golang/go/src" opts.goVersion v →
      Identity env opts p go!"github.com/golang/go/src" v
  | module {m path w v} : opts.driverSet = false → ¬ Standard opts p → p.module = some m →
      ComesWithPath env (standsFor opts m) path → ComesWithVersion env (standsFor opts m) w →
      IndexedVersion env opts (standsFor opts m).dir (orDot path) w v → Identity env opts p (orDot path) v

/-- Directories of modules are absolute, or not known. -/
def DirOk (opts : Opts) (p : PkgSt) : Prop := ∀ m, p.module = some m → (standsFor opts m).dir = [] ∨ Verif.Spec.Absolute (standsFor opts m).dir

end Verif.Loader.Spec
