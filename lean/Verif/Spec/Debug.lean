import Verif.Spec.Loader
import Verif.Model.Debug
/-! # Specification: what `-V -V` tells about the identity of packages -/
namespace Verif.Spec
open Verif.Loader Verif.Loader.Spec Verif.Debug

/-- A package of an ordinary module `m`: no packages driver is used, and it does not count as standard library. -/
def OfModule (opts : Loader.Opts) (p : PkgSt) (m : ModInfo) : Prop := opts.driverSet = false ∧ ¬ Standard opts p ∧ p.module = some m

/-- What there is to tell of a package as the go command delivered it.  `fails` tells which go.mod files cannot be parsed. -/
inductive Told (env : Loader.Env) (fails : Str → Bool) (opts : Loader.Opts) (p : PkgSt) : Note → Prop
  /-- the go.mod file of a local module cannot be read: its path stays a directory -/
  | unreadable {m} : OfModule opts p m → IsLocal (effective m) → env.readMod (effective m).goMod = .unreadable →
      Told env fails opts p (.goModUnreadable (effective m).goMod)
  /-- or not be parsed: loading fails -/
  | unparsable {m} : OfModule opts p m → IsLocal (effective m) → env.readMod (effective m).goMod = .broken → fails (effective m).goMod = true →
      Told env fails opts p (.goModUnparsable (effective m).goMod)
  /-- or it names the module -/
  | path {m q v} : OfModule opts p m → IsLocal (effective m) → env.readMod (effective m).goMod = .parsed q v →
      Told env fails opts p (.pathReplaced (effective m).path q)
  /-- and its version -/
  | version {m q v} : OfModule opts p m → IsLocal (effective m) → env.readMod (effective m).goMod = .parsed q v → v ≠ [] →
      Told env fails opts p (.versionReplaced (standsFor opts m).version v)
  /-- the module comes without a version and does not belong to the repository of the project -/
  | unknown {m q} : OfModule opts p m → ComesWithPath env (effective m) q → ComesWithVersion env (standsFor opts m) [] →
      ¬ BelongsToProject env opts (effective m).dir (orDot q) → Told env fails opts p (.versionUnknown (orDot q) opts.modulePath)
  /-- the version of the standard library is not known, and it is not the standard library that is indexed -/
  | library : opts.driverSet = false → Standard opts p → opts.goVersion = [] →
      ¬ BelongsToProject env opts [] go!"github.com/golang/go/src" → Told env fails opts p (.versionUnknown go!"github.com/golang/go/src" opts.modulePath)

/-- The version that is expected for a module that is reported with version `w`: this version (a pseudo-version as its revision, without build metadata); without
one, the version of the project if the module is a replacement or belongs to the repository of the project. -/
def ExpectedVersion (env : Loader.Env) (opts : Loader.Opts) (m : ModInfo) (v : Str) : Prop :=
  ((effective m).version ≠ [] ∧ ReportedAs (effective m).version v) ∨
  ((effective m).version = [] ∧ m.replace.isSome ∧ ReportedAs (projectVersion opts) v) ∨
  ((effective m).version = [] ∧ m.replace = none ∧ BelongsToProject env opts (effective m).dir (orDot (effective m).path) ∧ v = projectVersion opts)

end Verif.Spec
