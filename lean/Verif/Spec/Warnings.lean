import Verif.Spec.Log
import Verif.Model.Warnings
/-! # Specification: what there is to warn of -/
namespace Verif.Spec
open Verif.Index

/-- Two declarations of a package are recorded at the position of the conflict, first one under `original`, then one under another symbol. -/
def SharedPlace (env : PkgEnv) (files : List Node) (c : Conflict) : Prop :=
  ∃ i ds i' ds', PackageDeclares env files i ds c.pos ∧ PackageDeclares env files i' ds' c.pos ∧
    c.original = env.fromDescriptors ds ∧ c.symbol = env.fromDescriptors ds' ∧ c.original ≠ c.symbol

/-- A package of which there are no types at all, neither of its syntax nor of its export data (the package `builtin` is exempt: it is made up by the
loader). -/
def untyped (p : Package) : Bool := decide (p.name ≠ go!"builtin") && p.defs.isNone && p.scope.isNone

/-- The position of the path of an import that the type checker could not resolve to a package. -/
def unresolvedImport (p : Package) : Mention → Option Nat
  | .met (.imp uid _ pos) => if ((p.pkgNameOf uid).bind p.imports).isNone then some pos else none
  | _ => none

/-- The positions of the import paths of a file that the type checker could not resolve to a package, in the order of the source. -/
def unresolvedImports (D : Deps) (all : GoMap Package) (p : Package) (f : SourceFile) : List Nat :=
  (fileMentionsOf D all p f).filterMap (unresolvedImport p)

end Verif.Spec
