import Verif.Spec.Status
import Verif.Spec.Warnings
import Verif.Spec.Program
import Verif.Spec.Places
import Verif.Model.Stderr
/-! # Specification: what a user reads on standard error -/
namespace Verif.Spec
open Verif.Index Verif.Program Verif.Main Verif.Git Verif.Cmd Verif.Stderr

/-- The files of the project as the parser delivers them. -/
structure ParsedProgram (d : Delivered) : Prop where
  /-- no place of a package is used twice, -/
  places : ∀ i, InProject d i → (placesList ((d.package i).files.map SourceFile.node)).Nodup
  /-- or by two packages of different paths -/
  apart : ∀ i j, InProject d i → InProject d j → (d.info i).path ≠ (d.info j).path →
    ∀ a ∈ placesList ((d.package i).files.map SourceFile.node), a ∉ placesList ((d.package j).files.map SourceFile.node)
  specs : ∀ i, InProject d i → ∀ f ∈ (d.package i).files, ValueSpecs f.decls

/-- The record tells what the program works with, and nothing of a problem. -/
def isSetting : Rec → Bool
  | .warn _ => false
  | .profileNotWritten _ => false
  | .profileNotClosed _ => false
  | _ => true

/-- What the user wants to read: nothing with `--quiet`, the problems without `-V`, everything with it. -/
def visible (g : Given) (rs : List Rec) : List Rec :=
  if g.quiet then []
  else if g.verbose = 0 then rs.filter (fun r => !isSetting r)
  else rs

open Classical in
/-- There is neither a module path among the flags nor a go.mod file in the module root. -/
noncomputable def moduleNotes (Y : System) (g : Given) (o : IndexOpts) : List Rec :=
  if (g.modulePath = none ∨ g.modulePath = some []) ∧ Y.modules.readGoMod (goModIn o.moduleRoot) = none then [.warn .noGoMod] else []

/-- What the program works with. -/
def settings (Y : System) (o : IndexOpts) : List Rec :=
  [.goVersion o.goStdlibVersion, .moduleName o.modulePath] ++ (if o.isIndexingStdlib then [.stdlib] else []) ++
    (if o.skipImplementations then [.skipImplementations] else []) ++ (if o.skipTests then [.skipTests] else []) ++
    (if o.isGoPackagesDriverSet then [.driver (Y.driver.getD [])] else [])

/-- What went wrong with the memory profile, if one was wanted. -/
def profileNotes (P : ProfileEnd) (profile : Int) : List Rec :=
  if 0 < profile then P.write.toList.map .profileNotWritten ++ P.close.toList.map .profileNotClosed else []

/-- The imports of these files that could not be resolved. -/
def importNotes (D : Deps) (all : GoMap Package) (files : List (Package × SourceFile)) : List Rec :=
  files.flatMap fun e => (unresolvedImports D all e.1 e.2).map fun pos => .warn (.importUnresolved pos)

/-- These packages have no types. -/
def typesNotes (ps : List Package) : List Rec := ps.map fun p => .warn (.noTypes p.path)

end Verif.Spec
