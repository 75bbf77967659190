import Verif.Spec.Index
import Verif.Spec.FileTraversal
import Verif.Spec.Implementations
import Verif.Spec.Package
/-!
# Specification: a loaded project that the parser and the type checker accepted
-/
namespace Verif.Spec
open Verif.Index

/-- The symbol of a package. -/
def packageSymbol (p : Package) : Str :=
  formatSymbol ⟨p.env.module.path, p.env.module.version⟩ [⟨p.path, .nspace⟩]

/-- What is known about a file from parser and type checker. -/
def sourceEnv (D : Deps) (p : Package) : FileEnv := ⟨p.env, D.scopes, [], p.implicits, p.pkgNameOf, p.imports⟩

/-- The identifiers of a file in source order; imported packages that are loaded (`known`) count. -/
def fileEventsIn (D : Deps) (known : Str → Bool) (p : Package) (f : SourceFile) : List Event :=
  traverseList (sourceEnv D p) known f.decls

/-- The identifiers of a file in source order; imported packages that are among `all` are known. -/
abbrev fileEventsOf (D : Deps) (all : GoMap Package) (p : Package) (f : SourceFile) : List Event :=
  fileEventsIn D (fun q => (all.get q).isSome) p f

/-- A file as parser and type checker deliver it; `objs` contains all objects of the program. -/
structure TypedSource (D : Deps) (known : Str → Bool) (objs : List Obj) (p : Package) (f : SourceFile) : Prop where
  parsed : ParsedFile (sourceEnv D p) known f.decls
  declarations : FilesOk [f.node]
  looked_up : ∀ i ∈ identsOf (fileEventsIn D known p f), ∀ r, p.env.uses i.uid = some r → r ∈ objs
  imports : ∀ a imported, (p.env.position a).col + 1 + imported.length < 2 ^ 31 ∨ ∀ q, p.imports q ≠ some imported
  import_names : ∀ uid n a, Event.imp uid (some n) a ∈ fileEventsIn D known p f → (p.env.position n.pos).col + n.name.length < 2 ^ 31
  /-- no two identifiers are at the same position -/
  apart : ((identsOf (fileEventsIn D known p f)).map (·.pos)).Nodup
  /-- the object that an identifier declares has the position of the identifier -/
  declared_at : ∀ i ∈ identsOf (fileEventsIn D known p f), ∀ d, p.env.defs i.uid = some d → d.self.pos = i.pos
  /-- a package name is used only in front of a selector -/
  no_package_value : ∀ i ∈ identsOf (fileEventsIn D known p f), ∀ r, p.env.uses i.uid = some r → ∀ q, r.self.cls ≠ .pkgName q

/-- A package of the project as parser and type checker deliver it. -/
structure TypedPackage (D : Deps) (known : Str → Bool) (objs : List Obj) (p : Package) : Prop where
  files : ∀ f ∈ p.files, TypedSource D known objs p f
  positions : ∀ a, PosOk (p.env.position a)
  /-- names of objects are identifiers -/
  unquoted : ∀ o : Obj, (∃ u, p.env.defs u = some o ∨ p.env.uses u = some o) ∨ o ∈ p.implicits → o.self.name.head? ≠ some '"'
  /-- no identifier is at the package clause of a file -/
  clauses : ∀ f ∈ p.files, ∀ f' ∈ p.files, ∀ i ∈ identsOf (fileEventsIn D known p f), i.pos ≠ f'.name.pos
  /-- package clauses fit into 32-bit columns -/
  clause_names : ∀ f ∈ p.files, (p.env.position f.name.pos).col + f.name.name.length < 2 ^ 31
  /-- the file set knows to which file the package clause and the identifiers of a file belong -/
  fileSet : ∀ f ∈ p.files, D.fileOf f.name.pos = some f.file ∧ ∀ i ∈ identsOf (fileEventsIn D known p f), D.fileOf i.pos = some f.file
  /-- the variables that a type switch declares at one place have the same name and are all variables -/
  implicits : ∀ o ∈ p.implicits, ∀ o' ∈ p.implicits, o.self.pos = o'.self.pos →
    o.self.name = o'.self.name ∧ kindForObject (some o.self) = kindForObject (some o'.self)

/-- The types of a package: the methods of each have different names and are among the objects of the program (see `Consistent`); the
types of its scope belong to it. -/
structure TypedTypes (objs : List Obj) (p : Package) : Prop where
  asked : ∀ t : Impl.TypeDef, (∃ ds, (p.defs = some ds ∨ p.scope = some ds) ∧ some t ∈ ds) →
    (∀ n, t.named = some n → (∀ m ∈ n.methods, m.obj ∈ objs ∧ ∃ s, m.obj.self.cls = .func s) ∧ (n.methods.map Impl.Method.id).Nodup)
  scope : ∀ ds, p.scope = some ds → ∀ t, some t ∈ ds → t.obj.pkg = some p.path ∧ Obj.plain t.obj ∈ objs

/-- A loaded program without errors. -/
structure TypedProject (D : Deps) (project all : GoMap Package) (objs : List Obj) : Prop where
  project_keyed : Keyed project
  all_keyed : Keyed all
  sub : ∀ k p, (k, p) ∈ project → (k, p) ∈ all
  packages : ∀ k p, (k, p) ∈ project → TypedPackage D (fun q => (all.get q).isSome) objs p
  types : ∀ k p, (k, p) ∈ all → TypedTypes objs p
  /-- no file belongs to two packages or twice to one -/
  apart : ((filesOf (project.map (·.2))).map (·.2.fileName)).Nodup
  /-- and the file set knows the files apart -/
  files_apart : ((filesOf (project.map (·.2))).map (·.2.file)).Nodup
  coherent : CoherentObjs objs
  wellFormed : ∀ o ∈ objs, WellFormedObj o

namespace TypedProject
variable {D : Deps} {project all : GoMap Package} {objs : List Obj} (ht : TypedProject D project all objs)
include ht

theorem files (k p) (h : (k, p) ∈ project) (f) (hf : f ∈ p.files) : TypedSource D (fun q => (all.get q).isSome) objs p f :=
  (ht.packages k p h).files f hf
theorem positions (k p) (h : (k, p) ∈ project) : ∀ a, PosOk (p.env.position a) := (ht.packages k p h).positions
theorem unquoted (k p) (h : (k, p) ∈ project) : ∀ o : Obj,
    (∃ u, p.env.defs u = some o ∨ p.env.uses u = some o) ∨ o ∈ p.implicits → o.self.name.head? ≠ some '"' := (ht.packages k p h).unquoted
theorem clauses (k p) (h : (k, p) ∈ project) : ∀ f ∈ p.files, ∀ f' ∈ p.files, ∀ i ∈ identsOf (fileEventsOf D all p f),
    i.pos ≠ f'.name.pos := (ht.packages k p h).clauses
theorem clause_names (k p) (h : (k, p) ∈ project) : ∀ f ∈ p.files, (p.env.position f.name.pos).col + f.name.name.length < 2 ^ 31 :=
  (ht.packages k p h).clause_names
theorem fileSet (k p) (h : (k, p) ∈ project) : ∀ f ∈ p.files, D.fileOf f.name.pos = some f.file ∧
    ∀ i ∈ identsOf (fileEventsOf D all p f), D.fileOf i.pos = some f.file := (ht.packages k p h).fileSet
theorem implicits (k p) (h : (k, p) ∈ project) : ∀ o ∈ p.implicits, ∀ o' ∈ p.implicits, o.self.pos = o'.self.pos →
    o.self.name = o'.self.name ∧ kindForObject (some o.self) = kindForObject (some o'.self) := (ht.packages k p h).implicits
theorem asked (k p) (h : (k, p) ∈ all) : ∀ t : Impl.TypeDef, (∃ ds, (p.defs = some ds ∨ p.scope = some ds) ∧ some t ∈ ds) →
    (∀ n, t.named = some n → (∀ m ∈ n.methods, m.obj ∈ objs ∧ ∃ s, m.obj.self.cls = .func s) ∧
      (n.methods.map Impl.Method.id).Nodup) := (ht.types k p h).asked
theorem scope (k p) (h : (k, p) ∈ all) : ∀ ds, p.scope = some ds → ∀ t, some t ∈ ds →
    t.obj.pkg = some p.path ∧ Obj.plain t.obj ∈ objs := (ht.types k p h).scope

end TypedProject

end Verif.Spec
