import Verif.Spec.Content
/-!
# Specification: a file that is not edited while other files are

A project before and after an edit.  Both versions are given with one numbering of positions and of syntax nodes: what has been edited is at
positions and nodes of its own, what has not been edited keeps them (C94: the numbers that the parser happens to choose do not matter).
-/
namespace Verif.Spec
open Verif.Index

/-- The documentation of what is declared in the project at the position of the object says that it is deprecated. -/
def DeprecatedIn (project : GoMap Package) (r : Obj) : Prop :=
  ∃ path p s, r.self.pkg = some path ∧ (p.path, p) ∈ project ∧ p.path ∈ variants path ∧ EntityInfo p r.self.pos s ∧ SaysDeprecated s.documentation

/-- An identifier of file `f` stands for `r` before and for `r'` after the edit, and that makes no difference: it is the same thing if it is
declared in this file; otherwise its declaration can have moved, but it has the same symbol and is deprecated or not as before. -/
structure SameTarget (D D' : Deps) (project all project' all' : GoMap Package) (f : SourceFile) (r r' : Obj) : Prop where
  here : D.fileOf r.self.pos = some f.file ∨ D.fileOf r'.self.pos = some f.file → r'.self.pos = r.self.pos
  /-- the name of an imported package is declared in the file -/
  pkgName : ∀ q, r.self.cls = .pkgName q ∨ r'.self.cls = .pkgName q → r' = r
  named : ∀ sym, NamedBy D' project' all' r' sym ↔ NamedBy D project all r sym
  deprecated : DeprecatedIn project' r' ↔ DeprecatedIn project r

/-- The file uses the package name of, or imports, the package `path`. -/
inductive FileImports (D : Deps) (all : GoMap Package) (p : Package) (f : SourceFile) (path : Str) : Prop
  | qualifier (i r) : i ∈ identifiersList f.decls → p.env.uses i.uid = some r → r.self.cls = .pkgName path → FileImports D all p f path
  | imported (uid name pos) : Event.imp uid name pos ∈ fileEventsOf D all p f → (p.pkgNameOf uid).bind p.imports = some path →
      FileImports D all p f path

/-- The file `f` belongs to package `p` before and to `p'` after the edit and is not edited itself: the type checker says the same about what
it declares, and what it refers to has the same symbols. -/
structure NotEdited (D D' : Deps) (project all project' all' : GoMap Package) (p p' : Package) (f : SourceFile) : Prop where
  mem : f ∈ p.files
  mem' : f ∈ p'.files
  path : p'.path = p.path
  module : p'.env.module = p.env.module
  name : p'.name = p.name
  /-- the first file of a package carries the description of the package -/
  first : p'.files.head? = some f ↔ p.files.head? = some f
  comments : p.files.head? = some f → findPackageDocs p' = findPackageDocs p
  /-- one numbering -/
  fileOf : D'.fileOf = D.fileOf
  position : p'.env.position = p.env.position
  anonKey : p'.env.anonKey = p.env.anonKey
  /-- declarations -/
  defs : ∀ i ∈ identifiersList f.decls, p'.env.defs i.uid = p.env.defs i.uid
  signature : ∀ i ∈ identifiersList f.decls, ∀ d, p.env.defs i.uid = some d → p'.env.signature d = p.env.signature d
  objectString : ∀ i ∈ identifiersList f.decls, ∀ d, p.env.defs i.uid = some d → D'.objectString d = D.objectString d
  implicits : ∀ x, D.fileOf x.self.pos = some f.file → (x ∈ p'.implicits ↔ x ∈ p.implicits)
  imports : ∀ uid name pos, Event.imp uid name pos ∈ fileEventsOf D all p f →
    (p'.pkgNameOf uid).bind p'.imports = (p.pkgNameOf uid).bind p.imports
  /-- references -/
  uses : ∀ i ∈ identifiersList f.decls, (p.env.uses i.uid = none ∧ p'.env.uses i.uid = none) ∨
    ∃ r r', p.env.uses i.uid = some r ∧ p'.env.uses i.uid = some r' ∧ SameTarget D D' project all project' all' f r r'
  loaded : ∀ path, FileImports D all p f path →
    (∀ q, (path, q) ∈ all → ∃ q', (path, q') ∈ all' ∧ packageSymbol q' = packageSymbol q) ∧
    ((∃ q', (path, q') ∈ all') → ∃ q, (path, q) ∈ all)

/-- The identifiers and declarations of a file are at positions of this file. -/
structure OwnPositions (D : Deps) (p : Package) : Prop where
  identifiers : ∀ f ∈ p.files, ∀ i ∈ identifiersList f.decls, D.fileOf i.pos = some f.file
  declared : ∀ f ∈ p.files, ∀ i ds q, DeclsDeclare p.env f.decls i ds q → D.fileOf q = some f.file

end Verif.Spec
