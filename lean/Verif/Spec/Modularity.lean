import Verif.Spec.Content
import Verif.Spec.TypedDecl
/-!
# Specification: a package indexed with more or with fewer other packages

The packages given on the command line are type-checked from source, all others are known from export data only.  So if more packages are
indexed, what a package declares is told in the same way, but the objects that it uses from other packages can be others.
-/
namespace Verif.Spec
open Verif.Index

/-- Two deliveries of one package: the same source, and the type checker knows the same about what is declared in it. -/
structure SameSource (D D' : Deps) (p p' : Package) : Prop where
  path : p'.path = p.path
  module : p'.env.module = p.env.module
  name : p'.name = p.name
  files : p'.files = p.files
  implicits : p'.implicits = p.implicits
  pkgNameOf : p'.pkgNameOf = p.pkgNameOf
  imports : p'.imports = p.imports
  defs : p'.env.defs = p.env.defs
  anonKey : p'.env.anonKey = p.env.anonKey
  position : p'.env.position = p.env.position
  signature : ∀ u d, p.env.defs u = some d → p'.env.signature d = p.env.signature d
  objectString : ∀ u d, p.env.defs u = some d → D'.objectString d = D.objectString d
  fileOf : ∀ f ∈ p.files, ∀ q, D'.fileOf q = some f.file ↔ D.fileOf q = some f.file

/-- `r` and `r'` are objects of one entity: they belong to the same package, where they are known under the same path of descriptors.  A
package name is an object of the file in which it is imported. -/
structure SameEntity (D D' : Deps) (r r' : Obj) : Prop where
  pkg : r'.self.pkg = r.self.pkg
  nil : r'.self.cls = .nil ↔ r.self.cls = .nil
  label : r'.self.cls = .label ↔ r.self.cls = .label
  pkgName : ∀ q, r.self.cls = .pkgName q ∨ r'.self.cls = .pkgName q → r' = r
  known : ∀ path ds, r.self.pkg = some path →
    (DependencyPath D'.scopes path (entityOf r') ds ↔ DependencyPath D.scopes path (entityOf r) ds)

/-- The package refers to the package `path`. -/
inductive RefersTo (p : Package) (path : Str) : Prop
  | used (u r) : p.env.uses u = some r → r.self.pkg = some path → RefersTo p path
  | qualifier (u r) : p.env.uses u = some r → r.self.cls = .pkgName path → RefersTo p path
  | imported (u) : (p.pkgNameOf u).bind p.imports = some path → RefersTo p path

/-- Everything of `(project, all)` is in `(project', all')` too. -/
structure Extended (D D' : Deps) (project all project' all' : GoMap Package) : Prop where
  packages : ∀ p, (p.path, p) ∈ project → ∃ p', (p'.path, p') ∈ project' ∧ SameSource D D' p p'
  /-- identifiers are used for the same entities -/
  uses : ∀ p p', (p.path, p) ∈ project → (p'.path, p') ∈ project' → SameSource D D' p p' → ∀ u,
    (p.env.uses u = none ∧ p'.env.uses u = none) ∨
    ∃ r r', p.env.uses u = some r ∧ p'.env.uses u = some r' ∧ SameEntity D D' r r' ∧
      /- what is declared in the project is at the same place -/
      (∀ q, (q.path, q) ∈ project → ∀ sym, DeclaredAs q r.self.pos sym ∨ DeclaredAs q r'.self.pos sym → r'.self.pos = r.self.pos) ∧
      (∀ f ∈ p.files, ∀ i ∈ identsOf (fileEventsOf D all p f), i.pos = r.self.pos ∨ i.pos = r'.self.pos → r'.self.pos = r.self.pos)
  /-- the packages that are referred to are loaded in both cases or in neither, and belong to the same module -/
  loaded : ∀ p, (p.path, p) ∈ project → ∀ path, RefersTo p path →
    (∀ q, (path, q) ∈ all → ∃ q', (path, q') ∈ all' ∧ q'.env.module = q.env.module ∧ q'.path = q.path) ∧
    (∀ q', (path, q') ∈ all' → ∃ q, (path, q) ∈ all)

/-- The object `r'` belongs to an entity of a package that is in `project'` only: `sym` is its symbol there, and `dep` tells whether it is
deprecated. -/
def NewlyIndexed (project project' : GoMap Package) (r' : Obj) (sym : Str) (dep : Bool) : Prop :=
  ∃ path p' s, r'.self.pkg = some path ∧ (p'.path, p') ∈ project' ∧ p'.path ∈ variants path ∧ (∀ p, (p'.path, p) ∉ project) ∧
    EntityInfo p' r'.self.pos s ∧ sym = s.symbol ∧ (dep = true ↔ SaysDeprecated s.documentation)

/-- In package `p` (`p'` with more packages) an identifier at `range` is used for an entity of a package that is in `project'` only: with
fewer packages its symbol is `sym?` (none: it has none), with more it is `sym`. -/
def NewReference (D D' : Deps) (project all project' all' : GoMap Package) (p p' : Package) (range : List Int) (sym? : Option Str) (sym : Str)
    (dep : Bool) : Prop :=
  ∃ i r r', p.env.uses i.uid = some r ∧ p'.env.uses i.uid = some r' ∧ range = identSpan (sourceEnv D p) i ∧
    (∀ s, sym? = some s ↔ NamedBy D project all r s) ∧ NamedBy D' project' all' r' sym ∧ NewlyIndexed project project' r' sym dep

/-- The entities of packages that are in `project'` only and that `p'` uses are declared as the type checker sees them: the declaration
is in the package itself (not in a test variant), and neither written in terms of an alias nor a method of an interface (see
`TypedDecl`). -/
def PlainlyDeclared (D' : Deps) (project project' : GoMap Package) (p' : Package) : Prop :=
  ∀ u r' path q' sym, p'.env.uses u = some r' → r'.self.pkg = some path → (q'.path, q') ∈ project' → q'.path ∈ variants path →
    (∀ q, (q'.path, q) ∉ project) → DeclaredAs q' r'.self.pos sym →
    q'.path = path ∧ ∃ f ∈ q'.files, ∃ i, i.pos = r'.self.pos ∧ TypedDecl D'.scopes q'.path f.decls i (entityOf r')

/-- `os'` is `os` except for references to what is newly indexed (`New`): their symbol can be another one, they can be marked as deprecated,
and there can be more of them. -/
inductive SameBesides (New : List Int → Option Str → Str → Bool → Prop) : List Occurrence → List Occurrence → Prop
  | nil : SameBesides New [] []
  | same (a) {os os'} : SameBesides New os os' → SameBesides New (a :: os) (a :: os')
  | other {range sym sym' dep os os'} : New range (some sym) sym' dep → SameBesides New os os' →
      SameBesides New (⟨range, sym, false, none, false⟩ :: os) (⟨range, sym', false, none, dep⟩ :: os')
  | more {range sym' dep os os'} : New range none sym' dep → SameBesides New os os' →
      SameBesides New os (⟨range, sym', false, none, dep⟩ :: os')

end Verif.Spec
