import Verif.Spec.Naming
import Verif.Spec.EntityDecl
/-!
# Specification: one package in two indexes

One run indexes the package from source; another run indexes code that uses it and knows the package from type information (export data) only.
-/
namespace Verif.Spec
open Verif.Index

/-- In the run that loads `all` and indexes `project`, package `p` is a dependency: it is loaded as part of the same module version, but neither it nor a
test variant of it is indexed. -/
structure DependencyIn (project all : GoMap Package) (p : Package) : Prop where
  loaded : ∃ q, (p.env.pkgPath, q) ∈ all ∧ q.env.module = p.env.module
  notIndexed : ∀ q, (q.path, q) ∈ project → q.path ∉ variants p.env.pkgPath
  safe : p.env.pkgPath ≠ go!"unsafe"

/-- In file `e` the identifier `u` is used for the object `r` of package `path`.  It is neither blank, nor the variable of a type switch, nor one of the
local declarations of the file. -/
structure UsesEntity (D : Deps) (all : GoMap Package) (e : Package × SourceFile) (u : Ident) (r : Obj) (path : Str) : Prop where
  uses : e.1.env.uses u.uid = some r
  pkg : r.self.pkg = some path
  name : u.name ≠ go!"_"
  noSwitch : ¬ SwitchIdent e.1 u
  notLocal : ∀ l ∈ localIdents D all e.1 e.2, l.pos ≠ r.self.pos

/-- The definition of the package symbol at the clause of a file. -/
def clauseDefinition (p : Package) (f : SourceFile) : Occurrence :=
  let q := p.env.position f.name.pos
  ⟨[q.line - 1, q.col - 1, q.col - 1 + f.name.name.length], packageSymbol p, true, none, false⟩

/-- The event names package `path`, in the characters `range`: a package qualifier, or the path of an import spec, between its quotes. -/
inductive NamesPackage (D : Deps) (p : Package) : Event → Str → List Int → Prop
  | qualifier (i o) {path} : NamesPackage D p (.qualifier i o path) path (identSpan (sourceEnv D p) i)
  | imported (uid name pathPos) {path} : (p.pkgNameOf uid).bind p.imports = some path →
      NamesPackage D p (.imp uid name pathPos) path
        [(p.env.position pathPos).line - 1, (p.env.position pathPos).col, (p.env.position pathPos).col + path.length]

/-- The symbol leads to exactly one definition in the index `ms`, which is over the identifier `i` of package `p`, and to exactly one description, which has
its name. -/
def LeadsTo (D : Deps) (p : Package) (i : Ident) (ms : List Message) (sym : Str) : Prop :=
  (∃ d, (definitionsOf ms).filter (fun y => y.symbol = sym) = [d] ∧ d.range = identSpan (sourceEnv D p) i) ∧
  ∃ s, (descriptionsOf ms).filter (fun s => s.1.symbol = sym) = [s] ∧ s.1.displayName = i.name

end Verif.Spec
