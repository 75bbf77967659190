import Verif.Spec.Project
import Verif.Spec.Comments
/-!
# Specification: what the documents of a whole run must contain

Everything is said about the source files of the project and about the messages of the run; no symbol table occurs.
-/
namespace Verif.Spec
open Verif.Index

/-- The identifier declares a variable of a type switch. -/
def SwitchIdent (p : Package) (i : Ident) : Prop := ∃ x ∈ p.implicits, x.self.pos = i.pos

/-- The identifier declares something: it is not blank, and it is the variable of a type switch or the type checker recorded an object
for it. -/
def DeclaringIdent (p : Package) (i : Ident) : Prop :=
  i.name ≠ go!"_" ∧ (SwitchIdent p i ∨ (p.env.defs i.uid).isSome)

/-- The package declares an entity at the identifier: a type or a member of its body, a function or a method, a variable or a
constant. -/
def PackageLevel (p : Package) (i : Ident) : Prop :=
  ∃ i' ds, PackageDeclares p.env (p.files.map SourceFile.node) i' ds i.pos

/-- The identifier declares something inside of its file only. -/
def LocalIdent (p : Package) (i : Ident) : Prop :=
  i.name ≠ go!"_" ∧ (SwitchIdent p i ∨ ((p.env.defs i.uid).isSome ∧ ¬ PackageLevel p i))

open Classical in
/-- The declaring identifiers of a file in source order. -/
noncomputable def declaringIdents (D : Deps) (all : GoMap Package) (p : Package) (f : SourceFile) : List Ident :=
  (identsOf (fileEventsOf D all p f)).filter fun i => decide (DeclaringIdent p i)

open Classical in
/-- The identifiers of a file that declare something inside of this file only, in source order. -/
noncomputable def localIdents (D : Deps) (all : GoMap Package) (p : Package) (f : SourceFile) : List Ident :=
  (identsOf (fileEventsOf D all p f)).filter fun i => decide (LocalIdent p i)

/-- The symbol of the `k`-th local declaration of a file, written out. -/
def localName (k : Nat) : Str := go!"local " ++ Str.natDigits k

/-! ## What references name -/

/-- The path of descriptors under which an entity of package `pkg` is named from outside (`o` is the entity itself, not an
instantiation): a type, a constant or variable, a function, a method under the base type of its receiver, a field under the first type
of the package scope that has it. -/
inductive DependencyPath (scopes : Scopes) (pkg : Str) (o : ObjData) : List Descriptor → Prop
  | typ {ty} : o.cls = .typeName ty → DependencyPath scopes pkg o [⟨pkg, .nspace⟩, ⟨o.name, .typ⟩]
  | const : o.cls = .const → DependencyPath scopes pkg o [⟨pkg, .nspace⟩, ⟨o.name, .term⟩]
  | var : o.cls = .var false → DependencyPath scopes pkg o [⟨pkg, .nspace⟩, ⟨o.name, .term⟩]
  | func : o.cls = .func (some none) → DependencyPath scopes pkg o [⟨pkg, .nspace⟩, ⟨o.name, .method⟩]
  | method {r base} : o.cls = .func (some (some r)) → RecvBase r base → base ≠ [] →
      DependencyPath scopes pkg o [⟨pkg, .nspace⟩, ⟨base, .typ⟩, ⟨o.name, .method⟩]
  | field {before owner after ids} : o.cls = .var true → scopes pkg = before ++ owner :: after →
      owner.cls = .typeName (.named (.struct ids)) → o.id ∈ ids →
      (∀ o' ∈ before, ∀ ids', o'.cls = .typeName (.named (.struct ids')) → o.id ∉ ids') →
      DependencyPath scopes pkg o [⟨pkg, .nspace⟩, ⟨owner.name, .typ⟩, ⟨o.name, .term⟩]

/-- The package declares an entity at position `q`, and `sym` is a symbol of it (the clause of the first file stands for the package). -/
def DeclaredAs (p : Package) (q : Nat) (sym : Str) : Prop :=
  (∃ i ds, PackageDeclares p.env (p.files.map SourceFile.node) i ds q ∧ sym = p.env.fromDescriptors ds) ∨
  (∃ f, p.files.head? = some f ∧ f.name.pos = q ∧ sym = packageSymbol p)

/-- The packages of the project that can declare the entities of package `path`: itself and its test variants. -/
def variants (path : Str) : List Str := [path, path ++ go!".test", path ++ go!" [" ++ path ++ go!".test]"]

/-- A project package declares the entity at the position of `r`, under the symbol `sym`. -/
def NamedInProject (project : GoMap Package) (path : Str) (r : Obj) (sym : Str) : Prop :=
  ∃ p, (p.path, p) ∈ project ∧ p.path ∈ variants path ∧ DeclaredAs p r.self.pos sym

/-- `sym` is the symbol of the entity that `r` stands for: that of its declaration in the project, or else — if its package was
loaded — the symbol made of the module and the path of descriptors.  Predeclared entities, labels, `nil` and what belongs to `unsafe`
have no symbol. -/
def NamedBy (D : Deps) (project all : GoMap Package) (r : Obj) (sym : Str) : Prop :=
  r.self.cls ≠ .nil ∧ r.self.cls ≠ .label ∧ ∃ path, r.self.pkg = some path ∧ path ≠ go!"unsafe" ∧
    (NamedInProject project path r sym ∨
      (∀ s, ¬ NamedInProject project path r s) ∧
        ∃ p ds, (path, p) ∈ all ∧ DependencyPath D.scopes path (entityOf r) ds ∧
          sym = formatSymbol ⟨p.env.module.path, p.env.module.version⟩ ds)

/-- `os` are the references of identifier `u`; `upto` are the identifiers of the file up to and including `u`. -/
structure IdentRefs (D : Deps) (project all : GoMap Package) (e : Package × SourceFile) (upto : List Ident) (u : Ident)
    (os : List Occurrence) : Prop where
  nothing : u.name = go!"_" ∨ SwitchIdent e.1 u ∨ e.1.env.uses u.uid = none → os = []
  /-- a local that has been declared -/
  toLocal : u.name ≠ go!"_" → ¬ SwitchIdent e.1 u → ∀ r, e.1.env.uses u.uid = some r →
    ∀ k l, (localIdents D all e.1 e.2)[k]? = some l → l ∈ upto → l.pos = r.self.pos →
      os = [⟨identSpan (sourceEnv D e.1) u, localName k, false, none, false⟩]
  /-- anything else that has a symbol -/
  toEntity : u.name ≠ go!"_" → ¬ SwitchIdent e.1 u → ∀ r, e.1.env.uses u.uid = some r →
    (∀ l ∈ localIdents D all e.1 e.2, l ∈ upto → l.pos ≠ r.self.pos) → (∃ sym, NamedBy D project all r sym) →
      ∃ sym dep, os = [⟨identSpan (sourceEnv D e.1) u, sym, false, none, dep⟩] ∧ NamedBy D project all r sym
  /-- what has no symbol -/
  unnamed : u.name ≠ go!"_" → ¬ SwitchIdent e.1 u → ∀ r, e.1.env.uses u.uid = some r →
    (∀ l ∈ localIdents D all e.1 e.2, l ∈ upto → l.pos ≠ r.self.pos) → (∀ sym, ¬ NamedBy D project all r sym) → os = []

/-- `os` are the references of an import spec: of the name, if there is one that is neither `.` nor `_`, and of the path, between its
quotes, if the imported package was loaded. -/
def ImportRefs (all : GoMap Package) (p : Package) (uid : Nat) (name : Option Ident) (pathPos : Nat) (os : List Occurrence) : Prop :=
  (∀ imported q, (p.pkgNameOf uid).bind p.imports = some imported → (imported, q) ∈ all →
    let a := p.env.position pathPos
    let named := (name.toList.filter fun n => decide (n.name ≠ go!"." ∧ n.name ≠ go!"_")).map fun n =>
      let b := p.env.position n.pos
      (⟨[b.line - 1, b.col - 1, b.col - 1 + n.name.length], packageSymbol q, false, none, false⟩ : Occurrence)
    os = named ++ [⟨[a.line - 1, a.col, a.col + imported.length], packageSymbol q, false, none, false⟩]) ∧
  ((∀ imported q, (p.pkgNameOf uid).bind p.imports = some imported → (imported, q) ∉ all) → os = [])

/-- `os` are the references of an event of the file. -/
def EventRefs (D : Deps) (project all : GoMap Package) (e : Package × SourceFile) (upto : List Ident) (ev : Event)
    (os : List Occurrence) : Prop :=
  match ev with
  | .ident u _ => IdentRefs D project all e upto u os
  | .qualifier i _ imported =>
    (∀ q, (imported, q) ∈ all → os = [⟨identSpan (sourceEnv D e.1) i, packageSymbol q, false, none, false⟩]) ∧
    ((∀ q, (imported, q) ∉ all) → os = [])
  | .imp uid name pathPos => ImportRefs all e.1 uid name pathPos os

/-! ## Descriptions -/

/-- Every identifier of the syntax trees of a package is an object of its own. -/
def DistinctIdents (p : Package) : Prop := ((p.files.flatMap fun f => identifiersList f.decls).map (·.uid)).Nodup

/-- The package declares one entity at the identifier, under these descriptors, and nothing else. -/
def OnlyDeclares (p : Package) (i : Ident) (ds : List Descriptor) : Prop :=
  PackageDeclares p.env (p.files.map SourceFile.node) i ds i.pos ∧
  ∀ i' ds', PackageDeclares p.env (p.files.map SourceFile.node) i' ds' i.pos → i' = i ∧ ds' = ds

/-- Some line of the documentation begins with `Deprecated:`. -/
def SaysDeprecated (docs : List Str) : Prop := ∃ d ∈ docs, HasLineStarting go!"Deprecated:" d

end Verif.Spec
