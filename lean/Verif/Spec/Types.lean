import Verif.Spec.WholeRun
import Verif.Spec.SymbolGrammar
/-!
# Specification: the types of a project and its dependencies, and which of them are related

Said about the source and what the type checker knows; no symbol table occurs.
-/
namespace Verif.Spec
open Verif.Index

/-- The symbol of a type declared at package level. -/
def typeSymbol (p : Package) (name : Str) : Str :=
  formatSymbol ⟨p.env.module.path, p.env.module.version⟩ [⟨p.path, .nspace⟩, ⟨name, .typ⟩]

/-- A defined type at package level of a project package. -/
structure ProjectType (project : GoMap Package) (p : Package) (d : Impl.TypeDef) (t : Impl.NamedT) : Prop where
  package : (p.path, p) ∈ project
  notBuiltin : p.name ≠ go!"builtin"
  declared : ∃ ds, p.defs = some ds ∧ some d ∈ ds
  level : d.pkgLevel = true
  named : d.named = some t

/-- An exported defined type of a package outside of the project that is known from export data. -/
structure DependencyType (project all : GoMap Package) (p : Package) (d : Impl.TypeDef) (t : Impl.NamedT) : Prop where
  package : (p.path, p) ∈ all
  outside : ∀ q, (p.path, q) ∉ project
  notBuiltin : p.name ≠ go!"builtin"
  exportData : p.defs = none
  scope : ∃ ds, p.scope = some ds ∧ some d ∈ ds
  exported : Exported d.obj.name
  named : d.named = some t

/-- A type of the project (`true`) or of a dependency (`false`). -/
def KnownType (project all : GoMap Package) : Bool → Package → Impl.TypeDef → Impl.NamedT → Prop
  | true => ProjectType project
  | false => DependencyType project all

/-- The first type is concrete and implements the second, an interface with methods; one of them belongs to the project.  (An interface
with unexported methods counts for types of its own package only, see C32.) -/
structure TypesRelate (E : Impl.Ext) (project all : GoMap Package) (b b' : Bool) (p : Package) (d : Impl.TypeDef) (t : Impl.NamedT)
    (p' : Package) (d' : Impl.TypeDef) (i : Impl.NamedT) : Prop where
  sides : b = true ∨ b' = true
  type : KnownType project all b p d t
  concrete : t.isIface = false
  interface : KnownType project all b' p' d' i
  isInterface : i.isIface = true
  nonEmpty : i.methods ≠ []
  implements : ImplementsSome E t i
  visible : AllExported i ∨ p.path = p'.path

open Classical in
/-- The project package in which the entity of an object is declared: the first of the variants of its package that declares something
at its position. -/
noncomputable def declaringPackage (project : GoMap Package) (r : Obj) : Option Str :=
  match r.self.pkg with
  | none => none
  | some path => (variants path).find? fun c => decide (∃ p sym, (c, p) ∈ project ∧ DeclaredAs p r.self.pos sym)

/-- `x` is the symbol of an interface that the type declared at position `q` of package `p` implements. -/
def RelatedType (D : Deps) (project all : GoMap Package) (p : Package) (q : Nat) (x : Str) : Prop :=
  ∃ b' d t p' d' i, TypesRelate D.ext project all true b' p d t p' d' i ∧ d.obj.pos = q ∧ x = typeSymbol p' d'.obj.name

/-- `x` is the symbol of a method of an interface, which the method declared at position `q` of package `p` implements for some type
that has it. -/
def RelatedMethod (D : Deps) (project all : GoMap Package) (p : Package) (q : Nat) (x : Str) : Prop :=
  ∃ b b' p₁ d t p' d' i, TypesRelate D.ext project all b b' p₁ d t p' d' i ∧ ∃ n ∈ t.methods, ∃ m ∈ i.methods, n.id = m.id ∧
    (∃ y, NamedBy D project all n.obj y) ∧ declaringPackage project n.obj = some p.path ∧ n.obj.self.pos = q ∧
    NamedBy D project all m.obj x

/-- `rels` are the relationships of what is declared at position `q` of package `p`. -/
def RelationshipsAt (D : Deps) (o : Opts) (project all : GoMap Package) (p : Package) (q : Nat) (rels : List Str) : Prop :=
  rels.Pairwise (fun a b => Str.lt a b = true) ∧
  ∀ x, x ∈ rels ↔ o.skipImplementations = false ∧ (RelatedType D project all p q x ∨ RelatedMethod D project all p q x)

/-- What the type checker guarantees about the types at package level of the project and its dependencies. -/
structure NamedTypes (D : Deps) (project all : GoMap Package) : Prop where
  /-- modules can be told apart in symbols (C01) -/
  fields : ∀ p, (p.path, p) ∈ all → p.name ≠ go!"builtin" → fieldOk p.env.module.path ∧ fieldOk p.env.module.version
  /-- project packages have been type-checked from source -/
  checked : ∀ p, (p.path, p) ∈ project → p.name ≠ go!"builtin" → p.defs.isSome ∧ p.scope.isSome
  /-- a type at package level is declared at an identifier of a file, and nothing else is -/
  declared : ∀ p d t, ProjectType project p d t → ∃ f ∈ p.files, ∃ i ∈ identsOf (fileEventsOf D all p f),
    i.pos = d.obj.pos ∧ i.name = d.obj.name ∧ OnlyDeclares p i [⟨p.path, .nspace⟩, ⟨i.name, .typ⟩]
  /-- a package has at most one type of a name -/
  once : ∀ p d t d' t', ProjectType project p d t → ProjectType project p d' t' → d.obj.name = d'.obj.name → d = d'
  scope_once : ∀ p d t d' t', DependencyType project all p d t → DependencyType project all p d' t' → d.obj.name = d'.obj.name → d = d'
  scope_types : ∀ p d t, DependencyType project all p d t → ∃ ty, d.obj.cls = .typeName ty
  /-- methods are methods of generic types or instantiations of such -/
  origins : ∀ b p d t, KnownType project all b p d t → ∀ m ∈ t.methods, ∃ c, (entityOf m.obj).cls = .func c
  /-- a method has at most one symbol -/
  named_once : ∀ b p d t, KnownType project all b p d t → ∀ m ∈ t.methods, ∀ x y,
    NamedBy D project all m.obj x → NamedBy D project all m.obj y → x = y
  /-- no method is declared where a type is -/
  methods : ∀ p d t, ProjectType project p d t → ∀ b p' d' t', KnownType project all b p' d' t' →
    ∀ m ∈ t'.methods, m.obj.self.pos ≠ d.obj.pos

end Verif.Spec
