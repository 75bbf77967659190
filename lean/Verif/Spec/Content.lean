import Verif.Spec.Types
import Mathlib.Data.List.Forall2
/-!
# Specification: the complete content of an index

Said about the source files, the declarations of their packages and what the type checker knows: which messages there are, which
occurrences and which descriptions each document has, in which order, and what is in each of them.  No symbol table occurs.
-/
namespace Verif.Spec
open Verif.Index

/-! ## Descriptions -/

/-- `s` is a description of what package `p` declares at position `q`: an entity, or the package itself at the clause of its first
file. -/
inductive EntityInfo (p : Package) (q : Nat) (s : SymInfo) : Prop
  | entity (i : Ident) (ds : List Descriptor) : PackageDeclares p.env (p.files.map SourceFile.node) i ds q →
      s.symbol = p.env.fromDescriptors ds → s.displayName = i.name → s.kind = kindForObject ((p.env.defs i.uid).map (·.self)) →
      s.signature = ((p.env.defs i.uid).bind fun d => if p.env.signature d = [] then none else some (p.env.signature d)) →
      (∀ f ∈ p.files, ∀ docs, DocumentedAs f.decls i docs → s.documentation = docs) → EntityInfo p q s
  | clause (f : SourceFile) : p.files.head? = some f → f.name.pos = q →
      s = ⟨packageSymbol p, .package, p.name, findPackageDocs p, some (go!"package " ++ p.name)⟩ → EntityInfo p q s

/-- `s` is a description of the `k`-th local declaration of a file, made by identifier `i`. -/
structure LocalInfo (D : Deps) (p : Package) (i : Ident) (k : Nat) (s : SymInfo) : Prop where
  symbol : s.symbol = localName k
  documentation : s.documentation = []
  /-- the variable of a type switch: its type differs from case to case -/
  switch : SwitchIdent p i → s.signature = none ∧
    ∃ x ∈ p.implicits, x.self.pos = i.pos ∧ s.displayName = x.self.name ∧ s.kind = kindForObject (some x.self)
  declared : ¬ SwitchIdent p i → ∃ d, p.env.defs i.uid = some d ∧ s.displayName = d.self.name ∧ s.kind = kindForObject (some d.self) ∧
    s.signature = (match d.self.cls with
      | .pkgName imported => some (go!"import " ++ d.self.name ++ go!" " ++ imported)
      | _ => if D.objectString d = [] then none else some (D.objectString d))

/-- The descriptions of a document with their relationships, in any order: exactly one for each position of the file at which the
package declares something, with the relationships of what is declared there, and exactly one for each local declaration of the file. -/
def DocumentDescriptions (D : Deps) (o : Opts) (project all : GoMap Package) (e : Package × SourceFile)
    (syms : List (SymInfo × List Str)) : Prop :=
  ∃ (qs : List Nat) (entities locals : List (SymInfo × List Str)), syms.Perm (entities ++ locals) ∧
    qs.Nodup ∧ (∀ q, q ∈ qs ↔ D.fileOf q = some e.2.file ∧ ∃ sym, DeclaredAs e.1 q sym) ∧
    List.Forall₂ (fun q s => EntityInfo e.1 q s.1 ∧ RelationshipsAt D o project all e.1 q s.2) qs entities ∧
    locals.length = (localIdents D all e.1 e.2).length ∧
    ∀ k i s, (localIdents D all e.1 e.2)[k]? = some i → locals[k]? = some s → LocalInfo D e.1 i k s.1 ∧ s.2 = []

/-! ## Occurrences -/

/-- `os` are the definitions of identifier `i` in a document with the descriptions `syms`; `decl` is the extent of the declaration if `i`
is the name of a function declared in the file. -/
structure IdentDefs (D : Deps) (all : GoMap Package) (e : Package × SourceFile) (syms : List (SymInfo × List Str)) (i : Ident)
    (decl : Option (Nat × Nat)) (os : List Occurrence) : Prop where
  nothing : ¬ DeclaringIdent e.1 i → os = []
  /-- the variable of a type switch -/
  switch : i.name ≠ go!"_" → SwitchIdent e.1 i → ∃ k, (localIdents D all e.1 e.2)[k]? = some i ∧
    os = [⟨identSpan (sourceEnv D e.1) i, localName k, true, none, false⟩]
  /-- what is declared inside of the file only -/
  toLocal : LocalIdent e.1 i → ¬ SwitchIdent e.1 i → ∃ k, (localIdents D all e.1 e.2)[k]? = some i ∧
    os = [⟨identSpan (sourceEnv D e.1) i, localName k, true,
      decl.map fun x => span (e.1.env.position x.1) (e.1.env.position x.2), false⟩]
  /-- anything else has the symbol under which it is described, and is deprecated if its documentation says so -/
  toEntity : DeclaringIdent e.1 i → ¬ LocalIdent e.1 i → ∃ s ∈ syms, EntityInfo e.1 i.pos s.1 ∧ ∃ dep,
    (dep = true ↔ SaysDeprecated s.1.documentation) ∧
    os = [⟨identSpan (sourceEnv D e.1) i, s.1.symbol, true,
      decl.map fun x => span (e.1.env.position x.1) (e.1.env.position x.2), dep⟩]

/-- The references `os` to the object `r` are marked as deprecated if the documentation of what is declared at its position in the project
says so. -/
def RefsDeprecated (project : GoMap Package) (r : Obj) (os : List Occurrence) : Prop :=
  ∀ x ∈ os, (∀ k, x.symbol ≠ localName k) →
    (∃ path p s, r.self.pkg = some path ∧ (p.path, p) ∈ project ∧ p.path ∈ variants path ∧ EntityInfo p r.self.pos s ∧ x.symbol = s.symbol ∧
      (x.deprecated = true ↔ SaysDeprecated s.documentation)) ∨
    ((∀ path s, r.self.pkg = some path → ¬ NamedInProject project path r s) ∧ x.deprecated = false)

/-- `defs` and `refs` are the definitions and references of an event of the file; `upto` are the identifiers up to and including it. -/
def EventOccurrences (D : Deps) (project all : GoMap Package) (e : Package × SourceFile) (syms : List (SymInfo × List Str))
    (upto : List Ident) (ev : Event) (defs refs : List Occurrence) : Prop :=
  EventRefs D project all e upto ev refs ∧
  match ev with
  | .ident i decl => IdentDefs D all e syms i decl defs ∧ ∀ r, e.1.env.uses i.uid = some r → RefsDeprecated project r refs
  | _ => defs = []

/-- The occurrences of a document: the definition of the package clause, and then, in the order of the source, those of the identifiers,
package qualifiers and import specs of the file; of one identifier the definition comes first. -/
def DocumentOccurrences (D : Deps) (project all : GoMap Package) (e : Package × SourceFile) (syms : List (SymInfo × List Str))
    (occs : List Occurrence) : Prop :=
  let q := e.1.env.position e.2.name.pos
  ∃ parts : List (List Occurrence × List Occurrence),
    occs = ⟨[q.line - 1, q.col - 1, q.col - 1 + e.2.name.name.length], packageSymbol e.1, true, none, false⟩ ::
      parts.flatMap (fun x => x.1 ++ x.2) ∧
    parts.length = (fileEventsOf D all e.1 e.2).length ∧
    ∀ k ev x, (fileEventsOf D all e.1 e.2)[k]? = some ev → parts[k]? = some x →
      EventOccurrences D project all e syms (identsOf ((fileEventsOf D all e.1 e.2).take (k + 1))) ev x.1 x.2

/-! ## Messages -/

/-- The document of a file. -/
structure DocumentOf (D : Deps) (o : Opts) (project all : GoMap Package) (e : Package × SourceFile) (path : Str)
    (occs : List Occurrence) (syms : List (SymInfo × List Str)) : Prop where
  path : path = (Filepath.rel o.moduleRoot e.2.fileName).getD []
  occurrences : DocumentOccurrences D project all e syms occs
  descriptions : DocumentDescriptions D o project all e syms

/-- The external symbols of an index: one for each exported type of a dependency that implements an interface of the project, with exactly
these interfaces in increasing order. -/
structure ExternalSymbols (D : Deps) (o : Opts) (project all : GoMap Package) (es : List Message) : Prop where
  real : ∀ m ∈ es, ∃ sym rels, m = .external sym rels ∧ o.skipImplementations = false ∧ rels ≠ [] ∧
    rels.Pairwise (fun a b => Str.lt a b = true) ∧ ∃ p t n, DependencyType project all p t n ∧ sym = typeSymbol p t.obj.name ∧
      ∀ x, x ∈ rels ↔ ∃ p' t' i, TypesRelate D.ext project all false true p t n p' t' i ∧ x = typeSymbol p' t'.obj.name
  complete : ∀ p t n p' t' i, o.skipImplementations = false → TypesRelate D.ext project all false true p t n p' t' i →
    ∃ rels, .external (typeSymbol p t.obj.name) rels ∈ es
  once : es.Pairwise fun m m' => ∀ sym rels rels', m = .external sym rels → m' ≠ .external sym rels'

/-- The metadata of an index. -/
def MetadataOf (D : Deps) (o : Opts) (m : Metadata) : Prop :=
  m.version = 0 ∧ m.toolName = go!"scip-go" ∧ m.toolVersion = D.toolVersion ∧ m.arguments = o.arguments ∧
    m.projectRoot = (if o.moduleRoot = [] then go!"file:" else go!"file://" ++ D.escapePath o.moduleRoot) ∧ m.textEncoding = 1

/-- A complete index of the project: metadata, the documents of all files of the packages in the order of their import paths, external
symbols. -/
def IndexOf (D : Deps) (o : Opts) (project all : GoMap Package) (ms : List Message) : Prop :=
  ∃ (md : Metadata) (ps : List Package) (ds es : List Message), ms = .metadata md :: (ds ++ es) ∧ MetadataOf D o md ∧
    ps.Perm (project.map (·.2)) ∧ ps.Pairwise (fun p q => Str.lt p.path q.path = true) ∧
    List.Forall₂ (fun e m => ∃ path occs syms, m = .document path occs syms ∧ DocumentOf D o project all e path occs syms)
      (ps.flatMap fun p => p.files.map fun f => (p, f)) ds ∧
    ExternalSymbols D o project all es

end Verif.Spec

namespace Verif.Spec
open Verif.Index

/-- Nothing in the source is ambiguous: every position declares one entity, with the comments that belong to it (see `DocumentedAs` for
what is excluded), and the variables of a type switch are called alike. -/
structure Unambiguous (project : GoMap Package) : Prop where
  once : ∀ p, (p.path, p) ∈ project → ∀ q i ds i' ds', PackageDeclares p.env (p.files.map SourceFile.node) i ds q →
    PackageDeclares p.env (p.files.map SourceFile.node) i' ds' q → i = i' ∧ ds = ds'
  documented : ∀ p, (p.path, p) ∈ project → ∀ q i ds, PackageDeclares p.env (p.files.map SourceFile.node) i ds q →
    ∃ f ∈ p.files, ∃ docs, DocumentedAs f.decls i docs
  clause : ∀ p, (p.path, p) ∈ project → ∀ f, p.files.head? = some f → ∀ i ds,
    ¬ PackageDeclares p.env (p.files.map SourceFile.node) i ds f.name.pos
  packages : ∀ p p', (p.path, p) ∈ project → (p'.path, p') ∈ project → ∀ q sym sym', DeclaredAs p q sym → DeclaredAs p' q sym' → p = p'
  switches : ∀ p, (p.path, p) ∈ project → ∀ x ∈ p.implicits, ∀ y ∈ p.implicits, x.self.pos = y.self.pos →
    x.self.name = y.self.name ∧ kindForObject (some x.self) = kindForObject (some y.self)

end Verif.Spec
