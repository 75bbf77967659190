import Verif.Spec.Places
/-!
# Specification: Go's rules about names, and what an index says about one symbol
-/
namespace Verif.Spec
open Verif.Index

/-- `d` is a declaration at top level of one of the files. -/
def TopLevel (files : List Node) (d : Node) : Prop := ∃ name decls, .file name decls ∈ files ∧ d ∈ decls

/-- The type declaration `type n typ` stands at top level of one of the files. -/
def DeclaresType (files : List Node) (n : Ident) (typ : Node) : Prop :=
  ∃ tok specs doc tps d, TopLevel files (.genDecl tok specs doc) ∧ .typeSpec n tps typ d ∈ specs

/-- A variable or constant `n` is declared at top level of one of the files. -/
def DeclaresValue (files : List Node) (n : Ident) : Prop :=
  ∃ tok specs doc pos names typ vs d c, TopLevel files (.genDecl tok specs doc) ∧ (tok = .var ∨ tok = .const) ∧
    .valueSpec pos names typ vs d c ∈ specs ∧ n ∈ names

/-- A variable or constant `n` is declared at top level of one of the files, and no spec before it in its declaration has a declared type in
parentheses (nor has a spec inside of such a spec).  After such a type the name is recorded under another path: C22. -/
def DeclaresPlainValue (files : List Node) (n : Ident) : Prop :=
  ∃ tok pre pos names typ vs d c post doc, TopLevel files (.genDecl tok (pre ++ .valueSpec pos names typ vs d c :: post) doc) ∧
    (tok = .var ∨ tok = .const) ∧ n ∈ names ∧ ∀ s ∈ pre, HandledTypes s

/-- A function `n` is declared. -/
def DeclaresFunc (files : List Node) (n : Ident) : Prop := ∃ typ body a b d, TopLevel files (.funcDecl [] n typ body a b d)

/-- A method `n` of the type `base` is declared. -/
def DeclaresMethod (files : List Node) (base : Str) (n : Ident) : Prop :=
  ∃ pos names recv fd fc rest typ body a b d, TopLevel files (.funcDecl (.field pos names recv fd fc :: rest) n typ body a b d) ∧ RecvExprBase recv base

/-- Names that a package introduces at package level. -/
def PackageName (files : List Node) (n : Ident) : Prop := (∃ typ, DeclaresType files n typ) ∨ DeclaresValue files n ∨ DeclaresFunc files n

/-- The names that the body of a type introduces (`isI`: of an interface; there, the names in embedded literals count). -/
inductive MemberName (isI : Bool) : Node → Ident → Prop
  | named {t pos names typ d c i} : HasField t (.field pos names typ d c) → i ∈ names → MemberName isI t i
  | embedded {t pos typ d c i} : isI = false → HasField t (.field pos [] typ d c) → EmbeddedName typ i → MemberName isI t i
  | embeddedLit {t pos typ d c i} : isI = true → HasField t (.field pos [] typ d c) → MemberName isI typ i → MemberName isI t i

/-- The anonymous struct and interface types in the types of the named members of a body. -/
inductive MemberType (isI : Bool) : Node → Node → Prop
  | named {t pos names typ d c lit} : HasField t (.field pos names typ d c) → names ≠ [] → Reaches typ lit → MemberType isI t lit
  | embeddedLit {t pos typ d c lit} : isI = true → HasField t (.field pos [] typ d c) → MemberType isI typ lit → MemberType isI t lit

/-- The members of a struct or interface type, and those of the anonymous types in it, have different names (`_` aside). -/
inductive DistinctMembers (isI : Bool) : Node → Prop
  | mk {t} : (∀ i j, MemberName isI t i → MemberName isI t j → i.name = j.name → i.name ≠ go!"_" → i = j) →
      (∀ lit, MemberType isI t lit → DistinctMembers isI lit) → DistinctMembers isI t

/-- No two anonymous types side by side in the body are identical types.  Go allows this; the fields of such types share their symbols. -/
inductive NoTwins (key : Node → Str) (isI : Bool) : Node → Prop
  | mk {t} : (∀ a b, MemberType isI t a → MemberType isI t b → key a = key b → a = b) →
      (∀ lit, MemberType isI t lit → NoTwins key isI lit) → NoTwins key isI t

/-- The rules of the language about the names of a package: a name is declared once, apart from `_` and from `init` functions; so is a method of a type;
and members of a type have different names. -/
structure GoNames (files : List Node) : Prop where
  package : ∀ i j, PackageName files i → PackageName files j → i.name = j.name → i.name ≠ go!"_" → i.name ≠ go!"init" → i = j
  methods : ∀ base i j, DeclaresMethod files base i → DeclaresMethod files base j → i.name = j.name → base ≠ go!"_" → i.name ≠ go!"_" → i = j
  members : ∀ n typ, DeclaresType files n typ → n.name ≠ go!"_" → DistinctMembers (isIfaceBody typ) typ
  /-- only functions are called `init` -/
  init : ∀ n, (∃ typ, DeclaresType files n typ) ∨ DeclaresValue files n → n.name ≠ go!"init"

/-- The entities with a name of their own: types, variables, constants, functions (not `init`), methods, and the fields and methods in the bodies of type
declarations.  (Entities called `_`, or inside of such, have none.) -/
inductive NamedEntity (env : PkgEnv) (files : List Node) : Ident → List Descriptor → Prop
  | typ {n typ} : DeclaresType files n typ → n.name ≠ go!"_" → NamedEntity env files n [⟨env.pkgPath, .nspace⟩, ⟨n.name, .typ⟩]
  | value {n} : DeclaresPlainValue files n → n.name ≠ go!"_" → NamedEntity env files n [⟨env.pkgPath, .nspace⟩, ⟨n.name, .term⟩]
  | func {n} : DeclaresFunc files n → n.name ≠ go!"_" → n.name ≠ go!"init" → NamedEntity env files n [⟨env.pkgPath, .nspace⟩, ⟨n.name, .method⟩]
  | method {base n} : DeclaresMethod files base n → base ≠ go!"_" → n.name ≠ go!"_" →
      NamedEntity env files n [⟨env.pkgPath, .nspace⟩, ⟨base, .typ⟩, ⟨n.name, .method⟩]
  | member {n typ i ds} : DeclaresType files n typ → n.name ≠ go!"_" → NoTwins env.anonKey (isIfaceBody typ) typ →
      Member env.anonKey (isIfaceBody typ) typ [⟨env.pkgPath, .nspace⟩, ⟨n.name, .typ⟩] i ds → i.name ≠ go!"_" → NamedEntity env files i ds

/-- The entity that a run is asked about: it is declared in file `f` of package `p`, under the path `ds`, and has a name of its own. -/
structure Denoted (D : Deps) (project all : GoMap Package) (p : Package) (f : SourceFile) (i : Ident) (ds : List Descriptor) : Prop where
  package : (p.path, p) ∈ project
  file : f ∈ p.files
  names : GoNames (p.files.map SourceFile.node)
  entity : NamedEntity p.env (p.files.map SourceFile.node) i ds
  read : i ∈ identsOf (fileEventsOf D all p f)

/-- The descriptions in a message. -/
def descriptionsIn : Message → List (SymInfo × List Str)
  | .document _ _ syms => syms
  | _ => []

/-- All descriptions in an index. -/
def descriptionsOf (ms : List Message) : List (SymInfo × List Str) := ms.flatMap descriptionsIn

/-- The definitions in a message. -/
def definitionsIn : Message → List Occurrence
  | .document _ occs _ => occs.filter (·.isDef)
  | _ => []

/-- All definitions in an index. -/
def definitionsOf (ms : List Message) : List Occurrence := ms.flatMap definitionsIn

end Verif.Spec
