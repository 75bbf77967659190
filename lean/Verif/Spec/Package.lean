import Verif.Spec.Declarations
import Verif.Model.Ast
/-!
# Specification: what a package declares, and what it means to have collected it
-/
namespace Verif.Spec

/-- The name of the scope that a variable or constant spec opens: the declared name if it declares one, else
`inline-<line>-<column>` of the spec. -/
def specScopeName (position : Nat → Position) (pos : Nat) (names : List Ident) : Str :=
  if h : names.length = 1 then (names[0]'(by omega)).name
  else go!"inline-" ++ Str.natDigits (position pos).line ++ go!"-" ++ Str.natDigits (position pos).col

/-- What a list of declarations of a file declares at package level: identifier, descriptor path, and the
position at which this is recorded. -/
inductive DeclsDeclare (env : PkgEnv) (decls : List Node) : Ident → List Descriptor → Nat → Prop
  | typ {i p} : FileTypeDeclares env.anonKey env.pkgPath decls i p → DeclsDeclare env decls i p i.pos
  | func {d i p} : d ∈ decls → FuncDeclares env.pkgPath d i p → DeclsDeclare env decls i p i.pos
  | var {tok specs doc i p q} : .genDecl tok specs doc ∈ decls → tok = .var ∨ tok = .const →
      VarDeclares env.anonKey (specScopeName env.position) [⟨env.pkgPath, .nspace⟩] (.genDecl tok specs doc) i p q →
      DeclsDeclare env decls i p q

/-- What a package (its list of files) declares. -/
def PackageDeclares (env : PkgEnv) (files : List Node) (i : Ident) (p : List Descriptor) (q : Nat) : Prop :=
  ∃ name decls, .file name decls ∈ files ∧ DeclsDeclare env decls i p q

/-- Declarations as the Go parser and type checker deliver them: a general declaration is an import, type, variable
or constant declaration; a receiver names a type; the signature of a function is a type expression. -/
def DeclOk : Node → Prop
  | .genDecl tok specs doc => tok ≠ .other ∧ (tok = .var ∨ tok = .const → Parsed (.genDecl tok specs doc))
  | .funcDecl recv _ typ _ _ _ _ => (∃ r, RecvPath recv r) ∧ TypeExprNode typ
  | _ => True

def FilesOk (files : List Node) : Prop := ∀ name decls, .file name decls ∈ files → ∀ d ∈ decls, DeclOk d

/-- Table `t'` is table `t` with exactly the entries described by `D` added. -/
structure Collected (env : PkgEnv) (t t' : Table) (D : Ident → List Descriptor → Nat → Prop) : Prop where
  /-- every new entry is for a declared identifier and carries its symbol, name, kind and signature -/
  sound : ∀ q info, t'.get q = some info → t.get q = some info ∨
    ∃ i p, D i p q ∧ info.symbol = env.fromDescriptors p ∧ info.displayName = i.name ∧
      info.kind = kindForObject ((env.defs i.uid).map (·.self)) ∧
      info.signature = (env.defs i.uid).bind fun o => if env.signature o = [] then none else some (env.signature o)
  /-- every declared identifier has an entry -/
  complete : ∀ i p q, D i p q → ∃ info, t'.get q = some info
  /-- with the right symbol, if the position does not declare two different things -/
  exact : ∀ i p q, D i p q → (∀ i' p', D i' p' q → p' = p) →
    t'.getSymbol q = some (env.fromDescriptors p)
  /-- all other positions are untouched -/
  frame : ∀ q, (∀ i p, ¬ D i p q) → t'.get q = t.get q

end Verif.Spec
