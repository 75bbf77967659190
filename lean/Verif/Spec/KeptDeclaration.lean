import Verif.Spec.Renaming
import Verif.Spec.Naming
/-!
# Specification: a declaration that is kept while its package is edited

Between two versions of a package one declaration stays as it is, apart from its place: it may be moved within its file or to another
file, and anything may be written, removed or changed around it.
-/
namespace Verif.Spec
open Verif.Index

/-- Declaration `d` of package `p` stands, at other places and addresses, in package `p'` too; the package has the same path and belongs
to the same version of the same module, and the anonymous types in the declaration have kept their meaning. -/
structure KeptDeclaration (ρ : Renaming) (p p' : Package) (d : Node) : Prop where
  before : ∃ f ∈ p.files, d ∈ f.decls
  after : ∃ f ∈ p'.files, renNode ρ d ∈ f.decls
  path : p'.env.pkgPath = p.env.pkgPath
  module : p'.env.module = p.env.module
  literals : ∀ n, Below d n → p'.env.anonKey (renNode ρ n) = p.env.anonKey n

/-- Declaration `d` by itself declares `i` under the path `ds` and records it at position `q`. -/
def DeclaredBy (env : PkgEnv) (d : Node) (i : Ident) (ds : List Descriptor) (q : Nat) : Prop := DeclsDeclare env [d] i ds q

/-- The descriptor names a place in a file: it is the scope of a variable or constant spec that does not declare exactly one name. -/
def NamesPlace (x : Descriptor) : Prop := x.suffix = .metadesc ∧ ∃ rest, x.name = go!"inline-" ++ rest

/-- The declaration `d` by itself declares an entity with a name of its own (C100). -/
def NamedBy1 (env : PkgEnv) (d : Node) (i : Ident) (ds : List Descriptor) : Prop := NamedEntity env [.file ⟨0, [], 0⟩ [d]] i ds

end Verif.Spec
