import Verif.Spec.Types
import Verif.Model.Debug
/-! # Specification: what `-V -V` tells about types and methods without symbol -/
namespace Verif.Spec
open Verif.Index Verif.Debug

/-- Nothing names the object, although it belongs to a package (other than `unsafe`). -/
def Nameless (D : Deps) (project all : GoMap Package) (r : Obj) : Prop :=
  (∃ path, r.self.pkg = some path ∧ path ≠ go!"unsafe") ∧ ∀ x, ¬ NamedBy D project all r x

/-- What the search for implementations leaves out: the types of packages that do not belong to the project but are known from their source, and the methods of
the other types that nothing names. -/
inductive LeftOut (D : Deps) (project all : GoMap Package) : Note → Prop
  | type {p ds d t} : (p.path, p) ∈ all → (∀ q, (p.path, q) ∉ project) → p.name ≠ go!"builtin" → p.defs = some ds → some d ∈ ds →
      (p.scope.isSome → d.pkgLevel = true) → d.named = some t → LeftOut D project all (.noSymbol d.obj.name p.path)
  | method {b p d t m} : KnownType project all b p d t → m ∈ t.methods → Nameless D project all m.obj →
      LeftOut D project all (.methodUnknown m.obj.self.name)

end Verif.Spec
