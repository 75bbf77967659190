import Verif.Model.Lookup
import Verif.Spec.GoPackage
import Verif.Lemmas.Unicode
/-!
# Specification: objects as the type checker produces them
-/
namespace Verif.Spec

/-- A predeclared object (universe scope): a type, constant, builtin function, `nil`, or the method `Error` of
`error`. -/
def Universe (o : Obj) : Prop :=
  (∃ t, o.self.cls = .typeName t) ∨ o.self.cls = .const ∨ o.self.cls = .builtin ∨ o.self.cls = .nil ∨
  (∃ s b, o.self.cls = .func s ∧ o.origin.cls = .func (some (some (.named go!"error" b))) ∧ o.origin.name = go!"Error")

/-- Facts about every object the type checker hands out: names are identifiers, package paths are neither empty nor
`_`, package-less objects are predeclared and predeclared types are not exported. -/
structure WellFormedObj (o : Obj) : Prop where
  name_ident : '.' ∉ o.self.name
  path_ok : ∀ p, o.self.pkg = some p → p ≠ [] ∧ p ≠ go!"_"
  predeclared : o.self.pkg = none → Universe o
  universe_types : o.self.pkg = none → ∀ t, o.self.cls = .typeName t → ¬ Exported o.self.name

/-- Pointer identity is identity. -/
def CoherentObjs (os : List Obj) : Prop :=
  ∀ o₁ ∈ os, ∀ o₂ ∈ os, (entityOf o₁).id = (entityOf o₂).id → entityOf o₁ = entityOf o₂ ∧ o₁.self.pkg = o₂.self.pkg

end Verif.Spec
