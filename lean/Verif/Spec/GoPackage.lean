import Verif.Model.Types
/-!
# Specification: histories of composition requests, and Go's uniqueness rules for package-level names
-/
namespace Verif.Spec

/-- One request to the symbol composer: the package (none = nil package, some none = nil module) and the
object (none = nil). -/
abbrev Request := Option (Option ModIdent) × Option Obj

/-- The entity an object stands for: an instantiated variable, field, function or method stands for the
generic one it was instantiated from. -/
def entityOf (o : Obj) : ObjData :=
  match o.self.cls with
  | .var _ | .func _ => o.origin
  | _ => o.self

/-- Pointer identity is identity: two requests whose entities have the same address are about
the same entity of the same package. -/
def Coherent (rs : List Request) : Prop :=
  ∀ r₁ ∈ rs, ∀ r₂ ∈ rs, ∀ o₁ o₂, r₁.2 = some o₁ → r₂.2 = some o₂ →
    (entityOf o₁).id = (entityOf o₂).id → entityOf o₁ = entityOf o₂ ∧ o₁.self.pkg = o₂.self.pkg

/-- The base type name of a method receiver, as a relation: through any aliases and pointers. -/
inductive RecvBase : RecvTy → Str → Prop
  | named (n b) : RecvBase (.named n b) n
  | alias {t n} : RecvBase t n → RecvBase (.alias t) n
  | pointer {t n} : RecvBase t n → RecvBase (.pointer t) n

/-- What the Go specification guarantees about the entities a package declares at package level. -/
structure WellFormedPackage (path : Str) (scopes : Scopes) where
  /-- the objects of the package scope -/
  scopeObjs : List ObjData
  /-- all methods whose receiver base type is declared at package level, with that type's name -/
  methods : List (Str × ObjData)
  scope_eq : scopeObjs = scopes path
  /-- the package scope has types, constants, variables and functions only -/
  scope_kinds : ∀ o ∈ scopeObjs, o.cls = .const ∨ o.cls = .var false ∨ o.cls = .func (some none) ∨
    ∃ t, o.cls = .typeName t
  /-- names are unique in a scope -/
  scope_unique : ∀ o₁ ∈ scopeObjs, ∀ o₂ ∈ scopeObjs, o₁.name = o₂.name → o₁ = o₂
  method_recv : ∀ m ∈ methods, ∃ r, m.2.cls = .func (some (some r)) ∧ RecvBase r m.1
  method_recv_named : ∀ m ∈ methods, m.1 ≠ []
  /-- method names are unique per receiver base type -/
  method_unique : ∀ m₁ ∈ methods, ∀ m₂ ∈ methods, m₁.1 = m₂.1 → m₁.2.name = m₂.2.name → m₁ = m₂
  /-- all fields of all struct types of the package -/
  fields : List ObjData
  fields_cls : ∀ f ∈ fields, f.cls = .var true
  /-- field names other than `_` are unique within a struct type -/
  field_unique : ∀ f₁ ∈ fields, ∀ f₂ ∈ fields, ∀ t ∈ scopeObjs, ∀ fs,
    t.cls = .typeName (.named (.struct fs)) → f₁.id ∈ fs → f₂.id ∈ fs → f₁.name = f₂.name → f₁ = f₂

/-- The declared entities of the package. -/
def WellFormedPackage.Declares {path scopes} (p : WellFormedPackage path scopes) (o : ObjData) : Prop :=
  o ∈ p.scopeObjs ∨ (∃ t, (t, o) ∈ p.methods) ∨ o ∈ p.fields

end Verif.Spec
