import Verif.Spec.Package
import Verif.Spec.GoPackage
/-!
# Specification: declared identifiers and the type checker's objects for them
-/
namespace Verif.Spec

/-- `TypedDecl scopes pkg decls n o`: in the declarations `decls` of package `pkg`, identifier `n` declares a
package-level entity (or a field of a package-level struct type) and `o` is the type checker's object for it. -/
inductive TypedDecl (scopes : Scopes) (pkg : Str) (decls : List Node) : Ident → ObjData → Prop
  | typ {tok specs doc n tps typ d o ty} : .genDecl tok specs doc ∈ decls → .typeSpec n tps typ d ∈ specs →
      o.cls = .typeName ty → o.name = n.name → TypedDecl scopes pkg decls n o
  /-- a variable or constant, if no spec before it in its declaration has a declared type in parentheses (else: C22) -/
  | value {tok pre post doc pos names typ vs d c n o} : .genDecl tok (pre ++ .valueSpec pos names typ vs d c :: post) doc ∈ decls →
      tok = .var ∨ tok = .const → (∀ s ∈ pre, HandledTypes s) → n ∈ names → o.cls = .var false ∨ o.cls = .const →
      o.name = n.name → TypedDecl scopes pkg decls n o
  | func {n typ body a b d o} : .funcDecl [] n typ body a b d ∈ decls → o.cls = .func (some none) →
      o.name = n.name → TypedDecl scopes pkg decls n o
  /-- a method: the type checker's receiver type has the base name that is written in the source (this excludes
  receivers written with an alias of their type) -/
  | method {pos names typ d c rest n ft body a b fd o base r} :
      .funcDecl (.field pos names typ d c :: rest) n ft body a b fd ∈ decls → RecvExprBase typ base → base ≠ [] →
      o.cls = .func (some (some r)) → RecvBase r base → o.name = n.name → TypedDecl scopes pkg decls n o
  /-- a field of the struct type `T`: `T`'s object lists the field, and no package-level type with another name does
  (this excludes types derived from `T`, as in `type A T`) -/
  | field {tok specs doc t tps fs d pos names ft fd fc n o owner ids} :
      .genDecl tok specs doc ∈ decls → .typeSpec t tps (.structT fs) d ∈ specs →
      .field pos names ft fd fc ∈ fs → n ∈ names ∨ (names = [] ∧ EmbeddedName ft n) →
      o.cls = .var true → o.name = n.name →
      owner ∈ scopes pkg → owner.name = t.name → owner.cls = .typeName (.named (.struct ids)) → o.id ∈ ids →
      (∀ o' ∈ scopes pkg, ∀ ids', o'.cls = .typeName (.named (.struct ids')) → o.id ∈ ids' → o'.name = t.name) →
      TypedDecl scopes pkg decls n o

end Verif.Spec
