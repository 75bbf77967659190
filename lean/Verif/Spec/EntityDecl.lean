import Verif.Spec.TypedDecl
/-!
# Specification: entities of a package, and when a reference from type information alone finds them

Like `TypedDecl`, but without leaving anything out: every declared package-level type, constant, variable, function, method and field of a package-level
struct type, and every method of a package-level interface type.
-/
namespace Verif.Spec

/-- The object is a package-level defined type with underlying struct type that has the field. -/
def ListsField (owner : ObjData) (field : Nat) : Prop := ∃ ids, owner.cls = .typeName (.named (.struct ids)) ∧ field ∈ ids

/-- `EntityDecl scopes sname pkg decls n o ok`: in the declarations `decls` of package `pkg` identifier `n` declares an entity, `o` is the type checker's
object for it, and `ok` is the condition under which the symbol made from type information is that of the definition.  `scopes pkg` lists the objects of the
package in the order of their names. -/
inductive EntityDecl (scopes : Scopes) (sname : Nat → List Ident → Str) (pkg : Str) (decls : List Node) : Ident → ObjData → Prop → Prop
  | typ {tok specs doc n tps typ d o ty} : .genDecl tok specs doc ∈ decls → .typeSpec n tps typ d ∈ specs →
      o.cls = .typeName ty → o.name = n.name → EntityDecl scopes sname pkg decls n o True
  /-- a variable or constant: if nothing has been left open before it in its declaration (C22) -/
  | value {tok pre post doc pos names typ vs d c n o} : .genDecl tok (pre ++ .valueSpec pos names typ vs d c :: post) doc ∈ decls →
      tok = .var ∨ tok = .const → n ∈ names → o.cls = .var false ∨ o.cls = .const →
      o.name = n.name → EntityDecl scopes sname pkg decls n o (leftOpenList sname pre = [])
  | func {n typ body a b d o} : .funcDecl [] n typ body a b d ∈ decls → o.cls = .func (some none) →
      o.name = n.name → EntityDecl scopes sname pkg decls n o True
  /-- a method: if the receiver is written with the name of its type (and not with an alias of it) -/
  | method {pos names typ d c rest n ft body a b fd o written base r} :
      .funcDecl (.field pos names typ d c :: rest) n ft body a b fd ∈ decls → RecvExprBase typ written →
      o.cls = .func (some (some r)) → RecvBase r base → base ≠ [] → o.name = n.name → EntityDecl scopes sname pkg decls n o (written = base)
  /-- a field of the struct type `t`: if `t` is the first type of the package with this field (i.e. none with a smaller name is derived from it) -/
  | field {tok specs doc t tps fs d pos names ft fd fc n o before first after} :
      .genDecl tok specs doc ∈ decls → .typeSpec t tps (.structT fs) d ∈ specs →
      .field pos names ft fd fc ∈ fs → n ∈ names ∨ (names = [] ∧ EmbeddedName ft n) →
      o.cls = .var true → o.name = n.name →
      scopes pkg = before ++ first :: after → ListsField first o.id → (∀ o' ∈ before, ¬ ListsField o' o.id) →
      EntityDecl scopes sname pkg decls n o (first.name = t.name)
  /-- a method of an interface type: never -/
  | ifaceMethod {tok specs doc t tps ms d pos names ft fd fc n o r} :
      .genDecl tok specs doc ∈ decls → .typeSpec t tps (.ifaceT ms) d ∈ specs → .field pos names ft fd fc ∈ ms → n ∈ names →
      o.cls = .func (some (some r)) → o.name = n.name → EntityDecl scopes sname pkg decls n o False

end Verif.Spec
