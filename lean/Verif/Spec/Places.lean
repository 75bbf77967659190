import Verif.Spec.Content
/-!
# Specification: places in the source

What the parser guarantees about positions: every identifier has its own; an embedded field begins at an identifier of its type (`T`, `pkg.T`) or at a
place where no identifier is (`*T`).
-/
namespace Verif.Spec
open Verif.Index

/-- The places that belong to a node itself (and not to its children): those of identifiers in it; for an embedded field, where it begins, if this is not
an identifier of its type. -/
def ownPlaces : Node → List Nat
  | .ident i => [i.pos]
  | .selector _ s => [s.pos]
  | .field pos names typ _ _ => names.map (·.pos) ++ (if names = [] ∧ pos ∉ (identifiers typ).map (·.pos) then [pos] else [])
  | .importSpec _ name _ => name.toList.map (·.pos)
  | .typeSpec name _ _ _ => [name.pos]
  | .valueSpec _ names _ _ _ _ => names.map (·.pos)
  | .funcDecl _ name _ _ _ _ _ => [name.pos]
  | .file name _ => [name.pos]
  | _ => []

mutual

/-- All places of a tree. -/
def places : Node → List Nat
  | .ident i => ownPlaces (.ident i)
  | .selector x s => ownPlaces (.selector x s) ++ places x
  | .star x => places x
  | .paren x => places x
  | .index x is => places x ++ placesList is
  | .unary x => places x
  | .arrayT len elt => placesList len ++ places elt
  | .mapT k v => places k ++ places v
  | .chanT v => places v
  | .funcT tps ps rs => placesList tps ++ (placesList ps ++ placesList rs)
  | .structT fs => placesList fs
  | .ifaceT ms => placesList ms
  | .field pos names typ d c => ownPlaces (.field pos names typ d c) ++ places typ
  | .block ss => placesList ss
  | .importSpec u name p => ownPlaces (.importSpec u name p)
  | .typeSpec name tps typ d => ownPlaces (.typeSpec name tps typ d) ++ (placesList tps ++ places typ)
  | .valueSpec pos names typ values d c => ownPlaces (.valueSpec pos names typ values d c) ++ (placesList typ ++ placesList values)
  | .genDecl _ specs _ => placesList specs
  | .funcDecl recv name typ body a b d => ownPlaces (.funcDecl recv name typ body a b d) ++ (placesList recv ++ (places typ ++ placesList body))
  | .badDecl => []
  | .file name decls => ownPlaces (.file name decls) ++ placesList decls
  | .other cs => placesList cs

def placesList : List Node → List Nat
  | [] => []
  | n :: ns => places n ++ placesList ns

end

/-- No place of the project is used twice. -/
def DistinctPlaces (project : GoMap Package) : Prop := (project.flatMap fun e => placesList (e.2.files.map SourceFile.node)).Nodup

/-- The specs of a variable or constant declaration are value specs. -/
def ValueSpecs (decls : List Node) : Prop :=
  ∀ tok specs doc, .genDecl tok specs doc ∈ decls → tok = .var ∨ tok = .const → ∀ s ∈ specs, ∃ pos names typ vs d c, s = .valueSpec pos names typ vs d c

/-- No variable or constant is declared in the tree. -/
inductive NoneDeclared : Node → Prop
  | mk {n} : (∀ tok specs doc, n = .genDecl tok specs doc → tok ≠ .var ∧ tok ≠ .const) → (∀ pos names typ vs d c, n ≠ .valueSpec pos names typ vs d c) →
      (∀ c ∈ children n, NoneDeclared c) → NoneDeclared n

/-- No variable or constant is declared inside of a declaration of package-level variables (in function literals). -/
def NoNestedDeclarations (decls : List Node) : Prop :=
  ∀ tok specs doc, .genDecl tok specs doc ∈ decls → tok = .var ∨ tok = .const → ∀ s ∈ specs, ∀ c ∈ children s, NoneDeclared c

/-- A project as the parser delivers it. -/
structure ParsedProject (project : GoMap Package) : Prop where
  places : DistinctPlaces project
  specs : ∀ p, (p.path, p) ∈ project → ∀ f ∈ p.files, ValueSpecs f.decls

end Verif.Spec
