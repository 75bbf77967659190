import Verif.Spec.Package
import Verif.Model.VisitNotes
/-! # Specification: what the collecting pass tells of at level Debug -/
namespace Verif.Spec

/-- The embedded elements that name nothing, as the collector knows (behind `*`, `~` and type arguments). -/
inductive NamesNothing : Node → Prop
  | union (cs) : NamesNothing (.other cs)
  | iface (ms) : NamesNothing (.ifaceT ms)
  | func (a b c) : NamesNothing (.funcT a b c)
  | map (k v) : NamesNothing (.mapT k v)
  | array (n e) : NamesNothing (.arrayT n e)
  | chan (v) : NamesNothing (.chanT v)
  | star {x} : NamesNothing x → NamesNothing (.star x)
  | index {x is} : NamesNothing x → NamesNothing (.index x is)
  | unary {x} : NamesNothing x → NamesNothing (.unary x)

/-- An embedded element whose name the collector does not find, though it is not one of those without (for example one in parentheses). -/
def NotFound (typ : Node) : Prop := (∀ i, ¬ EmbeddedName typ i) ∧ ¬ NamesNothing typ

/-- What is told of inside the type of a type declaration (compare `Member`). -/
inductive TypeTells (key : Node → Str) (isI : Bool) : Node → VisitNote → Prop
  | embedded {t pos typ d c} : isI = false → HasField t (.field pos [] typ d c) → NotFound typ → TypeTells key isI t (.fieldUnhandled pos)
  | embeddedLit {t pos typ d c n} : isI = true → HasField t (.field pos [] typ d c) → TypeTells key isI typ n → TypeTells key isI t n
  | anon {t pos names typ d c lit n} : HasField t (.field pos names typ d c) → names ≠ [] → Reaches typ lit → key lit ≠ [] →
      TypeTells key isI lit n → TypeTells key isI t n

/-- What is told of below a node of a variable or constant declaration (compare `VarDeclares`). -/
inductive VarTells (key : Node → Str) : Node → VisitNote → Prop
  /-- a spec with a declared type that the collector does not know: what follows in the spec is skipped -/
  | skipped {pos names typ vs d c} : names ≠ [] → handledSpec typ = false → VarTells key (.valueSpec pos names typ vs d c) (.typeTodo pos)
  | inType {pos names typ t vs d c n} : names ≠ [] → t ∈ typ → (∀ t' ∈ typ.head?, OpenVarType t') → VarTells key t n →
      VarTells key (.valueSpec pos names typ vs d c) n
  | inValue {pos names typ vs v d c n} : names ≠ [] → handledSpec typ = true → v ∈ vs → VarTells key v n → VarTells key (.valueSpec pos names typ vs d c) n
  | decl {tok specs s doc n} : tok = .var ∨ tok = .const → s ∈ specs → VarTells key s n → VarTells key (.genDecl tok specs doc) n
  | embedded {pos typ d c} : NotFound typ → VarTells key (.field pos [] typ d c) (.fieldUnhandled pos)
  | anon {pos names typ d c lit f n} : names ≠ [] → Reaches typ lit → key lit ≠ [] → HasField lit f → VarTells key f n →
      VarTells key (.field pos names typ d c) n
  | descend {m c n} : isPlain m = true → c ∈ children m → VarTells key c n → VarTells key m n

/-- What is told of in the declarations of a file. -/
inductive DeclsTell (key : Node → Str) (decls : List Node) : VisitNote → Prop
  | typ {tok specs doc t tps typ own n} : .genDecl tok specs doc ∈ decls → .typeSpec t tps typ own ∈ specs → TypeTells key (isIfaceBody typ) typ n →
      DeclsTell key decls n
  | var {tok specs doc n} : .genDecl tok specs doc ∈ decls → tok = .var ∨ tok = .const → VarTells key (.genDecl tok specs doc) n → DeclsTell key decls n

/-- What is told of in a package. -/
def PackageTells (key : Node → Str) (files : List Node) (n : VisitNote) : Prop := ∃ name decls, .file name decls ∈ files ∧ DeclsTell key decls n

end Verif.Spec
