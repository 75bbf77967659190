import Verif.Spec.Declarations
import Verif.Spec.Documentation
/-!
# Specification: which comment belongs to which identifier
-/
namespace Verif.Spec

/-- `m` occurs in the tree `n` (which includes `n` itself). -/
inductive Below : Node → Node → Prop
  | refl (n) : Below n n
  | child {n c m} : c ∈ children n → Below c m → Below n m

/-- No variable or constant declaration occurs in the tree. -/
inductive NoDecl : Node → Prop
  | mk {n} : (∀ tok specs doc, n = .genDecl tok specs doc → tok ≠ .var ∧ tok ≠ .const) → (∀ c ∈ children n, NoDecl c) → NoDecl n

mutual

/-- All identifiers of a tree. -/
def identifiers : Node → List Ident
  | .ident i => [i]
  | .selector x sel => sel :: identifiers x
  | .star x => identifiers x
  | .paren x => identifiers x
  | .index x is => identifiers x ++ identifiersList is
  | .unary x => identifiers x
  | .arrayT len elt => identifiersList len ++ identifiers elt
  | .mapT k v => identifiers k ++ identifiers v
  | .chanT v => identifiers v
  | .funcT tps ps rs => identifiersList tps ++ (identifiersList ps ++ identifiersList rs)
  | .structT fs => identifiersList fs
  | .ifaceT ms => identifiersList ms
  | .field _ names typ _ _ => names ++ identifiers typ
  | .block ss => identifiersList ss
  | .importSpec _ name _ => name.toList
  | .typeSpec name tps typ _ => name :: (identifiersList tps ++ identifiers typ)
  | .valueSpec _ names typ values _ _ => names ++ (identifiersList typ ++ identifiersList values)
  | .genDecl _ specs _ => identifiersList specs
  | .funcDecl recv name typ body _ _ _ => name :: (identifiersList recv ++ (identifiers typ ++ identifiersList body))
  | .badDecl => []
  | .file _ decls => identifiersList decls
  | .other cs => identifiersList cs

def identifiersList : List Node → List Ident
  | [] => []
  | n :: ns => identifiers n ++ identifiersList ns

end

/-- The documentation texts of an identifier declared by these declarations:
* a type: its own comment or else that of the declaration (group), then that of the group if it is another one;
* a variable or constant: likewise, its own comment being what stands above it and at the end of the line — provided that no spec before it
  in the group contains a variable or constant declaration (in a function literal);
* a function or method: its comment;
* a field or interface method, named or embedded: the comment above it and at the end of the line.

`trimSpace` removes white space at the ends (`trimSpace_iff` in Lemmas/Trim.lean: its value is the one string that is `Trimmed`). -/
inductive DocumentedAs (decls : List Node) : Ident → List Str → Prop
  | typ {tok specs doc n tps typ own} : .genDecl tok specs doc ∈ decls → .typeSpec n tps typ own ∈ specs →
      DocumentedAs decls n (docList (if own.trimSpace = [] then doc.trimSpace else own.trimSpace) doc.trimSpace)
  | value {tok pre post doc pos names typ vs own comment i} :
      .genDecl tok (pre ++ .valueSpec pos names typ vs own comment :: post) doc ∈ decls → tok = .var ∨ tok = .const → i ∈ names →
      (∀ s ∈ pre, NoDecl s) →
      DocumentedAs decls i (docList (if Str.trimSpace (own ++ '\n' :: comment) = [] then doc.trimSpace
        else Str.trimSpace (own ++ '\n' :: comment)) doc.trimSpace)
  | func {recv name typ body a b doc} : .funcDecl recv name typ body a b doc ∈ decls → DocumentedAs decls name (docList doc.trimSpace [])
  | field {d pos names typ own comment i} : d ∈ decls → Below d (.field pos names typ own comment) →
      i ∈ names ∨ names = [] ∧ EmbeddedName typ i → DocumentedAs decls i (docList (Str.trimSpace (own ++ '\n' :: comment)) [])

end Verif.Spec
