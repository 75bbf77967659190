import Verif.Spec.Syntax
/-!
# Specification: what a file declares

Relations between syntax and descriptor paths, written without reference to the visitors: which identifiers a
file's type declarations, function declarations and variable declarations declare and under which path
of descriptors.
-/
namespace Verif.Spec

/-- The identifier that names an embedded field: `T`, `pkg.T`, `*T`, `T[A]`, `~T` and combinations. -/
inductive EmbeddedName : Node → Ident → Prop
  | ident (i) : EmbeddedName (.ident i) i
  | selector (x i) : EmbeddedName (.selector x i) i
  | star {x i} : EmbeddedName x i → EmbeddedName (.star x) i
  | index {x is i} : EmbeddedName x i → EmbeddedName (.index x is) i
  | unary {x i} : EmbeddedName x i → EmbeddedName (.unary x) i

/-- `Reaches t l`: the anonymous struct or interface type `l` is reached from type expression `t` through maps,
arrays, slices and pointers. -/
inductive Reaches : Node → Node → Prop
  | struct (fs) : Reaches (.structT fs) (.structT fs)
  | iface (ms) : Reaches (.ifaceT ms) (.ifaceT ms)
  | mapKey {k v l} : Reaches k l → Reaches (.mapT k v) l
  | mapValue {k v l} : Reaches v l → Reaches (.mapT k v) l
  | array {n e l} : Reaches e l → Reaches (.arrayT n e) l
  | star {x l} : Reaches x l → Reaches (.star x) l

/-- The fields or methods listed in a struct or interface type. -/
inductive HasField : Node → Node → Prop
  | struct {fs f} : f ∈ fs → HasField (.structT fs) f
  | iface {ms f} : f ∈ ms → HasField (.ifaceT ms) f

/-- `Member key isI t o i p`: inside type `t`, whose path is `o`, identifier `i` is declared under path `p`.
`isI` says whether the enclosing type declaration declares an interface (there, embedded elements declare nothing
themselves). -/
inductive Member (key : Node → Str) (isI : Bool) : Node → List Descriptor → Ident → List Descriptor → Prop
  /-- a named field or interface method -/
  | named {t o pos names typ d c i} : HasField t (.field pos names typ d c) → i ∈ names →
      Member key isI t o i (o ++ [⟨i.name, .term⟩])
  /-- an embedded field -/
  | embedded {t o pos typ d c i} : isI = false → HasField t (.field pos [] typ d c) → EmbeddedName typ i →
      Member key isI t o i (o ++ [⟨i.name, .term⟩])
  /-- a type literal embedded in an interface contributes its members -/
  | embeddedLit {t o pos typ d c i p} : isI = true → HasField t (.field pos [] typ d c) →
      Member key isI typ o i p → Member key isI t o i p
  /-- a member of an anonymous type in the type of a named field -/
  | anon {t o pos names typ d c lit i p} : HasField t (.field pos names typ d c) → names ≠ [] →
      Reaches typ lit → key lit ≠ [] → Member key isI lit (o ++ [⟨key lit, .typ⟩]) i p → Member key isI t o i p

/-- Is this the body of an interface declaration? -/
def isIfaceBody : Node → Bool
  | .ifaceT _ => true
  | _ => false

/-- What a type declaration declares: its name, and the members of its body. -/
inductive TypeSpecDeclares (key : Node → Str) (pkgPath : Str) : Node → Ident → List Descriptor → Prop
  | name (n tps typ d) :
      TypeSpecDeclares key pkgPath (.typeSpec n tps typ d) n [⟨pkgPath, .nspace⟩, ⟨n.name, .typ⟩]
  | member {n tps typ d i p} : Member key (isIfaceBody typ) typ [⟨pkgPath, .nspace⟩, ⟨n.name, .typ⟩] i p →
      TypeSpecDeclares key pkgPath (.typeSpec n tps typ d) i p

/-- What the type declarations of a file declare. -/
def FileTypeDeclares (key : Node → Str) (pkgPath : Str) (decls : List Node) (i : Ident) (p : List Descriptor) :
    Prop :=
  ∃ tok specs doc spec, .genDecl tok specs doc ∈ decls ∧ spec ∈ specs ∧
    TypeSpecDeclares key pkgPath spec i p

/-- The base type name of a receiver expression, through pointers, parentheses and type arguments. -/
inductive RecvExprBase : Node → Str → Prop
  | ident (i) : RecvExprBase (.ident i) i.name
  | star {x n} : RecvExprBase x n → RecvExprBase (.star x) n
  | paren {x n} : RecvExprBase x n → RecvExprBase (.paren x) n
  | index {x is n} : RecvExprBase x n → RecvExprBase (.index x is) n

/-- The methods of interface literals that occur in the *result* types of a function (not inside parameter
lists, function bodies or other interface literals). -/
inductive ResultMethod : Node → Ident → Prop
  | iface {ms pos names typ d c i} : .field pos names typ d c ∈ ms → i ∈ names → ResultMethod (.ifaceT ms) i
  | result {tps ps rs r i} : r ∈ rs → ResultMethod r i → ResultMethod (.funcT tps ps rs) i
  | field {pos names typ d c i} : ResultMethod typ i → ResultMethod (.field pos names typ d c) i
  | struct {fs f i} : f ∈ fs → ResultMethod f i → ResultMethod (.structT fs) i
  | selector {x s i} : ResultMethod x i → ResultMethod (.selector x s) i
  | star {x i} : ResultMethod x i → ResultMethod (.star x) i
  | paren {x i} : ResultMethod x i → ResultMethod (.paren x) i
  | indexX {x is i} : ResultMethod x i → ResultMethod (.index x is) i
  | indexI {x is y i} : y ∈ is → ResultMethod y i → ResultMethod (.index x is) i
  | unary {x i} : ResultMethod x i → ResultMethod (.unary x) i
  | arrayLen {n e y i} : y ∈ n → ResultMethod y i → ResultMethod (.arrayT n e) i
  | arrayElt {n e i} : ResultMethod e i → ResultMethod (.arrayT n e) i
  | mapKey {k v i} : ResultMethod k i → ResultMethod (.mapT k v) i
  | mapValue {k v i} : ResultMethod v i → ResultMethod (.mapT k v) i
  | chan {v i} : ResultMethod v i → ResultMethod (.chanT v) i
  | other {cs y i} : y ∈ cs → ResultMethod y i → ResultMethod (.other cs) i

/-- The path of the receiver of a function declaration: nothing for a function, the base type for a method. -/
inductive RecvPath : List Node → List Descriptor → Prop
  | func : RecvPath [] []
  | method {pos names typ d c n rest} : RecvExprBase typ n →
      RecvPath (.field pos names typ d c :: rest) [⟨n, .typ⟩]

/-- What a function declaration declares at package level. -/
inductive FuncDeclares (pkgPath : Str) : Node → Ident → List Descriptor → Prop
  | name {recv name typ body a b d r} : RecvPath recv r →
      FuncDeclares pkgPath (.funcDecl recv name typ body a b d) name
        (⟨pkgPath, .nspace⟩ :: r ++ [⟨name.name, .method⟩])
  | result {recv name typ body a b d r i} : RecvPath recv r → ResultMethod typ i →
      FuncDeclares pkgPath (.funcDecl recv name typ body a b d) i
        (⟨pkgPath, .nspace⟩ :: r ++ [⟨go!"func", .metadesc⟩, ⟨name.name, .metadesc⟩, ⟨i.name, .method⟩])

/-- Nodes that can occur inside a type expression (no declarations). -/
inductive TypeExprNode : Node → Prop
  | ident (i) : TypeExprNode (.ident i)
  | selector {x} (s) : TypeExprNode x → TypeExprNode (.selector x s)
  | star {x} : TypeExprNode x → TypeExprNode (.star x)
  | paren {x} : TypeExprNode x → TypeExprNode (.paren x)
  | index {x is} : TypeExprNode x → (∀ y ∈ is, TypeExprNode y) → TypeExprNode (.index x is)
  | unary {x} : TypeExprNode x → TypeExprNode (.unary x)
  | arrayT {l e} : (∀ y ∈ l, TypeExprNode y) → TypeExprNode e → TypeExprNode (.arrayT l e)
  | mapT {k v} : TypeExprNode k → TypeExprNode v → TypeExprNode (.mapT k v)
  | chanT {v} : TypeExprNode v → TypeExprNode (.chanT v)
  | funcT {a b c} : (∀ y ∈ c, TypeExprNode y) → TypeExprNode (.funcT a b c)
  | structT {fs} : (∀ y ∈ fs, TypeExprNode y) → TypeExprNode (.structT fs)
  | ifaceT (ms) : TypeExprNode (.ifaceT ms)
  | field {t} (a b d c) : TypeExprNode t → TypeExprNode (.field a b t d c)
  | block (s) : TypeExprNode (.block s)
  | other {cs} : (∀ y ∈ cs, TypeExprNode y) → TypeExprNode (.other cs)

/-- The declared types for which nothing inside the type is looked at. -/
inductive OpaqueVarType : Node → Prop
  | ident (i) : OpaqueVarType (.ident i)
  | selector (x s) : OpaqueVarType (.selector x s)
  | star (x) : OpaqueVarType (.star x)
  | index (x is) : OpaqueVarType (.index x is)
  | array (l e) : OpaqueVarType (.arrayT l e)
  | map (k v) : OpaqueVarType (.mapT k v)
  | chan (v) : OpaqueVarType (.chanT v)
  | func (a b c) : OpaqueVarType (.funcT a b c)

/-- The declared types whose fields or methods are collected. -/
inductive OpenVarType : Node → Prop
  | struct (fs) : OpenVarType (.structT fs)
  | iface (ms) : OpenVarType (.ifaceT ms)

/-- Every declared type in a variable or constant spec below this node is one of the above (i.e. not, for
example, written in parentheses). -/
inductive HandledTypes : Node → Prop
  | mk {n} : (∀ c ∈ children n, HandledTypes c) →
      (∀ pos names t ts vs d c, n = .valueSpec pos names (t :: ts) vs d c → names ≠ [] →
        OpaqueVarType t ∨ OpenVarType t) → HandledTypes n

/-- The nodes that are just descended into when collecting variables. -/
def isPlain : Node → Bool
  | .valueSpec .. | .field .. | .genDecl .. => false
  | _ => true

/-- What the parser guarantees: struct and interface types consist of fields, and a variable or constant spec has at most one declared type. -/
inductive Parsed : Node → Prop
  | mk {n} : (∀ c ∈ children n, Parsed c) → (∀ f, HasField n f → ∃ pos names typ d c, f = .field pos names typ d c) →
      (∀ pos names typ vs d c, n = .valueSpec pos names typ vs d c → typ.length ≤ 1) → Parsed n

/-- The declared types that the collector knows, opaque or open (i.e. not, for example, types written in parentheses). -/
def isHandledType : Node → Bool
  | .ident _ | .selector .. | .star _ | .index .. | .arrayT .. | .mapT .. | .chanT _ | .funcT .. | .structT _ | .ifaceT _ => true
  | _ => false

/-- The spec has no declared type, or one that the collector knows. -/
def handledSpec (typ : List Node) : Bool := typ.head?.all isHandledType

mutual

/-- The scopes that are opened below a node and not closed again.  A spec opens a scope; with a declared type that the collector does not know,
what follows is skipped and the scope stays open (the defect of C22).  Otherwise the innermost open scope is closed: its own one, unless something in it has
been left open. -/
def leftOpen (sname : Nat → List Ident → Str) : Node → List Descriptor
  | .valueSpec pos names typ vs _ _ =>
    if names = [] then [] else if handledSpec typ then (⟨sname pos names, .metadesc⟩ :: leftOpenList sname vs).dropLast else [⟨sname pos names, .metadesc⟩]
  | .genDecl tok specs _ => if tok = .var ∨ tok = .const then leftOpenList sname specs else []
  | .field .. => []
  | .ident _ => []
  | .selector x _ => leftOpen sname x
  | .star x => leftOpen sname x
  | .paren x => leftOpen sname x
  | .index x is => leftOpen sname x ++ leftOpenList sname is
  | .unary x => leftOpen sname x
  | .arrayT len elt => leftOpenList sname len ++ leftOpen sname elt
  | .mapT k v => leftOpen sname k ++ leftOpen sname v
  | .chanT v => leftOpen sname v
  | .funcT tps ps rs => leftOpenList sname tps ++ (leftOpenList sname ps ++ leftOpenList sname rs)
  | .structT fs => leftOpenList sname fs
  | .ifaceT ms => leftOpenList sname ms
  | .block ss => leftOpenList sname ss
  | .importSpec .. => []
  | .typeSpec _ tps typ _ => leftOpenList sname tps ++ leftOpen sname typ
  | .funcDecl recv _ typ body _ _ _ => leftOpenList sname recv ++ (leftOpen sname typ ++ leftOpenList sname body)
  | .badDecl => []
  | .file _ decls => leftOpenList sname decls
  | .other cs => leftOpenList sname cs

/-- One after the other. -/
def leftOpenList (sname : Nat → List Ident → Str) : List Node → List Descriptor
  | [] => []
  | n :: ns => leftOpen sname n ++ leftOpenList sname ns

end

/-- `VarDeclares key sname o n i p q`: below node `n` with path `o`, identifier `i` is declared under path `p` and
recorded at position `q`.  `sname` names the scope of a spec.  What has been left open (`leftOpen`; nothing, apart from the defect of C22) before in the
same list comes into the path. -/
inductive VarDeclares (key : Node → Str) (sname : Nat → List Ident → Str) :
    List Descriptor → Node → Ident → List Descriptor → Nat → Prop
  | name {o pos names typ vs d c i} : i ∈ names →
      VarDeclares key sname o (.valueSpec pos names typ vs d c) i (o ++ [⟨i.name, .term⟩]) i.pos
  | inType {o pos names typ t vs d c i p q} : names ≠ [] → t ∈ typ → (∀ t' ∈ typ.head?, OpenVarType t') →
      VarDeclares key sname (o ++ [⟨sname pos names, .metadesc⟩]) t i p q →
      VarDeclares key sname o (.valueSpec pos names typ vs d c) i p q
  | inValue {o pos names typ vs pre v post d c i p q} : names ≠ [] → handledSpec typ = true → vs = pre ++ v :: post →
      VarDeclares key sname (o ++ ⟨sname pos names, .metadesc⟩ :: leftOpenList sname pre) v i p q →
      VarDeclares key sname o (.valueSpec pos names typ vs d c) i p q
  | decl {o tok specs pre s post doc i p q} : tok = .var ∨ tok = .const → specs = pre ++ s :: post →
      VarDeclares key sname (o ++ leftOpenList sname pre) s i p q → VarDeclares key sname o (.genDecl tok specs doc) i p q
  | named {o pos names typ d c i} : i ∈ names →
      VarDeclares key sname o (.field pos names typ d c) i (o ++ [⟨i.name, .term⟩]) i.pos
  | embedded {o pos typ d c i} : EmbeddedName typ i →
      VarDeclares key sname o (.field pos [] typ d c) i (o ++ [⟨i.name, .term⟩]) pos
  | anon {o pos names typ d c lit f i p q} : names ≠ [] → Reaches typ lit → key lit ≠ [] → HasField lit f →
      VarDeclares key sname (o ++ [⟨key lit, .typ⟩]) f i p q →
      VarDeclares key sname o (.field pos names typ d c) i p q
  | descend {o n pre c post i p q} : isPlain n = true → children n = pre ++ c :: post →
      VarDeclares key sname (o ++ leftOpenList sname pre) c i p q → VarDeclares key sname o n i p q

end Verif.Spec
