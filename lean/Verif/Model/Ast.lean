import Verif.Model.Composer
/-!
# Syntax trees (go/ast, dependency), symbol information and the declaration table

A `Node` stands for a `go/ast` node.  Node classes that some visitor of internal/visitors treats specially
have their own constructor; all other nodes (statements, literals, calls, binary expressions, function
literals, comments, …) are `other` with their children in the order of `ast.Walk`.

Simplifications: a `*ast.FieldList` is flattened into the list of its fields (all four visitors just
descend through it); an optional child is a list of length ≤ 1; `IndexExpr` and `IndexListExpr` are one
constructor (the code treats them alike everywhere); comments are the result of `CommentGroup.Text()` (nil
gives "") and are not walked (no visitor acts on comment nodes); struct tags are not walked.
-/
namespace Verif

/-- `*ast.Ident`; `uid` is the pointer identity. -/
structure Ident where
  uid : Nat
  name : Str
  pos : Nat
  deriving DecidableEq, Repr

/-- `ast.Ident.End()`. -/
def Ident.endPos (i : Ident) : Nat := i.pos + i.name.length

/-- `GenDecl.Tok` (go/token): the four tokens a declaration can have, `other` for anything else
(visitors.go:54-69). -/
inductive Tok where
  | imp | typ | var | const | other
  deriving DecidableEq, Repr

/-- Syntax nodes; see the header of this file. -/
inductive Node where
  | ident (i : Ident)
  | selector (x : Node) (sel : Ident)
  | star (x : Node)
  | paren (x : Node)
  | index (x : Node) (indices : List Node)
  | unary (x : Node)
  | arrayT (len : List Node) (elt : Node)
  | mapT (key value : Node)
  | chanT (value : Node)
  | funcT (tparams params results : List Node)
  | structT (fields : List Node)
  | ifaceT (methods : List Node)
  | field (pos : Nat) (names : List Ident) (typ : Node) (doc comment : Str)
  | block (stmts : List Node)
  | importSpec (uid : Nat) (name : Option Ident) (pathPos : Nat)
  | typeSpec (name : Ident) (tparams : List Node) (typ : Node) (doc : Str)
  | valueSpec (pos : Nat) (names : List Ident) (typ values : List Node) (doc comment : Str)
  | genDecl (tok : Tok) (specs : List Node) (doc : Str)
  | funcDecl (recv : List Node) (name : Ident) (typ : Node) (body : List Node) (pos endPos : Nat) (doc : Str)
  | badDecl
  | file (name : Ident) (decls : List Node)
  | other (children : List Node)
  deriving Repr

/-- `token.Position`: line and column, both starting at 1. -/
structure Position where
  line : Nat
  col : Nat
  deriving DecidableEq, Repr

/-- `scip.SymbolInformation`.  `signature` is the text of `SignatureDocumentation` (none = nil).  Relationships
are left out here; they are added by internal/implementations and modelled there. -/
structure SymInfo where
  symbol : Str
  kind : Kind
  displayName : Str
  documentation : List Str
  signature : Option Str
  deriving DecidableEq, Repr

/-- internal/lookup/lookup.go:32-35 `Package.fields`: position ↦ symbol information, newest binding first.
A Go map holds one entry per key; `Table.set` keeps keys unique. -/
abbrev Table := List (Nat × SymInfo)

/-- The warning of lookup.go:53-55: the position, the symbol recorded before and the one that takes its place. -/
structure Conflict where
  pos : Nat
  original : Str
  symbol : Str
  deriving DecidableEq, Repr

namespace Table

/-- lookup.go:61-64 `Package.Get`. -/
def get (t : Table) (pos : Nat) : Option SymInfo := t.lookup pos

/-- A Go map update `m[k] = v`. -/
def put (t : Table) (pos : Nat) (info : SymInfo) : Table :=
  (pos, info) :: t.filter (fun e => e.1 != pos)

/-- lookup.go:48-59 `Package.Set`. -/
def set (t : Table) (pos : Nat) (info : SymInfo) : Table :=
  match t.get pos with
  | some original => if original.symbol = info.symbol then t else t.put pos info
  | none => t.put pos info

/-- lookup.go:53-55: what `Package.Set` warns of, "Conflicting symbol at …: … vs …". -/
def conflict (t : Table) (pos : Nat) (info : SymInfo) : List Conflict :=
  match t.get pos with
  | some original => if original.symbol = info.symbol then [] else [⟨pos, original.symbol, info.symbol⟩]
  | none => []

/-- lookup.go:66-73 `Package.GetSymbol` (entries are never nil pointers). -/
def getSymbol (t : Table) (pos : Nat) : Option Str := (t.get pos).map (·.symbol)

/-- lookup.go:37-46 `SymbolsForFile`; `order` is the iteration order of the map (some permutation of the table),
`fileOf` is `Fset.File`. -/
def symbolsForFile (order : Table) (fileOf : Nat → Option Nat) (file : Nat) : List SymInfo :=
  (order.filter (fun e => fileOf e.1 == some file)).map (·.2)

end Table

/-- What the visitors read from a `*packages.Package`: its path, module, the type checker's maps and the
position table.  `defs`/`uses` are `TypesInfo.Defs`/`Uses` by identifier; `anonKey` is `anonTypeKey`
(internal/visitors/anon_type_key.go:18-31: a hash of the canonical type string, "" if the type is unknown);
`signature` is `typeStringForObject` (document.go:216-237).  The module is not nil (symbols.go:12-14 would panic; C37
shows the loader always sets one). -/
structure PkgEnv where
  pkgPath : Str
  module : ModIdent
  defs : Nat → Option Obj
  uses : Nat → Option Obj
  anonKey : Node → Str
  signature : Obj → Str
  position : Nat → Position

/-- internal/symbols/symbols.go:11-25 `FromDescriptors`. -/
def PkgEnv.fromDescriptors (env : PkgEnv) (ds : List Descriptor) : Str :=
  formatSymbol ⟨env.module.path, env.module.version⟩ ds

end Verif
