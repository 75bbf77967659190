import Verif.Spec.Syntax
import Verif.Model.FileVisitor
import Verif.Spec.Objects
/-!
# Specification: what a document of a file must contain

The identifiers of a file in source order, and what each of them contributes to the document.  No state is involved:
the contribution of an identifier is given by the identifiers before it.
-/
namespace Verif.Spec

/-- The source range between two positions, zero based: three numbers on one line, else four. -/
def span (s e : Position) : List Int :=
  if s.line = e.line then [s.line - 1, s.col - 1, e.col - 1]
  else [s.line - 1, s.col - 1, e.line - 1, e.col - 1]

/-- Positions of a file that is smaller than 2 GiB. -/
def PosOk (p : Position) : Prop := 1 ≤ p.line ∧ 1 ≤ p.col ∧ p.line < 2 ^ 31 ∧ p.col < 2 ^ 31

/-- The range of an identifier. -/
def identSpan (env : FileEnv) (i : Ident) : List Int :=
  span (env.pkg.position i.pos) (env.pkg.position (i.pos + i.name.length))

/-- What is met when a file is read from top to bottom: identifiers (`decl` is the extent of the function
declaration that the identifier names, if it names one), names of imported packages in front of a selector,
and import specs. -/
inductive Event where
  | ident (i : Ident) (decl : Option (Nat × Nat))
  | qualifier (i : Ident) (o : Obj) (imported : Str)
  | imp (uid : Nat) (name : Option Ident) (pathPos : Nat)

/-- The identifier denotes an imported package. -/
def packageQualifier (env : FileEnv) : Node → Option (Ident × Obj × Str)
  | .ident i => (env.pkg.uses i.uid).bind fun o =>
    match o.self.cls with
    | .pkgName imported => some (i, o, imported)
    | _ => none
  | _ => none

mutual

/-- Reading a syntax tree; `known` tells which imported packages have a symbol. A selection from a package without symbol is
passed over. -/
def traverse (env : FileEnv) (known : Str → Bool) : Node → List Event
  | .importSpec uid name pathPos => [.imp uid name pathPos]
  | .selector x sel =>
    match packageQualifier env x with
    | some (i, o, imported) => if known imported then [.qualifier i o imported, .ident sel none] else []
    | none => traverse env known x ++ [.ident sel none]
  | .funcDecl recv name typ body pos endPos _ =>
    traverseList env known recv ++ .ident name (some (pos, endPos)) :: (traverse env known typ ++ traverseList env known body)
  | .file _ decls => traverseList env known decls
  | .ident i => [.ident i none]
  | .star x => traverse env known x
  | .paren x => traverse env known x
  | .index x is => traverse env known x ++ traverseList env known is
  | .unary x => traverse env known x
  | .arrayT len elt => traverseList env known len ++ traverse env known elt
  | .mapT k v => traverse env known k ++ traverse env known v
  | .chanT v => traverse env known v
  | .funcT tps ps rs => traverseList env known tps ++ traverseList env known ps ++ traverseList env known rs
  | .structT fs => traverseList env known fs
  | .ifaceT ms => traverseList env known ms
  | .field _ names typ _ _ => names.map (Event.ident · none) ++ traverse env known typ
  | .block ss => traverseList env known ss
  | .typeSpec name tps typ _ => .ident name none :: (traverseList env known tps ++ traverse env known typ)
  | .valueSpec _ names typ values _ _ =>
    names.map (Event.ident · none) ++ traverseList env known typ ++ traverseList env known values
  | .genDecl _ specs _ => traverseList env known specs
  | .badDecl => []
  | .other cs => traverseList env known cs

def traverseList (env : FileEnv) (known : Str → Bool) : List Node → List Event
  | [] => []
  | n :: ns => traverse env known n ++ traverseList env known ns

end

/-- The identifiers that are met. -/
def identsOf (es : List Event) : List Ident := es.filterMap fun e => match e with | .ident i _ => some i | _ => none

/-- No function declaration inside. -/
inductive FuncFree : Node → Prop
  | mk {n} : (∀ r nm t b p e d, n ≠ .funcDecl r nm t b p e d) → (∀ c ∈ children n, FuncFree c) → FuncFree n

/-- A file as the parser delivers it: function declarations are not nested, and every identifier node is one node. -/
structure ParsedFile (env : FileEnv) (known : Str → Bool) (decls : List Node) : Prop where
  top_level : ∀ d ∈ decls, FuncFree d ∨
    ∃ recv name typ body pos endPos doc, d = .funcDecl recv name typ body pos endPos doc ∧
      (∀ c ∈ recv, FuncFree c) ∧ FuncFree typ ∧ (∀ c ∈ body, FuncFree c)
  distinct : ((identsOf (traverseList env known decls)).map (·.uid)).Nodup

/-- The file-local declaration made by an identifier, if it makes one: the variable of a type switch, or an object that
has no entry in the table of the package. -/
def localDecl (env : FileEnv) : Event → Option (Nat × Obj)
  | .ident i _ =>
    if i.name = go!"_" then none
    else match env.caseClauses i.pos with
    | some obj => some (obj.self.pos, obj)
    | none => match env.pkg.defs i.uid with
      | some d => if (env.pkgTable.get d.self.pos).isSome then none else some (d.self.pos, d)
      | none => none
  | _ => none

/-- All file-local declarations, in source order. -/
def localDecls (env : FileEnv) (es : List Event) : List (Nat × Obj) := es.filterMap (localDecl env)

/-- The symbol of the local declared at a position: `local k` where `k` is the number of local declarations before it. -/
def localSymbolAt (env : FileEnv) (es : List Event) (pos : Nat) : Option Str :=
  ((localDecls env es).findIdx? (fun d => d.1 == pos)).map localSymbol

/-- The definition occurrence of an identifier. -/
def defOccs (env : FileEnv) (before : List Event) (i : Ident) (decl : Option (Nat × Nat)) : List Occurrence :=
  if i.name = go!"_" then []
  else match env.caseClauses i.pos with
  | some _ => [⟨identSpan env i, localSymbol (localDecls env before).length, true, none, false⟩]
  | none => match env.pkg.defs i.uid with
    | none => []
    | some d =>
      let encl := decl.map fun (s, e) => span (env.pkg.position s) (env.pkg.position e)
      match env.pkgTable.get d.self.pos with
      | some info => [⟨identSpan env i, info.symbol, true, encl, isDocDeprecated info.documentation⟩]
      | none => [⟨identSpan env i, localSymbol (localDecls env before).length, true, encl, false⟩]

/-- What a reference to an object names: the local declared at the object's position, or else what a fresh symbol table
`g` answers (see C20). -/
def target (env : FileEnv) (g : Global) (before : List Event) (r : Obj) : Option (Str × Bool) :=
  match localSymbolAt env before r.self.pos with
  | some s => some (s, false)
  | none => match (g.getSymbolOfObject env.scopes r).2 with
    | .info info => some (info.symbol, isDocDeprecated info.documentation)
    | _ => none

/-- The reference occurrence of an identifier; `upto` are the identifiers up to and including this one. -/
def refOccs (env : FileEnv) (g : Global) (upto : List Event) (i : Ident) : List Occurrence :=
  if i.name = go!"_" ∨ (env.caseClauses i.pos).isSome then []
  else match env.pkg.uses i.uid with
  | none => []
  | some r => match target env g upto r with
    | some (s, dep) => [⟨identSpan env i, s, false, none, dep⟩]
    | none => []

/-- The occurrences of an import spec: of the name, if there is one, and of the path (between the quotes). -/
def importOccs (env : FileEnv) (g : Global) (uid : Nat) (name : Option Ident) (pathPos : Nat) : List Occurrence :=
  match (env.pkgNameOf uid).bind env.imports with
  | none => []
  | some imported => match g.getPkgSymbol imported with
    | none => []
    | some sym =>
      let p := env.pkg.position pathPos
      (match name with
        | none => []
        | some n => if n.name = go!"." ∨ n.name = go!"_" then [] else
          let q := env.pkg.position n.pos
          [⟨[q.line - 1, q.col - 1, q.col - 1 + n.name.length], sym, false, none, false⟩]) ++
      [⟨[p.line - 1, p.col, p.col + imported.length], sym, false, none, false⟩]

/-- The contribution of one event. -/
def occsAt (env : FileEnv) (g : Global) (before : List Event) : Event → List Occurrence
  | .ident i decl => defOccs env before i decl ++ refOccs env g (before ++ [.ident i decl]) i
  | .qualifier i _ imported => match g.getPkgSymbol imported with
    | some sym => [⟨identSpan env i, sym, false, none, false⟩]
    | none => []
  | .imp uid name pathPos => importOccs env g uid name pathPos

/-- The contributions of a list of events after the events `before`. -/
def occsFrom (env : FileEnv) (g : Global) (before : List Event) : List Event → List Occurrence
  | [] => []
  | e :: es => occsAt env g before e ++ occsFrom env g (before ++ [e]) es

end Verif.Spec

namespace Verif.Spec

/-- Type information as the type checker delivers it, for the file with the events `es`; `objs` are the objects looked up
while the index is made and `g` is the global symbol table before the first lookup. -/
structure TypedFile (env : FileEnv) (es : List Event) (objs : List Obj) (g : Global) : Prop where
  /-- the table of the package is the one registered globally -/
  table : ∀ pos, g.getSymbolInformation env.pkg.pkgPath pos = env.pkgTable.get pos
  /-- nothing has been looked up in `g` -/
  fresh : g.composer.compositions = [] ∧ g.skipped = []
  looked_up : ∀ i ∈ identsOf es, ∀ r, env.pkg.uses i.uid = some r → r ∈ objs
  coherent : CoherentObjs objs
  objects : ∀ o ∈ objs, WellFormedObj o
  /-- names of objects are identifiers -/
  unquoted : ∀ o : Obj, (∃ u, env.pkg.defs u = some o ∨ env.pkg.uses u = some o) ∨ o ∈ env.implicits →
    o.self.name.head? ≠ some '"'
  positions : ∀ p, PosOk (env.pkg.position p)
  /-- imports fit into 32-bit columns -/
  imports : ∀ p imported, (env.pkg.position p).col + 1 + imported.length < 2 ^ 31 ∨ ∀ q, env.imports q ≠ some imported
  import_names : ∀ uid n p, Event.imp uid (some n) p ∈ es → (env.pkg.position n.pos).col + n.name.length < 2 ^ 31

end Verif.Spec
