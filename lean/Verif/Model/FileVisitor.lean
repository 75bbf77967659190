import Verif.Model.Document
import Verif.Model.Lookup
/-!
# internal/visitors/visitor_file.go and the range functions
-/
namespace Verif

/-- Conversion to `int32` (two's complement wrap-around). -/
def toInt32 (x : Int) : Int := Int.bmod x (2 ^ 32)

/-- internal/symbols/symbols.go:27-38 `RangeFromName`. -/
def rangeFromName (p : Position) (nameLen : Nat) (adjust : Bool) : List Int :=
  let adj : Int := if adjust then 1 else 0
  let line := toInt32 (p.line - 1)
  let column := toInt32 (p.col - 1)
  let n := toInt32 nameLen
  [line, toInt32 (column + adj), toInt32 (column + n + adj)]

/-- visitors.go:98-112 `scipRange`; `quoted` says that the object is a package name whose name starts with a quote. -/
def scipRange (s e : Position) (quoted : Bool) : List Int :=
  let adj : Int := if quoted then 1 else 0
  let sl := toInt32 (s.line - 1)
  let sc := toInt32 (s.col - 1)
  let el := toInt32 (e.line - 1)
  let ec := toInt32 (e.col - 1)
  if sl ≠ el then [sl, toInt32 (sc + adj), el, toInt32 (ec - adj)]
  else [sl, toInt32 (sc + adj), toInt32 (ec - adj)]

/-- visitors.go:99-102: the adjustment test on an object. -/
def ObjData.quotedPkgName (o : ObjData) : Bool :=
  match o.cls with
  | .pkgName _ => o.name.hasPrefix go!"\""
  | _ => false

/-- `scip.Occurrence`: range, symbol, role (definition or read access), enclosing range (none = nil) and whether it
carries the Deprecated diagnostic (visitor_file.go:304-306, 372-378). -/
structure Occurrence where
  range : List Int
  symbol : Str
  isDef : Bool
  enclosing : Option (List Int)
  deprecated : Bool
  deriving DecidableEq, Repr

/-- internal/lookup/local.go:6-9 `Local`. -/
structure Local where
  symbol : Str
  obj : Obj
  deriving DecidableEq, Repr

/-- What the file visitor reads: the package, the table of its own package (`pkgSymbols`), the type-switch objects
(`TypesInfo.Implicits` of case clauses, in iteration order), `PkgNameOf` for import specs (the path of the imported
package), and `pkg.Imports` (import path ↦ `PkgPath` of the imported package). -/
structure FileEnv where
  pkg : PkgEnv
  scopes : Scopes
  pkgTable : Table
  implicits : List Obj
  pkgNameOf : Nat → Option Str
  imports : Str → Option Str

/-- visitor_file.go:25-30: the map `caseClauses`: the last object inserted for a position wins. -/
def FileEnv.caseClauses (env : FileEnv) (pos : Nat) : Option Obj :=
  env.implicits.reverse.find? (fun o => o.self.pos == pos)

/-- visitor_file.go:53-78: the mutable part of `fileVisitor`, plus the state of the global symbol table.
`locals` is the map `locals` in order of insertion; `cur` is `currentFuncDecl` (identity of its name, start, end). -/
structure FState where
  locals : List (Nat × Local)
  occs : List Occurrence
  cur : Option (Nat × Nat × Nat)
  global : Global

namespace FState

/-- `v.locals[pos]`. -/
def localAt (st : FState) (pos : Nat) : Option Local := st.locals.lookup pos

/-- visitor_file.go:83-96 `createNewLocalSymbol`; none = the panic of visitor_file.go:85. -/
def createNewLocal (st : FState) (pos : Nat) (obj : Obj) : Option (FState × Str) :=
  match st.localAt pos with
  | some _ => none
  | none =>
    let sym := localSymbol st.locals.length
    some ({ st with locals := st.locals ++ [(pos, ⟨sym, obj⟩)] }, sym)

/-- visitor_file.go:295-308, 310-322: `newDefinition` and `newReference`. -/
def emit (st : FState) (o : Occurrence) : FState := { st with occs := st.occs ++ [o] }

end FState

/-- visitor_file.go:363-370 `enclosingRange`. -/
def enclosingRange (env : FileEnv) (st : FState) (i : Ident) : Option (List Int) :=
  match st.cur with
  | some (uid, s, e) =>
    if uid = i.uid then
      some (scipRange (env.pkg.position s) (env.pkg.position e)
        ((env.pkg.defs i.uid).map (·.self.quotedPkgName) |>.getD false))
    else none
  | none => none

/-- visitor_file.go:382-390 `isDeprecated`. -/
def isDeprecatedAt (env : FileEnv) (st : FState) (pos : Nat) : Bool :=
  match env.pkgTable.get pos with
  | some info => isDocDeprecated info.documentation
  | none =>
    match st.global.getSymbolInformation env.pkg.pkgPath pos with
    | some info => isDocDeprecated info.documentation
    | none => false

/-- The range of an identifier for an object. -/
def identRange (env : FileEnv) (i : Ident) (o : Obj) : List Int :=
  scipRange (env.pkg.position i.pos) (env.pkg.position i.endPos) o.self.quotedPkgName

/-- visitor_file.go:206-223: the definition part of the case `*ast.Ident`. -/
def visitDef (env : FileEnv) (i : Ident) (d : Obj) (st : FState) : Option FState :=
  let named : Option (FState × Str) :=
    match env.pkgTable.getSymbol d.self.pos with
    | some s => some (st, s)
    | none =>
      match st.global.getSymbol env.pkg.pkgPath d.self.pos with
      | some s => some (st, s)
      | none => st.createNewLocal d.self.pos d
  named.map fun (st, s) =>
    st.emit ⟨identRange env i d, s, true, enclosingRange env st i, isDeprecatedAt env st d.self.pos⟩

/-- visitor_file.go:225-258: the reference part of the case `*ast.Ident`. -/
def visitRef (env : FileEnv) (i : Ident) (r : Obj) (st : FState) : Option FState :=
  match st.localAt r.self.pos with
  | some l => some (st.emit ⟨identRange env i r, l.symbol, false, none, false⟩)
  | none =>
    let (g, res) := st.global.getSymbolOfObject env.scopes r
    let st := { st with global := g }
    match res with
    | .panic => none
    | .error => some st
    | .skip => some st
    | .info info => some (st.emit ⟨identRange env i r, info.symbol, false, none, isDocDeprecated info.documentation⟩)

/-- visitor_file.go:188-267: the case `*ast.Ident`. -/
def visitIdent (env : FileEnv) (i : Ident) (st : FState) : Option FState :=
  if i.name = go!"_" then some st
  else
    match env.caseClauses i.pos with
    | some obj =>
      (st.createNewLocal obj.self.pos obj).map fun (st, s) =>
        st.emit ⟨identRange env i obj, s, true, none, false⟩
    | none =>
      let st₁ := match env.pkg.defs i.uid with
        | some d => visitDef env i d st
        | none => some st
      st₁.bind fun st =>
        match env.pkg.uses i.uid with
        | some r => visitRef env i r st
        | none => some st

/-- visitor_file.go:273-291 `emitImportReference`. (`RangeFromName` never returns nil.) -/
def emitImportReference (env : FileEnv) (pathPos : Nat) (imported : Str) (st : FState) : FState :=
  match st.global.getPkgSymbol imported with
  | none => st
  | some sym => st.emit ⟨rangeFromName (env.pkg.position pathPos) imported.length true, sym, false, none, false⟩

/-- visitor_file.go:104-131: the case `*ast.ImportSpec`. -/
def visitImport (env : FileEnv) (uid : Nat) (name : Option Ident) (pathPos : Nat) (st : FState) : FState :=
  match (env.pkgNameOf uid).bind env.imports with
  | none => st
  | some imported =>
    let st := match name with
      | none => st
      | some n =>
        if n.name ≠ go!"." ∧ n.name ≠ go!"_" then
          match st.global.getPkgSymbol imported with
          | some sym => st.emit ⟨rangeFromName (env.pkg.position n.pos) n.name.length false, sym, false, none, false⟩
          | none => st
        else st
    emitImportReference env pathPos imported st

/-- visitor_file.go:133-140: is the left side of a selector a package name, and of which package? -/
def selectorPkg (env : FileEnv) : Node → Option (Ident × Obj × Str)
  | .ident i =>
    match env.pkg.uses i.uid with
    | some o => match o.self.cls with
      | .pkgName imported => some (i, o, imported)
      | _ => none
    | none => none
  | _ => none

mutual

/-- visitor_file.go:98-271 `Visit` under `ast.Walk`; none = panic. -/
def fileWalk (env : FileEnv) : Node → FState → Option FState
  | .importSpec uid name pathPos, st => some (visitImport env uid name pathPos st)
  | .selector x sel, st =>
    match selectorPkg env x with
    | some (i, o, imported) =>
      match st.global.getPkgSymbol imported with
      | none => some st
      | some sym =>
        visitIdent env sel (st.emit ⟨identRange env i o, sym, false, none, false⟩)
    | none => (fileWalk env x st).bind (visitIdent env sel)
  | .funcDecl recv name typ body pos endPos _, st =>
    let st := { st with cur := some (name.uid, pos, endPos) }
    ((fileWalkList env recv st).bind (visitIdent env name)).bind fun st =>
      (fileWalk env typ st).bind (fileWalkList env body)
  | .file _ decls, st => fileWalkList env decls st
  | .ident i, st => visitIdent env i st
  | .star x, st => fileWalk env x st
  | .paren x, st => fileWalk env x st
  | .index x is, st => (fileWalk env x st).bind (fileWalkList env is)
  | .unary x, st => fileWalk env x st
  | .arrayT len elt, st => (fileWalkList env len st).bind (fileWalk env elt)
  | .mapT k v, st => (fileWalk env k st).bind (fileWalk env v)
  | .chanT v, st => fileWalk env v st
  | .funcT tps ps rs, st => ((fileWalkList env tps st).bind (fileWalkList env ps)).bind (fileWalkList env rs)
  | .structT fs, st => fileWalkList env fs st
  | .ifaceT ms, st => fileWalkList env ms st
  | .field _ names typ _ _, st => (visitIdents env names st).bind (fileWalk env typ)
  | .block ss, st => fileWalkList env ss st
  | .typeSpec name tps typ _, st =>
    ((visitIdent env name st).bind (fileWalkList env tps)).bind (fileWalk env typ)
  | .valueSpec _ names typ values _ _, st =>
    ((visitIdents env names st).bind (fileWalkList env typ)).bind (fileWalkList env values)
  | .genDecl _ specs _, st => fileWalkList env specs st
  | .badDecl, st => some st
  | .other cs, st => fileWalkList env cs st

/-- `ast.Walk` over identifiers. -/
def visitIdents (env : FileEnv) : List Ident → FState → Option FState
  | [], st => some st
  | i :: is, st => (visitIdent env i st).bind (visitIdents env is)

/-- `ast.Walk` over a list of nodes. -/
def fileWalkList (env : FileEnv) : List Node → FState → Option FState
  | [], st => some st
  | n :: ns, st => (fileWalk env n st).bind (fileWalkList env ns)

end

/-- visitor_file.go:18-47 `NewFileVisitor`: the initial state; the first occurrence is the package occurrence. -/
def newFileVisitor (pkgOcc : Occurrence) (g : Global) : FState := ⟨[], [pkgOcc], none, g⟩

/-- internal/lookup/local.go:12-23 `SignatureText`; `objectString` is `types.ObjectString` (dependency). -/
def signatureText (objectString : Obj → Str) (l : Local) : Str :=
  match l.obj.self.cls with
  | .pkgName imported => go!"import " ++ l.obj.self.name ++ ' ' :: imported
  | _ => objectString l.obj

/-- visitor_file.go:331-353: the description of a local symbol. -/
def localInfo (env : FileEnv) (objectString : Obj → Str) (l : Local) : SymInfo :=
  { symbol := l.symbol
    kind := kindForObject (some l.obj.self)
    displayName := l.obj.self.name
    documentation := []
    signature :=
      match env.caseClauses l.obj.self.pos with
      | some _ => none
      | none => let txt := signatureText objectString l; if txt = [] then none else some txt }

/-- `scip.Document` (the fields that are filled in). -/
structure ScipDocument where
  relativePath : Str
  occurrences : List Occurrence
  symbols : List SymInfo

/-- visitor_file.go:324-361 `ToScipDocument`; `order` is the iteration order of the table, `lorder` that of the
locals. -/
def toScipDocument (env : FileEnv) (objectString : Obj → Str) (relativePath : Str) (st : FState) (order : Table)
    (lorder : List (Nat × Local)) (fileOf : Nat → Option Nat) (file : Nat) : ScipDocument :=
  { relativePath := relativePath
    occurrences := st.occs
    symbols := order.symbolsForFile fileOf file ++ lorder.map (fun e => localInfo env objectString e.2) }

end Verif
