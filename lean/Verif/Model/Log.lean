import Verif.Model.Cmd
import Verif.Model.FileVisitor
import Verif.Model.Index
/-!
# What is logged while files are visited

The `slog` calls of internal/visitors/visitor_file.go, which report what could not be resolved, and internal/output/output.go:68-82, which decides
what of it is shown.  Simplifications: of the texts only what the properties speak of is kept (the messages also print the error of the lookup);
`importedPackage.ID` is replaced by the path of the package.  visitor_file.go:280 is never reached (`RangeFromName` never returns nil).
-/
namespace Verif.Log
open Cmd

/-- A record given to the default logger by the file visitor. -/
inductive Record where
  /-- visitor_file.go:108, 114: `Warn("Could not find node")` with the literal of the import path -/
  | importUnresolved (pathPos : Nat)
  /-- visitor_file.go:147: `Debug("Missing symbol for package: …")` -/
  | packageUnknown (path : Str)
  /-- visitor_file.go:286: `Debug("Missing symbol information for package: …")` -/
  | importUnknown (path : Str)
  /-- visitor_file.go:239: `Debug("Unable to find symbol of object: … Node Position -> … Path: …")` -/
  | objectUnknown (pos : Position) (path : Str)
  /-- visitor_file.go:261: `Debug("Neither def nor ref found: …")` -/
  | unresolved (name : Str) (pos : Position)
  deriving DecidableEq, Repr

/-- The level of a record: `Warn` or `Debug`. -/
def Record.level : Record → Level
  | .importUnresolved _ => levelWarn
  | .packageUnknown _ => levelDebug
  | .importUnknown _ => levelDebug
  | .objectUnknown _ _ => levelDebug
  | .unresolved _ _ => levelDebug

/-- output.go:75-82 `SetOutputOptions`: above `Warn` everything is discarded; otherwise the text handler shows what has at least this level. -/
def shown (level : Level) (rs : List Record) : List Record :=
  if level > levelWarn then [] else rs.filter (fun r => decide (r.level ≥ level))

/-- visitor_file.go:231-248: what is logged for a reference. (An error is returned for objects with a package only, so `ref.Pkg()` is not nil.) -/
def refLog (env : FileEnv) (i : Ident) (r : Obj) (st : FState) : List Record :=
  match st.localAt r.self.pos with
  | some _ => []
  | none =>
    match (st.global.getSymbolOfObject env.scopes r).2 with
    | .error => [.objectUnknown (env.pkg.position i.pos) (r.self.pkg.getD [])]
    | _ => []

/-- visitor_file.go:188-267: the case `*ast.Ident`. -/
def identLog (env : FileEnv) (i : Ident) (st : FState) : List Record :=
  if i.name = go!"_" then []
  else
    match env.caseClauses i.pos with
    | some _ => []
    | none =>
      match env.pkg.defs i.uid with
      | some d =>
        match visitDef env i d st with
        | none => []
        | some st =>
          match env.pkg.uses i.uid with
          | some r => refLog env i r st
          | none => []
      | none =>
        match env.pkg.uses i.uid with
        | some r => refLog env i r st
        | none => [.unresolved i.name (env.pkg.position i.pos)]

/-- visitor_file.go:104-131 and 273-291: the case `*ast.ImportSpec`. -/
def importLog (env : FileEnv) (uid pathPos : Nat) (st : FState) : List Record :=
  match (env.pkgNameOf uid).bind env.imports with
  | none => [.importUnresolved pathPos]
  | some imported =>
    match st.global.getPkgSymbol imported with
    | none => [.importUnknown imported]
    | some _ => []

/-- What is logged by the second of two visits; nothing if the first one panics. -/
def afterwards (st : Option FState) (log : FState → List Record) : List Record :=
  match st with
  | none => []
  | some st => log st

mutual

/-- visitor_file.go:98-271 `Visit` under `ast.Walk`: everything that is logged (until the first panic, if there is one). -/
def fileLog (env : FileEnv) : Node → FState → List Record
  | .importSpec uid _ pathPos, st => importLog env uid pathPos st
  | .selector x sel, st =>
    match selectorPkg env x with
    | some (i, o, imported) =>
      match st.global.getPkgSymbol imported with
      | none => [.packageUnknown imported]
      | some sym => identLog env sel (st.emit ⟨identRange env i o, sym, false, none, false⟩)
    | none => fileLog env x st ++ afterwards (fileWalk env x st) (identLog env sel)
  | .funcDecl recv name typ body pos endPos _, st =>
    let st := { st with cur := some (name.uid, pos, endPos) }
    fileLogList env recv st ++ afterwards (fileWalkList env recv st) fun st =>
      identLog env name st ++ afterwards (visitIdent env name st) fun st =>
        fileLog env typ st ++ afterwards (fileWalk env typ st) (fileLogList env body)
  | .file _ decls, st => fileLogList env decls st
  | .ident i, st => identLog env i st
  | .star x, st => fileLog env x st
  | .paren x, st => fileLog env x st
  | .index x is, st => fileLog env x st ++ afterwards (fileWalk env x st) (fileLogList env is)
  | .unary x, st => fileLog env x st
  | .arrayT len elt, st => fileLogList env len st ++ afterwards (fileWalkList env len st) (fileLog env elt)
  | .mapT k v, st => fileLog env k st ++ afterwards (fileWalk env k st) (fileLog env v)
  | .chanT v, st => fileLog env v st
  | .funcT tps ps rs, st =>
    fileLogList env tps st ++ afterwards (fileWalkList env tps st) fun st =>
      fileLogList env ps st ++ afterwards (fileWalkList env ps st) (fileLogList env rs)
  | .structT fs, st => fileLogList env fs st
  | .ifaceT ms, st => fileLogList env ms st
  | .field _ names typ _ _, st => identsLog env names st ++ afterwards (visitIdents env names st) (fileLog env typ)
  | .block ss, st => fileLogList env ss st
  | .typeSpec name tps typ _, st =>
    identLog env name st ++ afterwards (visitIdent env name st) fun st =>
      fileLogList env tps st ++ afterwards (fileWalkList env tps st) (fileLog env typ)
  | .valueSpec _ names typ values _ _, st =>
    identsLog env names st ++ afterwards (visitIdents env names st) fun st =>
      fileLogList env typ st ++ afterwards (fileWalkList env typ st) (fileLogList env values)
  | .genDecl _ specs _, st => fileLogList env specs st
  | .badDecl, _ => []
  | .other cs, st => fileLogList env cs st

/-- `ast.Walk` over identifiers. -/
def identsLog (env : FileEnv) : List Ident → FState → List Record
  | [], _ => []
  | i :: is, st => identLog env i st ++ afterwards (visitIdent env i st) (identsLog env is)

/-- `ast.Walk` over a list of nodes. -/
def fileLogList (env : FileEnv) : List Node → FState → List Record
  | [], _ => []
  | n :: ns, st => fileLog env n st ++ afterwards (fileWalk env n st) (fileLogList env ns)

end

open Index

/-- scip.go:131-155: what is logged while a file is visited, after `n` messages. -/
def visitFileLog (D : Deps) (ord : MapOrders) (n : Nat) (p : Package) (f : SourceFile) (d : Doc) (g : Global) : List Record :=
  match g.symbols.lookup p.path with
  | none => []
  | some r => fileLog (fileEnv D ord n p r.table) f.node (newFileVisitor (d.pkgOcc.getD zeroOccurrence) g)

/-- scip.go:129-161: the logs of the files in the order in which they are visited; the log of the run is their concatenation. -/
def documentLogs (D : Deps) (ord : MapOrders) (w : Writer) (heap : Impl.Heap) (docs : Docs) :
    List (Package × SourceFile) → Global → List Message → List (List Record)
  | [], _, _ => []
  | (p, f) :: rest, g, done =>
    match docs.get f.fileName with
    | none => documentLogs D ord w heap docs rest g done
    | some d =>
      visitFileLog D ord done.length p f d g ::
        match visitFile D ord heap done.length p f d g with
        | none => []
        | some (m, g) =>
          match w done m with
          | some _ => []
          | none => documentLogs D ord w heap docs rest g (done ++ [m])

/-- scip.go:84-178 `Index`: the logs of the files that are visited. -/
def indexLogs (D : Deps) (o : Opts) (ord : MapOrders) (w : Writer) (loaded : Except Str (GoMap Package × GoMap Package)) : List (List Record) :=
  let m := Message.metadata (metadata D o)
  match w [] m with
  | some _ => []
  | none =>
    match loaded with
    | .error _ => []
    | .ok (project, all) =>
      match indexVisitPackages o ord project all with
      | none => []
      | some (docs, g) =>
        match implementations D o ord project all g with
        | none => []
        | some (g, heap, _) => documentLogs D ord w heap docs (filesOf (sortedValues project)) g [m]

end Verif.Log
