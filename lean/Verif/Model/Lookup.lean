import Verif.Model.Ast
import Verif.Model.Unicode
/-!
# internal/lookup/lookup.go, internal/lookup/local.go, internal/newtypes/newtypes.go

A `PackageID` is the package's import path (newtypes.go:13-19: `GetID` and `GetFromTypesPackage` both return the path).
The mutex is not modelled here (see Model/ConcurrentLookup.lean).  `builtinSymbols` (lookup.go:119, 130) is never written, so the lookup in it never succeeds and is left out.
-/
namespace Verif

/-- lookup.go:32-35 `Package`: the module of `pkg` (none = nil module) and the declaration table. -/
structure PkgRecord where
  module : Option ModIdent
  table : Table
  deriving DecidableEq, Repr

/-- lookup.go:75-80 `Global`, together with the process-wide set `skippedTypes` (lookup.go:118) that
`GetSymbolOfObject` uses.  Maps are association lists, newest entry first. -/
structure Global where
  symbols : List (Str × PkgRecord)
  pkgSymbols : List (Str × Str)
  composer : Composer
  skipped : List Str

namespace Global

/-- lookup.go:86-90 `Add`. -/
def add (g : Global) (path : Str) (r : PkgRecord) : Global := { g with symbols := (path, r) :: g.symbols }

/-- lookup.go:92-102 `SetPkgSymbol` (the module is not nil, see `PkgEnv`). -/
def setPkgSymbol (g : Global) (path : Str) (m : ModIdent) : Global × Str :=
  let sym := formatSymbol ⟨m.path, m.version⟩ [⟨path, .nspace⟩]
  ({ g with pkgSymbols := (path, sym) :: g.pkgSymbols, symbols := (path, ⟨some m, []⟩) :: g.symbols }, sym)

/-- lookup.go:104-111 `GetPkgSymbolByID` and `GetPkgSymbol`. -/
def getPkgSymbol (g : Global) (path : Str) : Option Str := g.pkgSymbols.lookup path

/-- lookup.go:201-214 `getSymbolInformationByPath` and `GetSymbolInformation`. -/
def getSymbolInformation (g : Global) (path : Str) (pos : Nat) : Option SymInfo :=
  (g.symbols.lookup path).bind (fun r => r.table.get pos)

/-- lookup.go:216-223 `GetSymbol`. -/
def getSymbol (g : Global) (path : Str) (pos : Nat) : Option Str :=
  (g.getSymbolInformation path pos).map (·.symbol)

end Global

/-- `types.Object.Id()` (dependency, go/types `Id`): exported names stand for themselves, others are qualified by the
package path, `_` standing for a missing or empty path. -/
def ObjData.objId (o : ObjData) : Str :=
  if isExported o.name then o.name
  else (match o.pkg with
    | none => go!"_"
    | some p => if p = [] then go!"_" else p) ++ '.' :: o.name

/-- What `GetSymbolOfObject` can do. -/
inductive Found where
  | info (i : SymInfo)
  | skip
  | error
  | panic
  deriving DecidableEq, Repr

/-- lookup.go:225-231 `testPackageCombinations`. -/
def testPackageCombinations (path : Str) : List Str :=
  [path, path ++ go!".test", path ++ go!" [" ++ path ++ go!".test]"]

/-- `orig.FullName() == "(error).Error"` (lookup.go:153-159): the method `Error` of the predeclared type `error`. -/
def isErrorError (o : ObjData) : Bool :=
  match o.cls with
  | .func (some (some (.named n _))) => n == go!"error" && o.name == go!"Error"
  | _ => false

/-- The symbol information lookup.go:183 makes for a composed symbol. -/
def composedInfo (sym : Str) : SymInfo := ⟨sym, .unspecified, [], [], none⟩

/-- lookup.go:125-199 `GetSymbolOfObject`. -/
def Global.getSymbolOfObject (scopes : Scopes) (g : Global) (obj : Obj) : Global × Found :=
  let o := obj.self
  if o.objId ∈ g.skipped then (g, .skip)
  else
    match o.cls with
    | .pkgName _ => (g, .panic)
    | .nil => (g, .skip)
    | .label => (g, .skip)
    | cls =>
      match o.pkg with
      | none =>
        match cls with
        | .typeName _ => ({ g with skipped := o.objId :: g.skipped }, .skip)
        | .const => (g, .skip)
        | .builtin => (g, .skip)
        | .func _ => if isErrorError obj.origin then (g, .skip) else (g, .panic)
        | _ => (g, .panic)
      | some path =>
        if path = go!"unsafe" then (g, .skip)
        else
          match (testPackageCombinations path).findSome? (fun c => g.getSymbolInformation c o.pos) with
          | some info => (g, .info info)
          | none =>
            match g.symbols.lookup path with
            | some r =>
              let (c, sym) := g.composer.compose scopes (some r.module) (some obj)
              if sym = [] then ({ g with composer := c }, .error)
              else ({ g with composer := c }, .info (composedInfo sym))
            | none => (g, .error)

end Verif
