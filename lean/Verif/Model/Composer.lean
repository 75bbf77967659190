import Verif.Model.Symbol
import Verif.Model.Types
/-!
# internal/symbols/composer.go and internal/symbols/kind.go
-/
namespace Verif

/-- composer.go:163-174 `nameType`: strip aliases and pointers, return the defined type's name or "". -/
def nameType : RecvTy → Str
  | .alias t => nameType t
  | .pointer t => nameType t
  | .named n _ => n
  | .ifaceLit => []
  | .other => []

/-- composer.go:211-237 `locateOwner`: the first type name in scope order whose type is a defined struct
type that has this very field. -/
def locateOwner (scope : List ObjData) (field : Nat) : Option ObjData :=
  scope.find? fun o =>
    match o.cls with
    | .typeName (.named (.struct fs)) => fs.contains field
    | _ => false

/-- composer.go:47-59 and 88-209: the descriptors for an object (already replaced by its origin);
the empty list stands for "no symbol".  `pkg` is the path of the object's package, known to be non-nil
here (composer.go:29-31). -/
def describe (scopes : Scopes) (pkg : Str) (o : ObjData) : List Descriptor :=
  match o.cls with
  | .pkgName imported => [⟨imported, .nspace⟩]
  | .typeName _ => [⟨pkg, .nspace⟩, ⟨o.name, .typ⟩]
  | .const => [⟨pkg, .nspace⟩, ⟨o.name, .term⟩]
  | .func none => []
  | .func (some none) => [⟨pkg, .nspace⟩, ⟨o.name, .method⟩]
  | .func (some (some recv)) =>
    if nameType recv = [] then []
    else [⟨pkg, .nspace⟩, ⟨nameType recv, .typ⟩, ⟨o.name, .method⟩]
  | .var false => [⟨pkg, .nspace⟩, ⟨o.name, .term⟩]
  | .var true =>
    match locateOwner (scopes pkg) o.id with
    | none => []
    | some owner => [⟨pkg, .nspace⟩, ⟨owner.name, .typ⟩, ⟨o.name, .term⟩]
  | .label => []
  | .builtin => []
  | .nil => []

/-- composer.go:33-38: `Var` and `Func` are replaced by their origin. -/
def Obj.canon (o : Obj) : ObjData :=
  match o.self.cls with
  | .var _ => o.origin
  | .func _ => o.origin
  | _ => o.self

/-- composer.go:11-17 `Composer`.  The mutex is in Model/ConcurrentComposer.lean; here calls are made
one after the other. -/
structure Composer where
  defaultModulePath : Str
  defaultModuleVersion : Str
  compositions : List (Nat × Str) := []
  deriving Repr

/-- A fresh composer (composer.go:19-26 `NewComposer`). -/
def newComposer (path version : Str) : Composer := ⟨path, version, []⟩

/-- composer.go:72-86 `pack`; the outer `none` is a nil package, the inner one a nil module. -/
def Composer.pack (c : Composer) : Option (Option ModIdent) → ScipPackage
  | some (some m) => ⟨m.path, m.version⟩
  | _ => ⟨c.defaultModulePath, c.defaultModuleVersion⟩

/-- composer.go:28-70 `Compose`: returns the updated memo table and the symbol ("" = no symbol).
The package of the object is taken from the object itself (composer.go:29) and stays the same for its origin. -/
def Composer.compose (scopes : Scopes) (c : Composer) (pkg : Option (Option ModIdent))
    (obj : Option Obj) : Composer × Str :=
  match obj with
  | none => (c, [])
  | some obj =>
    match obj.self.pkg with
    | none => (c, [])
    | some path =>
      let o := obj.canon
      match c.compositions.lookup o.id with
      | some s => (c, s)
      | none =>
        let ds := describe scopes path o
        if ds = [] then (c, [])
        else
          let s := formatSymbol (c.pack pkg) ds
          ({ c with compositions := (o.id, s) :: c.compositions }, s)

/-- `scip.SymbolInformation_Kind`, the values used in kind.go and scip.go:222. -/
inductive Kind where
  | unspecified | function | method | methodSpecification | typeAlias | struct | interface
  | typeParameter | type | field | variable | constant | package
  deriving DecidableEq, Repr

/-- `types.IsInterface` on a receiver type (kind.go:24). -/
def RecvTy.isInterface : RecvTy → Bool
  | .alias t => t.isInterface
  | .pointer _ => false
  | .named _ b => b
  | .ifaceLit => true
  | .other => false

/-- kind.go:33 `obj.Type().Underlying().(type)`.  For a type parameter go/types returns the constraint
interface as the underlying type, so the `*types.TypeParam` case of kind.go:38-39 is never selected
(the snapshots in internal/testdata show `kind Interface` for type parameters). -/
def kindOfUnder : TNType → Kind
  | .named (.struct _) => .struct
  | .named .iface => .interface
  | .named .other => .type
  | .alias (.struct _) => .struct
  | .alias .iface => .interface
  | .alias .other => .type
  | .typeParam => .interface
  | .basic => .type

/-- kind.go:10-59 `KindForObject`. -/
def kindForObject : Option ObjData → Kind
  | none => .unspecified
  | some o =>
    match o.cls with
    | .func none => .function
    | .func (some none) => .function
    | .func (some (some recv)) => if recv.isInterface then .methodSpecification else .method
    | .typeName ty =>
      match ty with
      | .alias _ => .typeAlias
      | _ => kindOfUnder ty
    | .var isField => if isField then .field else .variable
    | .const => .constant
    | .pkgName _ => .package
    | .label => .unspecified
    | .builtin => .unspecified
    | .nil => .unspecified

end Verif
