import Verif.Model.Str
/-!
# Type-checker objects (go/types, dependency)

Only what the modelled code observes: the class of an object, its name, the path of its package, its
position, its pointer identity, and the few facts about its type that are inspected.
-/
namespace Verif

/-- The underlying type of a declared type, as far as it is inspected
(composer.go:223-229, kind.go:33-42): the fields of a struct (identities of the `*types.Var`s in order),
an interface, or anything else. -/
inductive Under where
  | struct (fields : List Nat)
  | iface
  | other
  deriving DecidableEq, Repr

/-- `types.TypeName.Type()` (composer.go:218, kind.go:30-42): a defined type, an alias (whose target has
the given underlying type), a type parameter, or a basic type of the universe. -/
inductive TNType where
  | named (u : Under)
  | alias (u : Under)
  | typeParam
  | basic
  deriving DecidableEq, Repr

/-- A receiver type as inspected by `nameType` (composer.go:163-174) and `types.IsInterface`
(kind.go:24). -/
inductive RecvTy where
  | alias (rhs : RecvTy)
  | pointer (elem : RecvTy)
  | named (name : Str) (isIface : Bool)
  | ifaceLit
  | other
  deriving DecidableEq, Repr

/-- The classes of `types.Object`.  `func none` stands for a `*types.Func` whose type is not a
`*types.Signature` (the `!ok` branches in composer.go:124-127 and kind.go:17-20); `func (some none)` has no receiver. -/
inductive ObjClass where
  | pkgName (imported : Str)
  | typeName (ty : TNType)
  | const
  | func (sig : Option (Option RecvTy))
  | var (isField : Bool)
  | label
  | builtin
  | nil
  deriving DecidableEq, Repr

/-- A `types.Object`: `id` is the pointer identity, `pkg` is `Pkg().Path()` or `none` for a nil package
(universe objects), `pos` is `Pos()`. -/
structure ObjData where
  id : Nat
  cls : ObjClass
  name : Str
  pkg : Option Str
  pos : Nat
  deriving DecidableEq, Repr

/-- An object together with what `Origin()` returns for it (itself unless it is an instantiated field
or method of a generic type). -/
structure Obj where
  self : ObjData
  origin : ObjData
  deriving DecidableEq, Repr

/-- A non-instantiated object. -/
def Obj.plain (o : ObjData) : Obj := ⟨o, o⟩

/-- `pkg.Scope()`: the package scope as the list of its objects in the order of `Scope.Names()` (sorted by name). -/
abbrev Scopes := Str → List ObjData

/-- internal/visitors, internal/loader: what the symbol builders read from a `*packages.Package` module:
`pkg.Module.Path` and `pkg.Module.Version`. `none` = nil Module. -/
structure ModIdent where
  path : Str
  version : Str
  deriving DecidableEq, Repr

end Verif
