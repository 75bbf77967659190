import Verif.Model.TypeString
import Verif.Model.Document
/-!
# Signature texts: internal/document/document.go:207-329, internal/lookup/local.go and go/types `ObjectString`

`types.ObjectString` is not in the sandbox; it is re-modelled from the published source of go/types/object.go (`writeObject`) and
typestring.go, cross-checked against internal/testdata/snapshots/output.  `gofmt` is `go/format.Source`, `quote`/`unquote` are those of strconv;
all three are parameters.
-/
namespace Verif.Sign
open Ts

/-- A `*types.Package`: pointer identity, path and name. -/
structure Pkg where
  id : Nat
  path : Str
  name : Str
  deriving DecidableEq

/-- A list of type parameters: consecutive parameters declared with one constraint form a group. -/
abbrev TParams := List (List Str × TExpr Pkg)

/-- The receiver of a method: an interface literal (its text is not printed), the declared type of a method declaration with its type
parameters (`ptr`: behind a pointer), or another type (an instance; it does not occur in definitions). -/
inductive Recv where
  | iface
  | named (ptr : Bool) (pkg : Option Pkg) (name : Str) (tparams : TParams)
  | typ (t : TExpr Pkg)

/-- What a `*types.TypeName` declares: a basic type of the universe, a type parameter (its constraint, and the interface that underlies it),
a defined type, an alias (`*types.Alias`), or an alias for which the type checker keeps no `*types.Alias` (GODEBUG=gotypealias=0): its type
and the underlying type. -/
inductive TDecl where
  | basic
  | tparam (bound under : TExpr Pkg)
  | defined (tparams : TParams) (under : TExpr Pkg)
  | alias (tparams : TParams) (rhs : TExpr Pkg)
  | oldAlias (typ under : TExpr Pkg)

/-- The classes of objects with what is printed about them.  `imported`: the path of the imported package, if it is known. -/
inductive Cls where
  | pkgName (imported : Option Str)
  | typeName (d : TDecl)
  | const (t : TExpr Pkg) (val : Str)
  | var (isField : Bool) (t : TExpr Pkg)
  | func (recv : Option Recv) (tparams : TParams) (sig : Sig Pkg)
  | label
  | builtin
  | nil

/-- A `types.Object`; `top`: it is in the scope of its package. -/
structure View where
  pkg : Option Pkg
  top : Bool
  name : Str
  cls : Cls

/-- typestring.go `tParamList`. -/
def tparamList (quote : Str → Str) (qf : Pkg → Str) (tps : TParams) : Str :=
  '[' :: (Str.join go!", " (tps.map (fun g => Str.join go!", " (g.1.map tparamText) ++ ' ' :: render quote qf g.2)) ++ [']'])

/-- `tParamList` where it is called: nothing without type parameters. -/
def optTParams (quote : Str → Str) (qf : Pkg → Str) (tps : TParams) : Str := if tps = [] then [] else tparamList quote qf tps

/-- typestring.go `typ` on the receiver, object.go `writeFuncName`. -/
def recvText (quote : Str → Str) (qf : Pkg → Str) : Recv → Str
  | .iface => go!"interface"
  | .named ptr pkg name tps => (if ptr then ['*'] else []) ++ (typeName qf pkg name ++ optTParams quote qf tps)
  | .typ t => render quote qf t

/-- object.go `writeFuncName`. -/
def funcName (quote : Str → Str) (qf : Pkg → Str) (v : View) : Option Recv → Str
  | some r => '(' :: (recvText quote qf r ++ go!").") ++ v.name
  | none => typeName qf v.pkg v.name

/-- object.go `writeObject`: the name, qualified for objects of the package scope. -/
def objName (qf : Pkg → Str) (v : View) : Str := typeName qf (if v.top then v.pkg else none) v.name

/-- object.go `writeObject`, after the name of a type name. -/
def declText (quote : Str → Str) (qf : Pkg → Str) : TDecl → Str
  | .basic => []
  | .tparam bound _ => ' ' :: render quote qf bound
  | .defined tps under => optTParams quote qf tps ++ ' ' :: render quote qf under
  | .alias tps rhs => optTParams quote qf tps ++ go!" = " ++ render quote qf rhs
  | .oldAlias typ _ => go!" = " ++ render quote qf typ

/-- object.go `writeObject` (`types.ObjectString`); the special case of the universe's `any` is left out (it is never indexed). -/
def objectString (quote : Str → Str) (qf : Pkg → Str) (v : View) : Str :=
  match v.cls with
  | .pkgName imported => go!"package " ++ v.name ++ (match imported with
      | none => []
      | some p => if p ≠ [] ∧ p ≠ v.name then go!" (" ++ quote p ++ go!")" else [])
  | .typeName d => (match d with | .tparam _ _ => go!"type parameter " | _ => go!"type ") ++ objName qf v ++ declText quote qf d
  | .const t _ => go!"const " ++ objName qf v ++ ' ' :: render quote qf t
  | .var isField t => (if isField then go!"field " else go!"var ") ++ objName qf v ++ ' ' :: render quote qf t
  | .func recv tps sig => go!"func " ++ funcName quote qf v recv ++ (optTParams quote qf tps ++ renderSig quote qf sig)
  | .label => go!"label " ++ objName qf v
  | .builtin => go!"builtin " ++ objName qf v
  | .nil => go!"nil"

/-- document.go:207-214 `relativeQualifier`. -/
def relativeQualifier (pkg : Option Pkg) (other : Pkg) : Str := if pkg = some other then [] else other.name

/-- strings.ReplaceAll(s, "\t", indent) (document.go:327, 24). -/
def expandTabs : Str → Str
  | [] => []
  | c :: r => if c = '\t' then go!"    " ++ expandTabs r else c :: expandTabs r

/-- document.go:319-329 `formatGoDecl`; none is an error. -/
def formatGoDecl (gofmt : Str → Option Str) (decl : Str) : Option Str :=
  match gofmt (go!"package p\n\n" ++ decl ++ go!"\n") with
  | none => none
  | some formatted => some (expandTabs (Str.trimSpace (Str.trimPrefix formatted go!"package p\n\n")))

/-- document.go:308: the type is a struct or an interface literal.  (The empty interface of the universe, printed `any`, is one too; gofmt
leaves it as it is.) -/
def expands : TExpr Pkg → Bool
  | .struct _ => true
  | .iface _ _ => true
  | _ => false

/-- document.go:304-315 `expandTypeExpr`. -/
def expandTypeExpr (gofmt : Str → Option Str) (quote : Str → Str) (pkg : Option Pkg) (t : TExpr Pkg) : Str :=
  let raw := render quote (relativeQualifier pkg) t
  if expands t then
    match formatGoDecl gofmt (go!"type _ " ++ raw) with
    | some formatted => Str.trimPrefix formatted go!"type _ "
    | none => raw
  else raw

/-- document.go:283-300 `formatTypeParamList`; `String()` of a type writes packages by path. -/
def formatTypeParamList (quote : Str → Str) (tps : TParams) : Str :=
  let ps := tps.flatMap (fun g => g.1.map (fun n => (n, g.2)))
  if ps = [] then []
  else '[' :: (Str.join go!", " (ps.map (fun p => p.1 ++ ' ' :: render quote Pkg.path p.2)) ++ [']'])

/-- document.go:252-279 `formatAliasDeclaration`, with the fallback at its end. -/
def formatAliasDeclaration (gofmt : Str → Option Str) (quote : Str → Str) (v : View) : TDecl → Str
  | .alias tps rhs =>
    let lhs := v.name ++ formatTypeParamList quote tps
    match rhs with
    | .ref _ _ _ => go!"type " ++ lhs ++ go!" = " ++ render quote (relativeQualifier v.pkg) rhs
    | _ => go!"type " ++ lhs ++ go!" = " ++ expandTypeExpr gofmt quote v.pkg rhs
  | .oldAlias _ under => go!"type " ++ v.name ++ ' ' :: expandTypeExpr gofmt quote v.pkg under
  | _ => []

/-- document.go:243-249 `formatTypeDeclaration`; the underlying type of a basic type is itself. -/
def formatTypeDeclaration (gofmt : Str → Option Str) (quote : Str → Str) (v : View) : TDecl → Str
  | .alias tps rhs => formatAliasDeclaration gofmt quote v (.alias tps rhs)
  | .oldAlias typ under => formatAliasDeclaration gofmt quote v (.oldAlias typ under)
  | .basic => go!"type " ++ v.name ++ ' ' :: expandTypeExpr gofmt quote v.pkg (.ref none v.name .nil)
  | .tparam _ under => go!"type " ++ v.name ++ ' ' :: expandTypeExpr gofmt quote v.pkg under
  | .defined _ under => go!"type " ++ v.name ++ ' ' :: expandTypeExpr gofmt quote v.pkg under

/-- document.go:216-237 `typeStringForObject`. -/
def typeStringForObject (gofmt : Str → Option Str) (quote : Str → Str) (unquote : Str → Option Str) (v : View) : Str :=
  let qual := relativeQualifier v.pkg
  match v.cls with
  | .pkgName _ => go!"package " ++ v.name
  | .typeName d => formatTypeDeclaration gofmt quote v d
  | .var true _ => go!"struct " ++ quotedTagsToBacktick unquote (objectString quote qual v)
  | .const _ val => objectString quote qual v ++ go!" = " ++ val
  | _ => objectString quote qual v

/-- local.go:12-23 `SignatureText`; none: no object. -/
def localSignature (quote : Str → Str) (obj : Option View) : Str :=
  match obj with
  | none => []
  | some v =>
    match v.cls with
    | .pkgName (some path) => go!"import " ++ v.name ++ ' ' :: path
    | .pkgName none => go!"import " ++ v.name
    | _ => objectString quote (fun _ => []) v

end Verif.Sign
