import Verif.Spec.Text
import Verif.Spec.Syntax
import Verif.Model.Index
import Verif.Spec.Program
/-!
# Specification: programs whose texts are UTF-8

Every name, comment, path and version that the go command, the parser and the type checker deliver is UTF-8.
-/
namespace Verif.Spec
open Verif.Index

/-- The names and comments of a syntax node itself. -/
def ownTexts : Node → List Str
  | .ident i => [i.name]
  | .selector _ sel => [sel.name]
  | .field _ names _ doc comment => doc :: comment :: names.map (·.name)
  | .importSpec _ name _ => name.toList.map (·.name)
  | .typeSpec name _ _ doc => [name.name, doc]
  | .valueSpec _ names _ _ doc comment => doc :: comment :: names.map (·.name)
  | .genDecl _ _ doc => [doc]
  | .funcDecl _ name _ _ _ _ doc => [name.name, doc]
  | .file name _ => [name.name]
  | _ => []

/-- All names and comments in a syntax tree are UTF-8. -/
inductive NodeText : Node → Prop
  | mk (n : Node) : (∀ t ∈ ownTexts n, Text t) → (∀ c ∈ children n, NodeText c) → NodeText n

/-- The name of a receiver type. -/
def RecvText : RecvTy → Prop
  | .alias t => RecvText t
  | .pointer t => RecvText t
  | .named n _ => Text n
  | .ifaceLit => True
  | .other => True

/-- The texts of an object of the type checker: its name, the path of its package, of the imported package, the name of its receiver. -/
structure ObjDataText (o : ObjData) : Prop where
  name : Text o.name
  pkg : ∀ q, o.pkg = some q → Text q
  imported : ∀ q, o.cls = .pkgName q → Text q
  receiver : ∀ t, o.cls = .func (some (some t)) → RecvText t

structure ObjText (o : Obj) : Prop where
  self : ObjDataText o.self
  origin : ObjDataText o.origin

/-- The texts of a package. -/
structure PackageText (D : Deps) (p : Package) : Prop where
  path : Text p.env.pkgPath
  modulePath : Text p.env.module.path
  moduleVersion : Text p.env.module.version
  name : Text p.name
  fileName : ∀ f ∈ p.files, Text f.fileName
  syntaxTree : ∀ f ∈ p.files, NodeText (.file f.name f.decls)
  fileDoc : ∀ f ∈ p.files, ∀ t, f.doc = some t → Text t
  defs : ∀ u o, p.env.defs u = some o → ObjText o
  uses : ∀ u o, p.env.uses u = some o → ObjText o
  implicits : ∀ o ∈ p.implicits, ObjText o
  /-- how the objects that are declared are printed -/
  signature : ∀ u o, p.env.defs u = some o → Text (p.env.signature o) ∧ Text (D.objectString o)
  /-- the key of an anonymous type (hexadecimal digits) -/
  anonKey : ∀ n, Text (p.env.anonKey n)
  types : ∀ ds, p.defs = some ds ∨ p.scope = some ds → ∀ t, some t ∈ ds → ObjDataText t.obj ∧ ∀ n, t.named = some n → ∀ m ∈ n.methods, ObjText m.obj

/-- The texts that do not come from packages: the names in package scopes, the version of the program, the directory in the form of a URL,
the options. -/
structure SurroundingText (D : Deps) (o : Opts) : Prop where
  scopes : ∀ q, ∀ x ∈ D.scopes q, ObjDataText x
  toolVersion : Text D.toolVersion
  url : ∀ s, Text s → Text (D.escapePath s)
  root : Text o.moduleRoot
  version : Text o.moduleVersion
  arguments : ∀ a ∈ o.arguments, Text a

/-- The texts of a program that the go command delivers: those of its packages, of replacements of modules, of go.mod files and options. -/
structure ProgramText (d : Program.Delivered) (D : Deps) (env : Loader.Env) (o : Cmd.IndexOpts) : Prop where
  surroundings : SurroundingText D (Program.indexOpts o)
  modulePath : Text o.modulePath
  goVersion : Text o.goStdlibVersion
  packages : ∀ i, Loader.Spec.Reachable d.graph i → PackageText D (asDelivered d i)
  replaced : ∀ i, Loader.Spec.Reachable d.graph i → ∀ m r, (d.info i).module = some m → m.replace = some r → Text r.path ∧ Text r.version
  goMod : ∀ f path version, env.readMod f = .parsed path version → Text path ∧ Text version

end Verif.Spec
