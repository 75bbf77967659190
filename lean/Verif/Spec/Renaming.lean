import Verif.Spec.Program
/-!
# Specification: the same program at other addresses

Files are parsed and packages are type-checked concurrently, so the places that files get in the file set (`token.Pos` counts from the
first byte of the first file), the addresses of identifiers and objects and the numbers of files differ from run to run.  Two deliveries
of one program are related by a renaming of all these.
-/
namespace Verif.Spec
open Verif.Index

/-- New numbers for positions in the file set, identifiers and import specs, objects and files; different ones stay different. -/
structure Renaming where
  pos : Nat → Nat
  ident : Nat → Nat
  obj : Nat → Nat
  file : Nat → Nat
  pos_inj : ∀ a b, pos a = pos b → a = b
  ident_inj : ∀ a b, ident a = ident b → a = b
  obj_inj : ∀ a b, obj a = obj b → a = b
  file_inj : ∀ a b, file a = file b → a = b

variable (ρ : Renaming)

/-! ## Syntax -/

def renIdent (i : Ident) : Ident := ⟨ρ.ident i.uid, i.name, ρ.pos i.pos⟩

mutual
/-- A syntax tree with new numbers. -/
def renNode : Node → Node
  | .ident i => .ident (renIdent ρ i)
  | .selector x sel => .selector (renNode x) (renIdent ρ sel)
  | .star x => .star (renNode x)
  | .paren x => .paren (renNode x)
  | .index x is => .index (renNode x) (renNodes is)
  | .unary x => .unary (renNode x)
  | .arrayT len elt => .arrayT (renNodes len) (renNode elt)
  | .mapT k v => .mapT (renNode k) (renNode v)
  | .chanT v => .chanT (renNode v)
  | .funcT tps ps rs => .funcT (renNodes tps) (renNodes ps) (renNodes rs)
  | .structT fs => .structT (renNodes fs)
  | .ifaceT ms => .ifaceT (renNodes ms)
  | .field pos names typ doc comment => .field (ρ.pos pos) (names.map (renIdent ρ)) (renNode typ) doc comment
  | .block ss => .block (renNodes ss)
  | .importSpec uid name pathPos => .importSpec (ρ.ident uid) (name.map (renIdent ρ)) (ρ.pos pathPos)
  | .typeSpec name tps typ doc => .typeSpec (renIdent ρ name) (renNodes tps) (renNode typ) doc
  | .valueSpec pos names typ values doc comment =>
    .valueSpec (ρ.pos pos) (names.map (renIdent ρ)) (renNodes typ) (renNodes values) doc comment
  | .genDecl tok specs doc => .genDecl tok (renNodes specs) doc
  | .funcDecl recv name typ body pos endPos doc =>
    .funcDecl (renNodes recv) (renIdent ρ name) (renNode typ) (renNodes body) (ρ.pos pos) (ρ.pos endPos) doc
  | .badDecl => .badDecl
  | .file name decls => .file (renIdent ρ name) (renNodes decls)
  | .other cs => .other (renNodes cs)

def renNodes : List Node → List Node
  | [] => []
  | n :: ns => renNode n :: renNodes ns
end

mutual
/-- All identifiers of a syntax tree. -/
def nodeIdents : Node → List Ident
  | .ident i => [i]
  | .selector x sel => nodeIdents x ++ [sel]
  | .star x => nodeIdents x
  | .paren x => nodeIdents x
  | .index x is => nodeIdents x ++ nodesIdents is
  | .unary x => nodeIdents x
  | .arrayT len elt => nodesIdents len ++ nodeIdents elt
  | .mapT k v => nodeIdents k ++ nodeIdents v
  | .chanT v => nodeIdents v
  | .funcT tps ps rs => nodesIdents tps ++ nodesIdents ps ++ nodesIdents rs
  | .structT fs => nodesIdents fs
  | .ifaceT ms => nodesIdents ms
  | .field _ names typ _ _ => names ++ nodeIdents typ
  | .block ss => nodesIdents ss
  | .importSpec _ name _ => name.toList
  | .typeSpec name tps typ _ => name :: nodesIdents tps ++ nodeIdents typ
  | .valueSpec _ names typ values _ _ => names ++ nodesIdents typ ++ nodesIdents values
  | .genDecl _ specs _ => nodesIdents specs
  | .funcDecl recv name typ body _ _ _ => nodesIdents recv ++ [name] ++ nodeIdents typ ++ nodesIdents body
  | .badDecl => []
  | .file _ decls => nodesIdents decls
  | .other cs => nodesIdents cs

def nodesIdents : List Node → List Ident
  | [] => []
  | n :: ns => nodeIdents n ++ nodesIdents ns
end

/-- A file with new numbers. -/
def renFile (f : SourceFile) : SourceFile :=
  { f with file := ρ.file f.file, name := renIdent ρ f.name, decls := renNodes ρ f.decls }

/-- The file is moved as a whole: its bytes keep their distance. -/
def MovedAsWhole (f : SourceFile) : Prop :=
  ∃ base base' size, (∀ k ≤ size, ρ.pos (base + k) = base' + k) ∧
    ∀ i ∈ nodesIdents f.decls, base ≤ i.pos ∧ i.pos + i.name.length ≤ base + size

/-! ## Objects and types -/

def renUnder : Under → Under
  | .struct fields => .struct (fields.map ρ.obj)
  | .iface => .iface
  | .other => .other

def renClass : ObjClass → ObjClass
  | .typeName (.named u) => .typeName (.named (renUnder ρ u))
  | .typeName (.alias u) => .typeName (.alias (renUnder ρ u))
  | c => c

def renData (o : ObjData) : ObjData := ⟨ρ.obj o.id, renClass ρ o.cls, o.name, o.pkg, ρ.pos o.pos⟩

def renObj (o : Obj) : Obj := ⟨renData ρ o.self, renData ρ o.origin⟩

def renMethod (m : Impl.Method) : Impl.Method := { m with obj := renObj ρ m.obj }

def renNamed (n : Impl.NamedT) : Impl.NamedT := { n with methods := n.methods.map (renMethod ρ) }

def renTypeDef (t : Impl.TypeDef) : Impl.TypeDef := { t with obj := renData ρ t.obj, named := t.named.map (renNamed ρ) }

/-! ## Packages and programs -/

/-- What the type checker and the file set know about a package is the same for the new numbers. -/
structure RenamedEnv (e e' : PkgEnv) : Prop where
  pkgPath : e'.pkgPath = e.pkgPath
  module : e'.module = e.module
  defs : ∀ u, e'.defs (ρ.ident u) = (e.defs u).map (renObj ρ)
  uses : ∀ u, e'.uses (ρ.ident u) = (e.uses u).map (renObj ρ)
  anonKey : ∀ n, e'.anonKey (renNode ρ n) = e.anonKey n
  signature : ∀ o, e'.signature (renObj ρ o) = e.signature o
  position : ∀ q, e'.position (ρ.pos q) = e.position q

/-- `p'` is the package `p` with new numbers. -/
structure RenamedPackage (p p' : Package) : Prop where
  env : RenamedEnv ρ p.env p'.env
  name : p'.name = p.name
  files : p'.files = p.files.map (renFile ρ)
  moved : ∀ f ∈ p.files, MovedAsWhole ρ f
  implicits : p'.implicits = p.implicits.map (renObj ρ)
  pkgNameOf : ∀ u, p'.pkgNameOf (ρ.ident u) = p.pkgNameOf u
  imports : p'.imports = p.imports
  defs : p'.defs = p.defs.map fun ds => ds.map fun t => t.map (renTypeDef ρ)
  scope : p'.scope = p.scope.map fun ds => ds.map fun t => t.map (renTypeDef ρ)

/-- The same for the questions that are asked about the whole program. -/
structure RenamedDeps (D D' : Deps) : Prop where
  scopes : ∀ path, D'.scopes path = (D.scopes path).map (renData ρ)
  objectString : ∀ o, D'.objectString (renObj ρ o) = D.objectString o
  fileOf : ∀ q, D'.fileOf (ρ.pos q) = (D.fileOf q).map ρ.file
  ext : D'.ext = D.ext
  escapePath : D'.escapePath = D.escapePath
  toolVersion : D'.toolVersion = D.toolVersion

/-- `m'` has the same packages as `m`, with new numbers. -/
def RenamedMap (m m' : GoMap Package) : Prop := List.Forall₂ (fun e e' => e'.1 = e.1 ∧ RenamedPackage ρ e.2 e'.2) m m'

/-- `d'` delivers the same packages as `d`, with new numbers. -/
structure RenamedProgram (d d' : Program.Delivered) : Prop where
  packages : ∀ i, RenamedPackage ρ (d.package i) (d'.package i)
  info : d'.info = d.info
  imports : d'.imports = d.imports
  roots : d'.roots = d.roots

end Verif.Spec
