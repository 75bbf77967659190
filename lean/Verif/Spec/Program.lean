import Verif.Model.Program
import Verif.Spec.Loader
import Verif.Spec.Types
/-!
# Specification: a program as the go command, the parser and the type checker deliver it

Nothing here refers to loading, normalising or indexing.
-/
namespace Verif.Program

/-- The delivered packages with their imports, as a graph. -/
def Delivered.graph (d : Delivered) : Loader.Graph where
  files := fun i => (d.package i).files.length
  imports := fun i => (d.imports i).map (·.2)
  roots := d.roots

end Verif.Program

namespace Verif.Spec
open Verif.Index Verif.Program Verif.Loader.Spec

variable (d : Delivered)

/-- The package belongs to the project: it is reachable and has the import path of a matched package (it may be another variant of it). -/
def InProject (i : Nat) : Prop := Reachable d.graph i ∧ ∃ r ∈ d.roots, (d.info r).path = (d.info i).path

/-- Import paths that stand for a package: those of the reachable packages, and `builtin`. -/
def PathKnown (q : Str) : Prop := q = go!"builtin" ∨ ∃ i, Reachable d.graph i ∧ (d.info i).path = q

open Classical in
/-- The same as a function. -/
noncomputable def pathKnown (q : Str) : Bool := decide (PathKnown d q)

/-- The names of the source files of a package. -/
def fileNames (i : Nat) : List Str := (d.package i).files.map (·.fileName)

/-- How the go command forms the variants of a package (packages with the same import path): only packages matched by the patterns
have variants with more files (their test files), and a variant with at least as many files has the files and the imports of the
other one. -/
structure GoVariants : Prop where
  largest : ∀ i j, Reachable d.graph i → Reachable d.graph j → (d.info i).path = (d.info j).path →
    (d.package j).files.length ≤ (d.package i).files.length ∨
    ∃ r ∈ d.roots, (d.info r).path = (d.info i).path ∧ (d.package j).files.length ≤ (d.package r).files.length
  files_nested : ∀ i j, Reachable d.graph i → Reachable d.graph j → (d.info i).path = (d.info j).path →
    (d.package i).files.length ≤ (d.package j).files.length → ∀ f ∈ fileNames d i, f ∈ fileNames d j
  imports_nested : ∀ i j, Reachable d.graph i → Reachable d.graph j → (d.info i).path = (d.info j).path →
    (d.package i).files.length ≤ (d.package j).files.length →
    ∀ a ∈ d.graph.imports i, ∃ b ∈ d.graph.imports j, (d.info b).path = (d.info a).path
  /-- a package called `builtin` without source files imports nothing -/
  builtin : ∀ i, Reachable d.graph i → (d.info i).path = go!"builtin" → (d.package i).files = [] → d.imports i = []

/-- A package as it is delivered: its import path and module, and what its imports stand for. -/
def asDelivered (i : Nat) : Package :=
  { d.package i with
    env := { (d.package i).env with
      pkgPath := (d.info i).path
      module := match (d.info i).module with
        | some m => ⟨m.path, m.version⟩
        | none => ⟨[], []⟩ }
    imports := fun path => match (d.imports i).get path with
      | some j => some (d.info j).path
      | none => none }

/-- The options of the command, as far as the identity of packages depends on them. -/
def identityOpts (o : Cmd.IndexOpts) : Loader.Opts where
  moduleRoot := o.moduleRoot
  moduleVersion := o.moduleVersion
  modulePath := o.modulePath
  driverSet := o.isGoPackagesDriverSet
  goVersion := o.goStdlibVersion
  stdlib := o.isIndexingStdlib

/-- The delivered packages come from the parser and the type checker without errors; `objs` contains all objects of the program. -/
structure TypedProgram (D : Deps) (objs : List Obj) : Prop where
  packages : ∀ i, InProject d i → TypedPackage D (pathKnown d) objs (asDelivered d i)
  types : ∀ i, Reachable d.graph i → TypedTypes objs (asDelivered d i)
  /-- no file belongs twice to a package -/
  files_once : ∀ i, InProject d i → (fileNames d i).Nodup ∧ ((d.package i).files.map (·.file)).Nodup
  /-- or to packages of different paths; the file set knows the files apart -/
  files_apart : ∀ i j, InProject d i → InProject d j → (d.info i).path ≠ (d.info j).path →
    ∀ f ∈ (d.package i).files, ∀ f' ∈ (d.package j).files, f.fileName ≠ f'.fileName ∧ f.file ≠ f'.file
  coherent : CoherentObjs objs
  wellFormed : ∀ o ∈ objs, WellFormedObj o

/-- The module path and version that identify the package with an import path: those of the builtin package are fixed. -/
def PackageIdentity (env : Loader.Env) (o : Cmd.IndexOpts) (q path version : Str) : Prop :=
  (q = go!"builtin" ∧ path = go!"github.com/golang/go/src/builtin" ∧ version = o.goStdlibVersion) ∨
  ∃ i, Reachable d.graph i ∧ (d.info i).path = q ∧ Identity env (identityOpts o) (d.info i) path version

/-- The symbol belongs to a delivered package: it consists of the package's module path and version, its import path and perhaps further
descriptors. -/
def OfDelivered (env : Loader.Env) (o : Cmd.IndexOpts) (sym : Str) : Prop :=
  ∃ q path version ds, PackageIdentity d env o q path version ∧ sym = formatSymbol ⟨path, version⟩ (⟨q, .nspace⟩ :: ds)

/-- The go command answers what is asked, in a form that the Go tools deliver; `order` are orders in which imports are iterated. -/
structure GoProgram (answer : Query → Except Str Delivered) (order : Nat → Nat → List Nat) (o : Cmd.IndexOpts) : Prop where
  answer : answer ⟨o.moduleRoot, !o.skipTests, if o.packagePatterns = [] then [go!"./..."] else o.packagePatterns⟩ = .ok d
  order : ValidOrder d.graph order
  /-- no import path begins with `std/` -/
  paths : NoStdPrefix d.info
  variants : GoVariants d

/-- Packages with the same path and equally many files are delivered alike: they are the same package, compiled once more for a test. -/
def AlikeVariants : Prop :=
  ∀ i j, Reachable d.graph i → Reachable d.graph j → (d.info i).path = (d.info j).path →
    (d.package i).files.length = (d.package j).files.length → d.info i = d.info j ∧ asDelivered d i = asDelivered d j

/-- A package that has at least as many files as any other package of its import path (a variant with the test files, if there is one). -/
def Chosen (i : Nat) : Prop :=
  Reachable d.graph i ∧ ∀ j, Reachable d.graph j → (d.info j).path = (d.info i).path → (d.package j).files.length ≤ (d.package i).files.length

/-- The package as it is delivered, with the module that identifies it. -/
def IndexedAs (env : Loader.Env) (o : Cmd.IndexOpts) (i : Nat) (p : Package) : Prop :=
  ∃ path version, Identity env (identityOpts o) (d.info i) path version ∧
    p = { asDelivered d i with env := { (asDelivered d i).env with module := ⟨path, version⟩ } }

/-- The packages that are indexed (`project`), and all packages of the program, by import path: one chosen variant for every path;
where no package `builtin` with source files is delivered there is a package without files under this path. -/
structure ProgramMaps (env : Loader.Env) (o : Cmd.IndexOpts) (project all : GoMap Package) : Prop where
  all_once : all.keys.Nodup
  project_once : project.keys.Nodup
  chosen : ∀ k p, (k, p) ∈ all → (∃ i, Chosen d i ∧ (d.info i).path = k ∧ IndexedAs d env o i p) ∨
    (k = go!"builtin" ∧ (∀ i, Reachable d.graph i → (d.info i).path = k → (d.package i).files = []) ∧ p = builtinPackage o)
  complete : ∀ i, Reachable d.graph i → ∃ p, ((d.info i).path, p) ∈ all
  builtin : ∃ p, (go!"builtin", p) ∈ all
  project : ∀ k p, (k, p) ∈ project ↔ (k, p) ∈ all ∧ ∃ r ∈ d.roots, (d.info r).path = k

/-- A defined type among the definitions or in the scope of a delivered package. -/
def TypeIn (i : Nat) (t : Impl.TypeDef) (n : Impl.NamedT) : Prop :=
  (∃ ds, ((d.package i).defs = some ds ∨ (d.package i).scope = some ds) ∧ some t ∈ ds) ∧ t.named = some n

/-- A defined type that the source of a delivered package declares at package level. -/
structure SourceType (i : Nat) (t : Impl.TypeDef) (n : Impl.NamedT) : Prop where
  notBuiltin : (d.package i).name ≠ go!"builtin"
  declared : ∃ ds, (d.package i).defs = some ds ∧ some t ∈ ds
  level : t.pkgLevel = true
  named : t.named = some n

/-- What the type checker guarantees about the types at package level of the delivered packages. -/
structure NamedProgram (D : Deps) (env : Loader.Env) (o : Cmd.IndexOpts) : Prop where
  /-- modules can be told apart in symbols (C01) -/
  fields : ∀ i, Reachable d.graph i → ∀ path version, Identity env (identityOpts o) (d.info i) path version → fieldOk path ∧ fieldOk version
  /-- project packages have been type-checked from source -/
  checked : ∀ i, InProject d i → (d.package i).name ≠ go!"builtin" → (d.package i).defs.isSome ∧ (d.package i).scope.isSome
  /-- a type at package level is declared at an identifier of a file, and nothing else is -/
  declared : ∀ i, InProject d i → ∀ t n, SourceType d i t n → ∃ f ∈ (d.package i).files,
    ∃ u ∈ identsOf (fileEventsIn D (pathKnown d) (asDelivered d i) f), u.pos = t.obj.pos ∧ u.name = t.obj.name ∧
      OnlyDeclares (asDelivered d i) u [⟨(d.info i).path, .nspace⟩, ⟨u.name, .typ⟩]
  /-- a package has at most one type of a name -/
  once : ∀ i, InProject d i → ∀ t n t' n', SourceType d i t n → SourceType d i t' n' → t.obj.name = t'.obj.name → t = t'
  scope_once : ∀ i, Reachable d.graph i → ∀ ds, (d.package i).scope = some ds → ∀ t t', some t ∈ ds → some t' ∈ ds →
    t.obj.name = t'.obj.name → t = t'
  scope_types : ∀ i, Reachable d.graph i → ∀ ds, (d.package i).scope = some ds → ∀ t n, some t ∈ ds → t.named = some n →
    ∃ ty, t.obj.cls = .typeName ty
  /-- methods are methods of generic types or instantiations of such -/
  origins : ∀ i, Reachable d.graph i → ∀ t n, TypeIn d i t n → ∀ m ∈ n.methods, ∃ c, (entityOf m.obj).cls = .func c
  /-- where a method is declared, nothing else is: no other entity, no package clause, no type -/
  methods_once : ∀ i, Reachable d.graph i → ∀ t n, TypeIn d i t n → ∀ m ∈ n.methods, ∀ j j', InProject d j → InProject d j' →
    ∀ u ds u' ds', PackageDeclares (asDelivered d j).env ((asDelivered d j).files.map SourceFile.node) u ds m.obj.self.pos →
      PackageDeclares (asDelivered d j').env ((asDelivered d j').files.map SourceFile.node) u' ds' m.obj.self.pos →
      (d.info j).path = (d.info j').path ∧ ds = ds'
  methods_clause : ∀ i, Reachable d.graph i → ∀ t n, TypeIn d i t n → ∀ m ∈ n.methods, ∀ j, InProject d j →
    ∀ f ∈ (d.package j).files, f.name.pos ≠ m.obj.self.pos
  methods_type : ∀ i, Reachable d.graph i → ∀ t n, TypeIn d i t n → ∀ m ∈ n.methods, ∀ j, InProject d j →
    ∀ t' n', SourceType d j t' n' → m.obj.self.pos ≠ t'.obj.pos

end Verif.Spec
