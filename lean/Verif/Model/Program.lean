import Verif.Model.Index
import Verif.Model.Cmd
/-!
# From `packages.Load` to the index: loader.go and scip.go together

Here the result of loading (Model/Loader.lean) becomes the input of indexing (Model/Index.lean).
-/
namespace Verif.Program
open Index

/-- What is asked of `packages.Load`: the directory, whether test variants are wanted, and the patterns. -/
structure Query where
  dir : Str
  tests : Bool
  patterns : List Str
  deriving DecidableEq, Repr

/-- loader.go:32-46 `getConfig` and loader.go:109-115.  Not modelled: the load mode (constant) and the logger. -/
def query (moduleRoot : Str) (o : Cmd.IndexOpts) : Query :=
  { dir := moduleRoot, tests := !o.skipTests, patterns := if o.packagePatterns.length = 0 then [go!"./..."] else o.packagePatterns }

/-- What `packages.Load` delivers, packages being numbered (a number stands for a pointer).  `info` has the fields `PkgPath` and `Module`
and `imports` the map `Imports`; the fields of the same names in `package` are not used. -/
structure Delivered where
  package : Nat → Package
  info : Nat → Loader.PkgSt
  imports : Nat → GoMap Nat
  roots : List Nat

/-- What the loader looks at. -/
def Delivered.seen (d : Delivered) : Loader.Graph :=
  ⟨fun i => (d.package i).files.length, fun i => (d.imports i).map (·.2), d.roots⟩

/-- The module of a package (a package without one would be dereferenced in symbols.go:12-14; C37: no kept package is without one). -/
def moduleIdent : Option Loader.ModInfo → ModIdent
  | some m => ⟨m.path, m.version⟩
  | none => ⟨[], []⟩

/-- A package as it is seen when its fields `PkgPath` and `Module`, and those of its imports, are as in `info`. -/
def packageOf (d : Delivered) (info : Nat → Loader.PkgSt) (i : Nat) : Package :=
  { d.package i with
    env := { (d.package i).env with pkgPath := (info i).path, module := moduleIdent (info i).module }
    imports := fun path => ((d.imports i).get path).map fun j => (info j).path }

/-- The builtin package literal (loader.go:91-98).  It has no file set; `position` is never asked, since there are no files. -/
def builtinPackage (o : Cmd.IndexOpts) : Package :=
  { env := { pkgPath := go!"builtin", module := ⟨go!"github.com/golang/go/src/builtin", o.goStdlibVersion⟩, defs := fun _ => none
             uses := fun _ => none, anonKey := fun _ => [], signature := fun _ => [], position := fun _ => ⟨1, 1⟩ }
    name := go!"builtin", files := [], implicits := [], pkgNameOf := fun _ => none, imports := fun _ => none, defs := none, scope := none }

/-- A value of a `PackageLookup`. -/
def keptPackage (d : Delivered) (o : Cmd.IndexOpts) (info : Nat → Loader.PkgSt) : Loader.Kept → Package
  | .builtin => builtinPackage o
  | .loaded i => packageOf d info i

/-- The options that the loader reads. -/
def loaderOpts (o : Cmd.IndexOpts) : Loader.Opts :=
  { moduleRoot := o.moduleRoot, moduleVersion := o.moduleVersion, modulePath := o.modulePath, driverSet := o.isGoPackagesDriverSet
    goVersion := o.goStdlibVersion, stdlib := o.isIndexingStdlib }

/-- The options that indexing reads.  `LoadPackages` gets a copy of the options, so that the version it sets (loader.go:85-88) is not
seen here. -/
def indexOpts (o : Cmd.IndexOpts) : Index.Opts :=
  { moduleRoot := o.moduleRoot, moduleVersion := o.moduleVersion, skipImplementations := o.skipImplementations, arguments := o.arguments }

/-- `projectPackages` (entries are never nil: C46). -/
def projectOf (d : Delivered) (o : Cmd.IndexOpts) (l : Loader.Loaded) : GoMap Package :=
  l.project.filterMap fun e => e.2.map fun x => (e.1, keptPackage d o l.st.pkgs x)

/-- `allPackages`. -/
def allOf (d : Delivered) (o : Cmd.IndexOpts) (l : Loader.Loaded) : GoMap Package :=
  l.st.all.map fun e => (e.1, keptPackage d o l.st.pkgs e.2)

/-- The text of the error for a recovered panic (loader.go:104-106); the only one that is modelled is the nil dereference in loader.go:213. -/
def panicText : Str := go!"during package loading: runtime error: invalid memory address or nil pointer dereference"

/-- loader.go:81-128 `LoadPackages` with what `packages.Load` answers; none: more steps are needed. -/
def load (answer : Query → Except Str Delivered) (env : Loader.Env) (order : Nat → Nat → List Nat) (fuel : Nat) (o : Cmd.IndexOpts)
    (moduleRoot : Str) : Option (Except Str (GoMap Package × GoMap Package)) :=
  match answer (query moduleRoot o) with
  | .error e => some (.error e)
  | .ok d =>
    match Loader.loadPackages env (loaderOpts o) (some (d.seen, d.info)) order fuel with
    | none => none
    | some none => some (.error panicText)
    | some (some l) => some (.ok (projectOf d o l, allOf d o l))

/-- scip.go:84-178 `Index` with scip.go:101 `LoadPackages(opts, opts.ModuleRoot)`; none: more steps are needed. -/
def indexing (D : Deps) (answer : Query → Except Str Delivered) (env : Loader.Env) (order : Nat → Nat → List Nat) (fuel : Nat)
    (ord : MapOrders) (o : Cmd.IndexOpts) (w : Writer) : Option Run :=
  (load answer env order fuel o o.moduleRoot).map (index D (indexOpts o) ord w)

/-- main.go:60-198: the command `index` with the flags `sh`, `--profile` and `--output`, from the flags to the output file.  (Packages are
loaded in `Index` after the metadata has been written; what is loaded does not depend on that.)  none: more steps are needed. -/
def command (D : Deps) (answer : Query → Except Str Delivered) (env : Loader.Env) (order : Nat → Nat → List Nat) (fuel : Nat)
    (ord : MapOrders) (S : Cmd.Surroundings) (sh : Cmd.SharedFlags) (W : Cmd.World) (profile : Int) (output : Str) (before : Cmd.Target) :
    Option Cmd.Result :=
  match Cmd.makeOptions S sh with
  | .error e => some (Cmd.run W profile output (.error e) (fun _ _ => ⟨[], .ok⟩) before)
  | .crash => some (Cmd.run W profile output .crash (fun _ _ => ⟨[], .ok⟩) before)
  | .ok (o, _) =>
    (load answer env order fuel o o.moduleRoot).map fun loaded =>
      Cmd.run W profile output (.ok o) (fun o w => index D (indexOpts o) ord w loaded) before

end Verif.Program
