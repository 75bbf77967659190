import Verif.Model.Log
import Verif.Model.Git
import Verif.Model.Loader
/-!
# The warnings of a run

All `slog.Warn` calls that a run can reach, in the order in which they are made; they are what is shown without `-V` (output.go:68-82).  Left out are the two
of document.go:265-275, which are made where the signature of an alias is formatted although the type checker keeps no `*types.Alias` (GODEBUG=gotypealias=0):
signatures are a function of the object here (Model/Signature.lean).
-/
namespace Verif.Warnings
open Index

/-- A warning: the message with what it names. -/
inductive Warning where
  /-- internal/modules/modules.go:27 "No go.mod file found in current directory." -/
  | noGoMod
  /-- internal/loader/loader.go:112 "No target patterns provided using default './...'" -/
  | noPatterns
  /-- internal/loader/loader.go:176 "Package has nil Module, using fallback" -/
  | nilModule (path : Str)
  /-- internal/lookup/lookup.go:53 "Conflicting symbol at …" -/
  | conflict (c : Conflict)
  /-- internal/implementations/extractor.go:40 "No types for package" -/
  | noTypes (path : Str)
  /-- internal/implementations/extractor.go:50 "No symbols for package" -/
  | noSymbols (path : Str)
  /-- internal/visitors/visitor_file.go:108, 114 "Could not find node" -/
  | importUnresolved (pathPos : Nat)
  deriving DecidableEq, Repr

/-- internal/modules/modules.go:15-50 `ModuleName`. -/
def moduleNameWarned (E : Git.ModuleEnv) (dir inName : Str) : List Warning :=
  if inName ≠ [] then []
  else
    match E.readGoMod (Git.goModIn dir) with
    | none => [.noGoMod]
    | some _ => []

/-- internal/loader/loader.go:109-113: the patterns. -/
def patternsWarned (patterns : List Str) : List Warning := if patterns = [] then [.noPatterns] else []

/-- internal/loader/loader.go:134-184 `normalizePackage`. -/
def normalizeWarned (opts : Loader.Opts) (p : Loader.PkgSt) : List Warning :=
  if opts.driverSet then []
  else if Loader.isStandardLib p || opts.stdlib then []
  else
    match p.module with
    | none => [.nilModule p.path]
    | some _ => []

/-- scip.go:205-245: one package (the description of the package is set like those of the declarations). -/
def visitPackageWarned (root : Str) (p : Package) (s : Docs × Global) : List Warning :=
  (visitPackageSyntaxWarned p.env (p.files.map SourceFile.node) []).map .conflict ++
    match visitSyntaxOf root p s.1 with
    | none => []
    | some (_, table) =>
      match p.files with
      | [] => []
      | first :: _ => (table.conflict first.name.pos (packageInfo p ((s.2.getPkgSymbol p.path).getD []))).map .conflict

/-- scip.go:204-246: the loop over the packages. -/
def visitPackagesWarned (root : Str) : List Package → Docs × Global → List Warning
  | [], _ => []
  | p :: ps, s => visitPackageWarned root p s ++
      match visitPackage root p s with
      | none => []
      | some s => visitPackagesWarned root ps s

/-- scip.go:180-252 `indexVisitPackages`. -/
def collectWarned (o : Opts) (ord : MapOrders) (project all : GoMap Package) : List Warning :=
  visitPackagesWarned o.moduleRoot (sortedValues project) ([], setPkgSymbols (ord.all (all.map (·.2))) (newGlobal o))

/-- extractor.go:31-41, 48-52: one package. -/
def extractPkgWarned (p : Impl.Pkg) (s : Impl.State) : List Warning :=
  if p.name = go!"builtin" then []
  else
    match p.defs with
    | some _ =>
      match s.g.symbols.lookup p.path with
      | none => [.noSymbols p.path]
      | some _ => []
    | none =>
      match p.scope with
      | some _ => []
      | none => [.noTypes p.path]

/-- extractor.go:26-45 `Extract`. -/
def extractWarned (E : Impl.Ext) (scopes : Scopes) (project : Bool) : List Impl.Pkg → Impl.State → List Warning
  | [], _ => []
  | p :: ps, s => extractPkgWarned p s ++
      match Impl.extractPkg E scopes project p s with
      | none => []
      | some s => extractWarned E scopes project ps s

/-- implementations.go:125-174 `AddImplementationRelationships`. -/
def addImplementationsWarned (E : Impl.Ext) (scopes : Scopes) (g : Global) (pkgs all : List Impl.Pkg) : List Warning :=
  extractWarned E scopes true pkgs ⟨g, [], []⟩ ++
    match Impl.extract E scopes true g pkgs with
    | none => []
    | some loc => extractWarned E scopes false (Impl.remotePackages pkgs all) ⟨loc.g, [], []⟩

/-- scip.go:106-116. -/
def implementationsWarned (D : Deps) (o : Opts) (ord : MapOrders) (project all : GoMap Package) (g : Global) : List Warning :=
  if o.skipImplementations then []
  else
    addImplementationsWarned D.ext D.scopes g ((ord.extractProject (project.map (·.2))).map (Package.impl ord))
      ((ord.extractAll (all.map (·.2))).map (Package.impl ord))

/-- The warning among what the file visitor logs. -/
def fileWarning : Log.Record → Option Warning
  | .importUnresolved pos => some (.importUnresolved pos)
  | .packageUnknown _ => none
  | .importUnknown _ => none
  | .objectUnknown _ _ => none
  | .unresolved _ _ => none

/-- scip.go:84-178 `Index`. -/
def indexWarned (D : Deps) (o : Opts) (ord : MapOrders) (w : Writer) (loaded : Except Str (GoMap Package × GoMap Package)) : List Warning :=
  match w [] (.metadata (metadata D o)) with
  | some _ => []
  | none =>
    match loaded with
    | .error _ => []
    | .ok (project, all) =>
      collectWarned o ord project all ++
        match indexVisitPackages o ord project all with
        | none => []
        | some (_, g) =>
          implementationsWarned D o ord project all g ++ (Log.indexLogs D o ord w loaded).flatten.filterMap fileWarning

end Verif.Warnings
