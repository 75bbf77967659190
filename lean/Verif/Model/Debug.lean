import Verif.Model.Stderr
import Verif.Model.VisitNotes
/-!
# The records of level Debug outside the file visitor

What `-V -V` shows beside Model/Stderr.lean and Model/Log.lean: the loader tells where the identity of a package is not what the go command reported, scip.go
which packages it visits, and the extractor of implementations which types and methods it leaves out.  Not modelled: what `packages.Load` itself logs (loader.go:37)
and the texts of errors.
-/
namespace Verif.Debug
open Index

/-- A record of level Debug. -/
inductive Note where
  /-- loader.go:206 "Failed to read go mod file: …" -/
  | goModUnreadable (file : Str)
  /-- loader.go:210 "Failed to parse go mod file: …" -/
  | goModUnparsable (file : Str)
  /-- loader.go:213 "Replacing module path: '…' with '…'" -/
  | pathReplaced (old new : Str)
  /-- loader.go:219 "Replacing module version: '…' with '…'" -/
  | versionReplaced (old new : Str)
  /-- loader.go:235 "Unknown version for userland package: … …" -/
  | versionUnknown (path modulePath : Str)
  /-- loader.go:250 "Unable to find rev from pseudo-version: … …" -/
  | revisionUnknown (path version : Str)
  /-- scip.go:206 "Visiting package" -/
  | visiting (path : Str)
  /-- visitors.go:153, visitor_var.go:92: see Model/VisitNotes.lean -/
  | visitor (n : VisitNote)
  /-- extractor.go:75 "No symbol for package-level named type"; name and path of the package -/
  | noSymbol (name path : Str)
  /-- extractor.go:126 "Error while looking for symbol …"; the name of the method -/
  | methodUnknown (name : Str)
  deriving DecidableEq, Repr

/-! ## Loading -/

/-- loader.go:198-224.  `fails` tells for which files `modfile.ParseLax` returns an error; `.broken` is also a file without module directive, of which nothing is
logged before the nil dereference of loader.go:213. -/
def localDebug (env : Loader.Env) (fails : Str → Bool) (m : Loader.ModBase) : List Note :=
  if Str.hasPrefix m.path go!"." && m.goMod ≠ [] then
    match env.readMod m.goMod with
    | .unreadable => [.goModUnreadable m.goMod]
    | .broken => if fails m.goMod then [.goModUnparsable m.goMod] else []
    | .parsed path version => [.pathReplaced m.path path] ++ (if version ≠ [] then [.versionReplaced m.version version] else [])
  else []

/-- loader.go:230-263. -/
def versionDebug (env : Loader.Env) (opts : Loader.Opts) (m : Loader.ModBase) : List Note :=
  if m.version = [] then
    if Filepath.isNestedDir m.dir opts.moduleRoot || Loader.hasSameRepoRoot env m.path opts.modulePath then []
    else [.versionUnknown m.path opts.modulePath]
  else if Semver.isPseudoVersion m.version then
    match Semver.pseudoVersionRev m.version with
    | none => [.revisionUnknown m.path m.version]
    | some _ => []
  else []

/-- loader.go:134-266 `normalizePackage`. -/
def normalizeDebug (env : Loader.Env) (fails : Str → Bool) (opts : Loader.Opts) (p : Loader.PkgSt) : List Note :=
  if opts.driverSet then []
  else
    let m := Loader.replaceStep opts (Loader.standardStep opts p).2
    localDebug env fails m ++
      match Loader.localStep env m with
      | none => []
      | some m => versionDebug env opts (Loader.pathStep m)

/-- loader.go:48-79 `addImportsToPkgs` (as `Loader.collect`). -/
def collectDebug (env : Loader.Env) (fails : Str → Bool) (opts : Loader.Opts) (g : Loader.Graph) (order : Nat → Nat → List Nat) :
    Nat → Loader.St → List Nat → List Note
  | _, _, [] => []
  | 0, _, _ :: _ => []
  | fuel + 1, st, i :: rest =>
    let st := { st with met := st.met ++ [i] }
    if Loader.alreadyKept g st i then collectDebug env fails opts g order fuel st rest
    else normalizeDebug env fails opts (st.pkgs i) ++
      match Loader.normalize env opts (st.pkgs i) with
      | none => []
      | some p =>
        collectDebug env fails opts g order fuel
          { st with pkgs := fun j => if j = i then p else st.pkgs j, all := st.all.set p.path (.loaded i) } (order st.met.length i ++ rest)

/-- loader.go:120-123: the loop over the loaded packages. -/
def collectRootsDebug (env : Loader.Env) (fails : Str → Bool) (opts : Loader.Opts) (g : Loader.Graph) (order : Nat → Nat → List Nat) (fuel : Nat) :
    Loader.St → List Nat → List Note
  | _, [] => []
  | st, i :: rest => collectDebug env fails opts g order fuel st [i] ++
    match Loader.collect env opts g order fuel st [i] with
    | some (some st) => collectRootsDebug env fails opts g order fuel st rest
    | _ => []

/-- loader.go:81-128 `LoadPackages` (as `Loader.loadPackages`). -/
def loadDebug (env : Loader.Env) (fails : Str → Bool) (opts : Loader.Opts) (loaded : Option (Loader.Graph × (Nat → Loader.PkgSt)))
    (order : Nat → Nat → List Nat) (fuel : Nat) : List Note :=
  let opts := if opts.moduleVersion = [] then { opts with moduleVersion := go!"." } else opts
  match loaded with
  | none => []
  | some (g, pkgs) => collectRootsDebug env fails opts g order fuel ⟨pkgs, [(go!"builtin", .builtin)], []⟩ g.roots

/-! ## Visiting packages -/

/-- scip.go:204-246: the loop over the packages, until the first panic. -/
def visitPackagesDebug (root : Str) : List Package → Docs × Global → List Note
  | [], _ => []
  | p :: ps, s => .visiting p.path :: ((visitPackageNotes p.env (p.files.map SourceFile.node)).map .visitor ++
      match visitPackage root p s with
      | none => []
      | some s => visitPackagesDebug root ps s)

/-- scip.go:180-252 `indexVisitPackages`. -/
def collectionDebug (o : Opts) (ord : MapOrders) (project all : GoMap Package) : List Note :=
  visitPackagesDebug o.moduleRoot (sortedValues project) ([], setPkgSymbols (ord.all (all.map (·.2))) (newGlobal o))

/-! ## The extractor of implementations -/

/-- extractor.go:122-134: the loop over the methods. -/
def methodsDebug (scopes : Scopes) : Global → List Impl.Method → List Note
  | _, [] => []
  | g, m :: ms =>
    match g.getSymbolOfObject scopes m.obj with
    | (_, .panic) => []
    | (g', .error) => .methodUnknown m.obj.self.name :: methodsDebug scopes g' ms
    | (g', .skip) => methodsDebug scopes g' ms
    | (g', .info _) => methodsDebug scopes g' ms

/-- extractor.go:111-150 `classify`. -/
def classifyDebug (scopes : Scopes) (named : Impl.NamedT) (s : Impl.State) : List Note :=
  if named.methods = [] then [] else methodsDebug scopes s.g named.methods

/-- extractor.go:47-86 `extractLocal`, the loop. -/
def extractDefsDebug (E : Impl.Ext) (scopes : Scopes) (project : Bool) (p : Impl.Pkg) (table : Table) :
    List (Option Impl.TypeDef) → Impl.State → List Note
  | [], _ => []
  | none :: ds, s => extractDefsDebug E scopes project p table ds s
  | some d :: ds, s =>
    if p.scope.isSome ∧ ¬ d.pkgLevel then extractDefsDebug E scopes project p table ds s
    else match d.named with
      | none => extractDefsDebug E scopes project p table ds s
      | some named =>
        match table.get d.obj.pos with
        | none => .noSymbol d.obj.name p.path :: extractDefsDebug E scopes project p table ds s
        | some i => classifyDebug scopes named s ++
          match Impl.classify E scopes project named ⟨.entry p.path d.obj.pos, i.symbol⟩ p.path s with
          | none => []
          | some s' => extractDefsDebug E scopes project p table ds s'

/-- extractor.go:88-109 `extractRemote`. -/
def extractScopeDebug (E : Impl.Ext) (scopes : Scopes) (project : Bool) (p : Impl.Pkg) : List (Option Impl.TypeDef) → Impl.State → List Note
  | [], _ => []
  | none :: ds, s => extractScopeDebug E scopes project p ds s
  | some d :: ds, s =>
    if ¬ isExported d.obj.name then extractScopeDebug E scopes project p ds s
    else match d.named with
      | none => extractScopeDebug E scopes project p ds s
      | some named =>
        let (c, sym) := s.g.composer.compose scopes (some p.module) (some (.plain d.obj))
        let s := { s with g := { s.g with composer := c } }
        if sym = [] then extractScopeDebug E scopes project p ds s
        else classifyDebug scopes named s ++
          match Impl.classify E scopes project named ⟨.type project sym, sym⟩ p.path s with
          | none => []
          | some s' => extractScopeDebug E scopes project p ds s'

/-- extractor.go:31-41: one package. -/
def extractPkgDebug (E : Impl.Ext) (scopes : Scopes) (project : Bool) (p : Impl.Pkg) (s : Impl.State) : List Note :=
  if p.name = go!"builtin" then []
  else match p.defs with
    | some ds =>
      match s.g.symbols.lookup p.path with
      | none => []
      | some r => extractDefsDebug E scopes project p r.table ds s
    | none =>
      match p.scope with
      | some ds => extractScopeDebug E scopes project p ds s
      | none => []

/-- extractor.go:26-45 `Extract`, the loop over the packages. -/
def extractDebug (E : Impl.Ext) (scopes : Scopes) (project : Bool) : List Impl.Pkg → Impl.State → List Note
  | [], _ => []
  | p :: ps, s => extractPkgDebug E scopes project p s ++
      match Impl.extractPkg E scopes project p s with
      | none => []
      | some s => extractDebug E scopes project ps s

/-- implementations.go:125-174 `AddImplementationRelationships`. -/
def addImplementationsDebug (E : Impl.Ext) (scopes : Scopes) (g : Global) (pkgs all : List Impl.Pkg) : List Note :=
  extractDebug E scopes true pkgs ⟨g, [], []⟩ ++
    match Impl.extract E scopes true g pkgs with
    | none => []
    | some loc => extractDebug E scopes false (Impl.remotePackages pkgs all) ⟨loc.g, [], []⟩

/-- scip.go:106-116. -/
def implementationsDebug (D : Deps) (o : Opts) (ord : MapOrders) (project all : GoMap Package) (g : Global) : List Note :=
  if o.skipImplementations then []
  else
    addImplementationsDebug D.ext D.scopes g ((ord.extractProject (project.map (·.2))).map (Package.impl ord))
      ((ord.extractAll (all.map (·.2))).map (Package.impl ord))

end Verif.Debug
