import Verif.Model.FileVisitor
import Verif.Model.Visitors
import Verif.Model.Implementations
import Verif.Model.Loader
/-!
# internal/index/scip.go and package_ident.go

The goroutines of scip.go:126 and 201 run alone: the caller only reads a counter until it has waited for them (the progress
display, see Model/Output.lean), so they are modelled sequentially.  Iteration over Go maps follows orders that the caller chooses
(`MapOrders`); the theorems quantify over all of them.  A panic (`none`, `crash`) ends the program.
-/
namespace Verif.Index
open Verif

/-- An `*ast.File` of `pkg.Syntax`, with what the file set knows about it: `fileName` is `Fset.File(f.Package).Name()`,
`position` is `Fset.Position(f.Pos()).Filename` and `file` is the identity of `Fset.File(f.Pos())`. -/
structure SourceFile where
  fileName : Str
  position : Str
  file : Nat
  name : Ident
  decls : List Node
  doc : Option Str

/-- The syntax tree. -/
def SourceFile.node (f : SourceFile) : Node := .file f.name f.decls

/-- A `*packages.Package` after loading (see `PkgEnv`, `FileEnv` and `Impl.Pkg` for the fields); `files` is `Syntax`. -/
structure Package where
  env : PkgEnv
  name : Str
  files : List SourceFile
  implicits : List Obj
  pkgNameOf : Nat → Option Str
  imports : Str → Option Str
  defs : Option (List (Option Impl.TypeDef))
  scope : Option (List (Option Impl.TypeDef))

abbrev Package.path (p : Package) : Str := p.env.pkgPath

/-- The part of `config.IndexOpts` used here (internal/config/config.go:3-27). -/
structure Opts where
  moduleRoot : Str
  moduleVersion : Str
  skipImplementations : Bool
  arguments : List Str

/-- Dependencies: go/types (`scopes`, `objectString`), go/token (`fileOf` is `Fset.File`), those of the implementation pass, the path
escaping of net/url, and the embedded version file (scip.go:28-30). -/
structure Deps where
  scopes : Scopes
  objectString : Obj → Str
  fileOf : Nat → Option Nat
  ext : Impl.Ext
  escapePath : Str → Str
  toolVersion : Str

/-! ## package_ident.go -/

/-- path.Base (dependency). -/
def pathBase (s : Str) : Str :=
  if s = [] then go!"."
  else
    let stripped := (s.reverse.dropWhile (· == '/')).reverse
    if stripped = [] then go!"/" else (stripped.reverse.takeWhile (· != '/')).reverse

/-- path.Ext (dependency): from the last dot of the last element on. -/
def pathExt (s : Str) : Str :=
  let last := (s.reverse.takeWhile (· != '/')).reverse
  if '.' ∈ last then '.' :: (last.reverse.takeWhile (· != '.')).reverse else []

/-- package_ident.go:38-49 `fileRelevance`. -/
def fileRelevance (pkgName filename : Str) : Nat :=
  if pathBase filename = go!"doc.go" then 0
  else if Str.trimSuffix (pathBase filename) (pathExt filename) = pkgName then 1
  else if ¬ Str.hasSuffix filename go!"_test.go" then 2
  else 3

/-- package_ident.go:16-35 `findPackageDocs`. -/
def findPackageDocs (p : Package) : List Str :=
  let filesWithDocs := p.files.filter (fun f => f.doc.isSome)
  let sorted := sortBy (fun a b => decide (fileRelevance p.name a.position ≤ fileRelevance p.name b.position)) filesWithDocs
  sorted.filterMap (·.doc)

/-! ## scip.go -/

/-- internal/document/document.go:53-73 `Document`, the fields read later: `RelativePath` and `PackageOccurrence` (none is nil). -/
structure Doc where
  relativePath : Str
  pkgOcc : Option Occurrence

/-- The map `pathToDocuments`. -/
abbrev Docs := GoMap Doc

/-- internal/visitors/visitors.go:25-35: the documents that `VisitPackageSyntax` creates; `filepath.Rel` gives "" with its error. -/
def newDocs (root : Str) (files : List SourceFile) (docs : Docs) : Docs :=
  files.foldl (fun docs f => docs.set f.fileName ⟨(Filepath.rel root f.fileName).getD [], none⟩) docs

/-- scip.go:234-243: the occurrence of the package clause. -/
def packageOccurrence (p : Package) (sym : Str) (f : SourceFile) : Occurrence :=
  ⟨rangeFromName (p.env.position f.name.pos) f.name.name.length false, sym, true, none, false⟩

/-- scip.go:234-243: one file. (A missing document would be a nil dereference; `newDocs` has created all of them.) -/
def setOccurrence (p : Package) (sym : Str) (docs : Docs) (f : SourceFile) : Docs :=
  match docs.get f.fileName with
  | none => docs
  | some d => docs.set f.fileName { d with pkgOcc := some (packageOccurrence p sym f) }

/-- scip.go:234-243: the loop. -/
def setOccurrences (p : Package) (sym : Str) (files : List SourceFile) (docs : Docs) : Docs :=
  files.foldl (setOccurrence p sym) docs

/-- scip.go:220-229: the description of the package. -/
def packageInfo (p : Package) (sym : Str) : SymInfo :=
  { symbol := sym, kind := .package, displayName := p.name, documentation := findPackageDocs p
    signature := some (go!"package " ++ p.name) }

/-- internal/visitors/visitors.go:18-38 `VisitPackageSyntax`: documents and table; none is a panic. -/
def visitSyntaxOf (root : Str) (p : Package) (docs : Docs) : Option (Docs × Table) :=
  (visitPackageSyntax p.env (p.files.map SourceFile.node) []).map fun t => (newDocs root p.files docs, t)

/-- scip.go:205-245: one package. `Add` registers the table by reference, so that the description set in scip.go:232 (in the
table of the first file's document, which is the package's table) is seen through the global table. -/
def visitPackage (root : Str) (p : Package) (s : Docs × Global) : Option (Docs × Global) :=
  match visitSyntaxOf root p s.1 with
  | none => none
  | some (docs, table) =>
    match p.files with
    | [] => some (docs, s.2.add p.path ⟨some p.env.module, table⟩)
    | first :: _ =>
      let sym := (s.2.getPkgSymbol p.path).getD []
      let table := table.set first.name.pos (packageInfo p sym)
      some (setOccurrences p sym p.files docs, s.2.add p.path ⟨some p.env.module, table⟩)

/-- scip.go:204-246: the loop over the packages. -/
def visitPackages (root : Str) : List Package → Docs × Global → Option (Docs × Global)
  | [], s => some s
  | p :: ps, s =>
    match visitPackage root p s with
    | none => none
    | some s => visitPackages root ps s

/-- scip.go:189-191: the symbols of all packages. -/
def setPkgSymbols : List Package → Global → Global
  | [], g => g
  | p :: ps, g => setPkgSymbols ps (g.setPkgSymbol p.path p.env.module).1

/-- internal/lookup/lookup.go:24-30 `NewGlobalSymbols`, with the composer of scip.go:187 (it is given the module root where
`NewComposer` expects the module path). -/
def newGlobal (o : Opts) : Global := ⟨[], [], newComposer o.moduleRoot o.moduleVersion, []⟩

/-- `slices.Sorted(maps.Keys(m))` and the lookups in the loops scip.go:129-130, 204-205. -/
def sortedValues (m : GoMap Package) : List Package := (sortStrs m.keys).filterMap m.get

/-- The orders of map iteration in one run: packages in scip.go:189 and in the two passes of the extractor, entries of
`TypesInfo.Defs`, tables, locals and type-switch objects (`n` is the number of messages written before), and the orders of the
implementation pass. -/
structure MapOrders where
  all : List Package → List Package
  extractProject : List Package → List Package
  extractAll : List Package → List Package
  defs : Str → List (Option Impl.TypeDef) → List (Option Impl.TypeDef)
  table : Nat → Table → Table
  locals : Nat → List (Nat × Local) → List (Nat × Local)
  implicits : Nat → List Obj → List Obj
  impls : Impl.State → Impl.State → Impl.Orders

/-- scip.go:180-252 `indexVisitPackages`. -/
def indexVisitPackages (o : Opts) (ord : MapOrders) (project all : GoMap Package) : Option (Docs × Global) :=
  visitPackages o.moduleRoot (sortedValues project) ([], setPkgSymbols (ord.all (all.map (·.2))) (newGlobal o))

/-- What the extractor reads of a package. -/
def Package.impl (ord : MapOrders) (p : Package) : Impl.Pkg :=
  ⟨p.path, p.name, some p.env.module, p.defs.map (ord.defs p.path), p.scope⟩

/-- `scip.Metadata` (scip.go:88-97); version 0 is `UnspecifiedProtocolVersion`, encoding 1 is `UTF8`. -/
structure Metadata where
  version : Nat
  toolName : Str
  toolVersion : Str
  arguments : List Str
  projectRoot : Str
  textEncoding : Nat
  deriving DecidableEq

/-- A message handed to the writer: metadata, a document (the descriptions with the symbols of their relationships), or the
description of an external symbol. -/
inductive Message where
  | metadata (m : Metadata)
  | document (relativePath : Str) (occurrences : List Occurrence) (symbols : List (SymInfo × List Str))
  | external (symbol : Str) (relationships : List Str)
  deriving DecidableEq

/-- A writer may decide by everything written before; none is success. -/
abbrev Writer := List Message → Message → Option Str

inductive Outcome where
  | ok
  | failed (e : Str)
  | crash
  deriving DecidableEq, Repr

/-- A run: the messages handed to the writer, and how it ended. -/
structure Run where
  messages : List Message
  outcome : Outcome

/-- `url.URL{Scheme: "file", Path: root}.String()` (dependency). -/
def projectRoot (D : Deps) (root : Str) : Str := if root = [] then go!"file:" else go!"file://" ++ D.escapePath root

/-- scip.go:87-97: the metadata. -/
def metadata (D : Deps) (o : Opts) : Metadata :=
  { version := 0, toolName := go!"scip-go", toolVersion := D.toolVersion, arguments := o.arguments
    projectRoot := projectRoot D o.moduleRoot, textEncoding := 1 }

/-- What the file visitor reads (internal/visitors/visitor_file.go:18-47). -/
def fileEnv (D : Deps) (ord : MapOrders) (n : Nat) (p : Package) (table : Table) : FileEnv :=
  ⟨p.env, D.scopes, table, ord.implicits n p.implicits, p.pkgNameOf, p.imports⟩

/-- An occurrence with all fields at their zero value; it would stand for a nil `PackageOccurrence`, which does not occur (C58). -/
def zeroOccurrence : Occurrence := ⟨[], [], false, none, false⟩

/-- The relationships of the descriptions in a document, in the same order (see `toScipDocument`): those of the table entries
are found through the shared pointer, locals have none. -/
def documentRelationships (heap : Impl.Heap) (path : Str) (order : Table) (lorder : List (Nat × Local)) (fileOf : Nat → Option Nat)
    (file : Nat) : List (List Str) :=
  (order.filter (fun e => fileOf e.1 == some file)).map (fun e => heap (.entry path e.1)) ++ lorder.map (fun _ => [])

/-- scip.go:131-155: the document of a file, after `n` messages; none is a panic. -/
def visitFile (D : Deps) (ord : MapOrders) (heap : Impl.Heap) (n : Nat) (p : Package) (f : SourceFile) (d : Doc) (g : Global) :
    Option (Message × Global) :=
  match g.symbols.lookup p.path with
  | none => none
  | some r =>
    let env := fileEnv D ord n p r.table
    match fileWalk env f.node (newFileVisitor (d.pkgOcc.getD zeroOccurrence) g) with
    | none => none
    | some st =>
      let order := ord.table n r.table
      let lorder := ord.locals n st.locals
      let doc := toScipDocument env D.objectString d.relativePath st order lorder D.fileOf f.file
      let rels := documentRelationships heap p.path order lorder D.fileOf f.file
      some (.document doc.relativePath doc.occurrences (doc.symbols.zip rels), st.global)

/-- scip.go:129-161: the loops over packages and files. -/
def writeDocuments (D : Deps) (ord : MapOrders) (w : Writer) (heap : Impl.Heap) (docs : Docs) :
    List (Package × SourceFile) → Global → List Message → Run
  | [], _, done => ⟨done, .ok⟩
  | (p, f) :: rest, g, done =>
    match docs.get f.fileName with
    | none => writeDocuments D ord w heap docs rest g done
    | some d =>
      match visitFile D ord heap done.length p f d g with
      | none => ⟨done, .crash⟩
      | some (m, g) =>
        match w done m with
        | some e => ⟨done ++ [m], .failed e⟩
        | none => writeDocuments D ord w heap docs rest g (done ++ [m])

/-- scip.go:170-175: the loop over the external symbols. -/
def writeExternals (w : Writer) : List Message → List Message → Run
  | [], done => ⟨done, .ok⟩
  | m :: ms, done =>
    match w done m with
    | some e => ⟨done ++ [m], .failed e⟩
    | none => writeExternals w ms (done ++ [m])

/-- The files of the packages, in order. -/
def filesOf (ps : List Package) : List (Package × SourceFile) := ps.flatMap (fun p => p.files.map (fun f => (p, f)))

/-- scip.go:106-116: the relationships and the external symbols; none is a panic.  No description has relationships before. -/
def implementations (D : Deps) (o : Opts) (ord : MapOrders) (project all : GoMap Package) (g : Global) :
    Option (Global × Impl.Heap × List Message) :=
  if o.skipImplementations then some (g, fun _ => [], [])
  else
    (Impl.addImplementations D.ext D.scopes g (fun _ => []) ((ord.extractProject (project.map (·.2))).map (Package.impl ord))
      ((ord.extractAll (all.map (·.2))).map (Package.impl ord)) ord.impls).map
      fun r => (r.g, r.heap, r.external.map (fun s => .external s.sym (r.heap s.ref)))

/-- scip.go:84-178 `Index`; `loaded` is the result of `LoadPackages`. -/
def index (D : Deps) (o : Opts) (ord : MapOrders) (w : Writer) (loaded : Except Str (GoMap Package × GoMap Package)) : Run :=
  let m := Message.metadata (metadata D o)
  match w [] m with
  | some e => ⟨[m], .failed e⟩
  | none =>
    match loaded with
    | .error e => ⟨[m], .failed e⟩
    | .ok (project, all) =>
      match indexVisitPackages o ord project all with
      | none => ⟨[m], .crash⟩
      | some (docs, g) =>
        match implementations D o ord project all g with
        | none => ⟨[m], .crash⟩
        | some (g, heap, externals) =>
          match writeDocuments D ord w heap docs (filesOf (sortedValues project)) g [m] with
          | ⟨done, .ok⟩ => writeExternals w externals done
          | r => r

/-- scip.go:32-55 `GetPackages`: the project packages and all packages (`sort.Slice` on distinct keys). -/
def getPackages {α β : Type} (loaded : Except Str (GoMap α × GoMap β)) : Except Str (List Str × List Str) :=
  match loaded with
  | .error e => .error e
  | .ok (project, all) => .ok (sortStrs project.keys, sortStrs all.keys)

/-- scip.go:57-82 `ListMissing`; `order` is the order of the first iteration, `order'` that of the second; inner none is a panic. -/
def listMissing (root : Str) (order order' : List Package) : Option (List Str) :=
  match visitAllSyntax root order [] with
  | none => none
  | some docs => some ((filesOf order').filterMap (fun e => if (docs.get e.2.fileName).isSome then none else some e.2.fileName))
where
  /-- scip.go:66-70: the first loop. -/
  visitAllSyntax (root : Str) : List Package → Docs → Option Docs
    | [], docs => some docs
    | p :: ps, docs =>
      match visitSyntaxOf root p docs with
      | none => none
      | some (docs, _) => visitAllSyntax root ps docs

end Verif.Index
