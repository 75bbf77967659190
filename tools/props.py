import json
P=[]
def p(id,title,statement,quant,why,anchors):
    P.append(dict(id=id,title=title,statement=statement,quantifier=quant,why_tests_cant=why,anchors=anchors))
S="internal/symbols/"; V="internal/visitors/"; L="internal/loader/loader.go"; I="internal/index/scip.go"; M="internal/implementations/"; F=M+"fingerprint/fingerprint.go"
p("C01","Symbol strings are uniquely decodable",
 "Every global symbol string the indexer emits can be decoded back into exactly the scheme, package manager, module path, module version and descriptor list it was built from; hence two symbols that differ in module, version or any descriptor are never the same string.",
 "all module paths/versions that are non-empty and do not start with a space, and all descriptor lists over the suffixes scip-go uses (namespace, type, term, method, meta), with arbitrary (also empty, unicode, back-quoted) names",
 "escaping bugs show only for names with back-ticks, spaces or punctuation in particular neighbouring positions; the set of names is infinite",
 [S+"symbols.go: FromDescriptors",S+"composer.go: Composer.Compose",V+"scope.go: Scope.makeSymbol"])
p("C02","Global symbols are never mistaken for document-local symbols",
 "No global symbol string the indexer emits starts with the `local ` prefix that marks file-local symbols, and every file-local symbol does.",
 "all packages, all descriptor lists, all local counters",
 "the claim is about every string the two builders can produce",
 [S+"symbols.go: FromDescriptors",V+"visitor_file.go: createNewLocalSymbol"])
p("C03","Composed symbols do not depend on what was composed before",
 "Whatever sequence of symbol requests was made before, asking for the symbol of an object always gives the same string as the first time it was asked for; if an object is always asked for with the same package this is the string of that package; an object that has no symbol stays without.",
 "all finite histories of composition requests over all objects and packages",
 "the memo table makes the result depend on history in principle; tests try one or two calls",
 [S+"composer.go: Composer.Compose"])
p("C04","A dependency reference uses the symbol under which the declaring module defines the entity",
 "For a package-level type, constant, variable, function, method, and for a field of a package-level struct type, the symbol a dependent module emits for a reference (made from type information only) equals the symbol the indexer emits for the definition when it indexes the declaring module itself.",
 "all package-level declarations of all packages, all receiver shapes (pointer, parenthesised, generic)",
 "two independent code paths (syntax vs type objects) must agree on every declaration shape",
 [S+"composer.go: describe*, locateOwner, nameType",V+"visitor_type.go",V+"visitor_func.go",V+"visitor_var.go"])
p("C05","Different package-level entities of a package get different symbols",
 "Within a package, the composed symbols of two package-level objects coincide only if the objects agree in descriptor path (owner and name) and in being function-like, type-like or value-like.",
 "all pairs of package-level objects of all packages",
 "pairs of declarations over unbounded names",
 [S+"composer.go: describePkgName, describeTypeName, describeConst, describeFunc, describeVar"])
p("C06","The reported symbol kind and the symbol's last descriptor agree",
 "An object gets kind Function/Method/MethodSpecification iff its composed symbol ends in a method descriptor, a type kind iff it ends in a type descriptor, Constant/Variable/Field iff it ends in a term descriptor, Package iff it is a single namespace descriptor; nil objects and objects of other classes get no kind and no symbol.",
 "all objects of all classes and all underlying types",
 "class/type combinations are open ended",
 [S+"kind.go: KindForObject",S+"composer.go: Compose"])
p("C07","Emitted ranges are well formed",
 "For source positions in a file the emitted range has three components exactly when start and end are on the same line and four otherwise, is zero based, and its start is not after its end; the 32-bit conversion is exact for every position below 2^31.",
 "all start/end positions with line, column >= 1 and start <= end",
 "wrap-around and line-crossing need all positions",
 [V+"visitors.go: scipRange",S+"symbols.go: RangeFromName"])
p("C08","Import references and package clauses cover the text they name",
 "The range of an import reference covers exactly the characters between the quotes of the import path whenever the imported package's path is the path written in the source; the range of the package clause occurrence covers exactly the package name.",
 "all positions, all import paths",
 "the range is computed from a name, not from the source text",
 [S+"symbols.go: RangeFromName",V+"visitor_file.go: emitImportReference",I+": indexVisitPackages"])
p("C09","Local symbols are unique within a document",
 "Within one document, two different local declarations never get the same `local N` symbol, and the symbols are numbered 0,1,2,... without gaps.",
 "all syntax trees and all type information",
 "uniqueness is an invariant over every traversal",
 [V+"visitor_file.go: createNewLocalSymbol, Visit"])
p("C10","A reference to a local resolves to the symbol of its declaration",
 "Every identifier that refers to a file-local object whose declaration was traversed earlier gets a reference occurrence with exactly the symbol that was given to the declaration.",
 "all syntax trees, all type information, all positions of uses after the declaration",
 "needs the invariant that the local table is never overwritten",
 [V+"visitor_file.go: Visit"])
p("C11","Every local symbol that occurs in a document is described in it exactly once",
 "For every occurrence whose symbol is a `local N` given to a declaration, the document's symbol list has exactly one entry for it, with the declared object's name and kind; entries exist for no other local symbols.",
 "all syntax trees, all type information, all map iteration orders",
 "relation between two independently filled collections",
 [V+"visitor_file.go: ToScipDocument, createNewLocalSymbol"])
p("C12","Every declaring identifier gets exactly one definition occurrence",
 "For each visited non-blank identifier that declares an object, exactly one definition occurrence with the identifier's range is emitted, in traversal order, and nothing else is emitted as a definition apart from the package clause and type-switch guards.",
 "all syntax trees, all type information",
 "completeness over every tree shape",
 [V+"visitor_file.go: Visit, newDefinition"])
p("C13","Every resolvable identifier gets exactly one reference occurrence",
 "For each visited non-blank identifier that refers to an object with a symbol, exactly one reference occurrence with that symbol and the identifier's range is emitted; identifiers referring to universe objects, labels without local, or unresolvable objects get none.",
 "all syntax trees, all type information, all symbol tables",
 "completeness over every tree shape",
 [V+"visitor_file.go: Visit, newReference","internal/lookup/lookup.go: GetSymbolOfObject"])
p("C14","Indexing a file never crashes on well-typed input",
 "Given type information as the type checker produces it (a package name is used only to the left of a selector, declaring identifiers have distinct positions, package-less objects are universe objects), traversing a file never panics.",
 "all syntax trees and type information satisfying the stated facts",
 "a crash needs one unlucky tree",
 [V+"visitor_file.go: Visit, createNewLocalSymbol","internal/lookup/lookup.go: GetSymbolOfObject"])
p("C15","Definitions and references of a project entity agree across files and packages",
 "If an entity's declaration was collected from a project package, then the definition occurrence at its declaring identifier and every reference occurrence to it from any file of any project package carry the same symbol, and that symbol has a symbol-information entry in the document of the declaring file.",
 "all projects, all files, all pairs of identifiers",
 "global agreement between passes; tests see sampled programs",
 [V+"visitor_file.go: Visit","internal/lookup/lookup.go: GetSymbolOfObject, Get",V+"visitors.go: VisitPackageSyntax"])
p("C16","Deprecation diagnostics follow the documentation",
 "A definition or reference occurrence of a collected project entity carries the Deprecated diagnostic iff the entity's collected documentation has a line starting with `Deprecated:`; locals and entities from dependencies never carry it.",
 "all documentation texts, all occurrences",
 "unbounded texts and programs",
 [V+"visitor_file.go: isDeprecated, newDefinition, newReference","internal/document/document.go: IsDocDeprecated"])
p("C17","Enclosing ranges are attached to function names only",
 "An occurrence carries an enclosing range iff it is the definition of a declared function's or method's name, and then the range is that of the whole declaration.",
 "all syntax trees including nested function literals",
 "stateful tracking of the current function declaration",
 [V+"visitor_file.go: enclosingRange, Visit"])
p("C18","The declaration table behaves like a map with keep-first on equal symbols",
 "After any sequence of registrations, a position resolves to a registered entry for this position; re-registering the same symbol keeps the first entry, a different symbol replaces it, other positions are unaffected.",
 "all finite registration sequences",
 "history dependence",
 ["internal/lookup/lookup.go: Set, Get, GetSymbol"])
p("C19","Each collected symbol is published in exactly one document",
 "Every collected symbol entry appears in the symbol list of the document of the file that contains its position and of no other document, and no document lists an entry that was not collected.",
 "all tables, all files, all map iteration orders",
 "partition property over unbounded tables and orders",
 ["internal/lookup/lookup.go: SymbolsForFile",V+"visitor_file.go: ToScipDocument"])
p("C20","Symbol lookup is history independent and classifies failures",
 "The answer of a symbol lookup for an object does not depend on which lookups were made before; universe objects, nil, labels and `unsafe` yield 'no symbol' without an error; an error is reported only for objects that belong to a package. An answer is either a description collected for the position of the object or one in which nothing but the symbol is filled in.",
 "all lookup histories, all objects",
 "the implementation keeps global caches",
 ["internal/lookup/lookup.go: GetSymbolOfObject, skippedTypes"])
p("C21","Type declarations: nesting of symbols mirrors nesting of source",
 "Collecting a type declaration registers the type name under <package>/<T># and each named field or interface method of its struct/interface body under <package>/<T>#<name>., restoring the scope afterwards, so that declarations never leak descriptors into following ones.",
 "all files, all type declarations, any nesting depth",
 "scope push/pop balance over every tree",
 [V+"visitor_type.go",V+"scope.go"])
p("C22","Package-level variables and constants are registered under <package>/<name>.",
 "Every name declared by a package-level var or const declaration is registered under the two-descriptor symbol of its package and its own name, independent of the other specs in the declaration group.",
 "all declaration groups with any number of specs, types and values",
 "leakage between specs depends on type syntax of earlier specs",
 [V+"visitor_var.go: Visit"])
p("C23","Functions and methods are registered under their receiver's base type name",
 "A function declaration registers <package>/<f>(). and a method declaration <package>/<T>#<m>()., where T is the base name of the receiver through any nesting of pointers, parentheses and type argument lists.",
 "all receiver expressions of any depth",
 "unbounded nesting",
 [V+"visitor_func.go: Visit, receiverTypeName, baseTypeName"])
p("C24","An embedded field is registered where the type checker places it",
 "For an embedded struct field the symbol is registered at the position of the embedded type's name, i.e. the position under which the definition occurrence and all references look it up.",
 "all embedded field expressions (T, *T, pkg.T, *pkg.T, instantiated) in type and var declarations",
 "two visitors, many expression shapes",
 [V+"visitor_type.go: Visit",V+"visitor_var.go: Visit",V+"visitors.go: getIdentOfTypeExpr"])
p("C25","Fields of anonymous types are scoped by the owner and the type",
 "Fields of an anonymous struct/interface type reached from a named field through maps, arrays, slices and pointers are registered below the owner with the key of the anonymous type in between; identical anonymous types under the same owner share field symbols, and different anonymous types never do.",
 "all nestings of map, array, slice, pointer and anonymous types",
 "unbounded nesting",
 [V+"visitor_type.go: walkAnonymousTypeFields",V+"anon_type_key.go"])
p("C26","Identical types have equal fingerprints",
 "If two method signatures are identical by Go's type identity rules then their fingerprints are equal strings with the same tricky flag.",
 "all types of any depth",
 "type terms are unbounded",
 [F+": Encode"])
p("C27","Equal non-tricky fingerprints mean identical types",
 "If two types have equal fingerprints and are not tricky, and package-qualified names denote unique types, then they are identical.",
 "all pairs of non-tricky types",
 "collisions need unlucky pairs",
 [F+": Encode"])
p("C28","Parsing a fingerprint is infallible",
 "Parsing the fingerprint of any type succeeds and yields the tree that the fingerprint grammar prescribes for the type.",
 "all types whose names are Go identifiers, with arbitrary struct tags and package paths",
 "lexing, quoting and nesting over unbounded input",
 [F+": Parse"])
p("C29","Fingerprint matching finds exactly the consistent instantiations",
 "A tree with type parameters matches a tree without them iff some assignment of subtrees to type parameters makes them equal; two parameter-free trees match iff they are equal; matching never crashes.",
 "all pairs of fingerprint trees",
 "unification over unbounded trees",
 [F+": Matches, unify"])
p("C30","The method-set prefilters never lose an implementation",
 "If a concrete type or its pointer implements an interface, the method-count test and the 64-bit mask test both let the pair through, whatever the hash function does.",
 "all method sets, all interfaces, all hash values",
 "depends on all hash collisions",
 [M+"implementations.go: methodMask, findImplementations"])
p("C31","Every emitted implementation relationship is real",
 "If a type symbol carries an implementation relationship to an interface symbol, then the type or its pointer implements that interface; a method carries one only to the interface method of the same identity.",
 "all programs, all iteration orders",
 "soundness over all pairs",
 [M+"implementations.go: findImplementations"])
p("C32","Every implementation is emitted",
 "Every project type with methods that implements a non-empty interface (project or dependency) carries the relationship, and so do its methods.",
 "all pairs of concrete types and interfaces",
 "completeness over all pairs, including unexported methods and embedding across packages",
 [M+"implementations.go: findImplementations"])
p("C33","Implementation results do not depend on iteration order",
 "The relationship list of every symbol after the implementation pass is the same for every order in which types, interfaces and methods are enumerated.",
 "all permutations of all maps",
 "Go randomises map iteration; a test run sees one order",
 [M+"implementations.go: findImplementations, AddImplementationRelationships"])
p("C34","Relationship lists are sorted and duplicate free",
 "After the pass every touched symbol's relationships are strictly sorted by symbol, and repeating canonicalisation changes nothing.",
 "all relationship lists",
 "needs all list contents",
 [M+"implementations.go: findImplementations"])
p("C35","External symbols are exactly the dependency types that implement project interfaces",
 "The external symbols produced are exactly the symbols of dependency types with at least one relationship, each of which names a project interface.",
 "all programs",
 "completeness/soundness over all packages",
 [M+"implementations.go: AddImplementationRelationships"])
p("C36","The implementation progress counter ends at the announced total",
 "When the implementation passes finish the counter equals the announced total.",
 "all sets of types",
 "off-by-one over all sizes",
 [M+"implementations.go: AddImplementationRelationships, findImplementations"])
p("C37","Every loaded package has a usable module identity",
 "After loading, every package has a module with non-empty path and non-empty version, whatever module information the loader delivered, unless loading reports an error.",
 "all packages (nil module, std, replaced, local replaced, unversioned), all options",
 "many independent conditions",
 [L+": normalizePackage, LoadPackages"])
p("C38","Normalising a package twice changes nothing",
 "Normalising an already normalised package yields the same module path and version.",
 "all packages and options",
 "a package can be normalised again via another import path",
 [L+": normalizePackage"])
p("C39","Pseudo-versions are reduced to their revision",
 "A module version that is a pseudo-version <base>-<timestamp>-<rev>[+build] becomes exactly <rev>.",
 "all version strings",
 "string grammar over unbounded input",
 [L+": normalizePackage"])
p("C40","Build metadata is dropped, other versions are kept",
 "A valid semantic version with build metadata loses exactly the metadata; any other non-empty version is kept unchanged.",
 "all version strings",
 "string grammar over unbounded input",
 [L+": normalizePackage"])
p("C41","With a packages driver all packages belong to the indexed module",
 "When a packages driver is configured, every package gets the configured module path and version (or `.`), regardless of what the driver reported; an environment variable that is unset or `off` does not count as configured.",
 "all packages, all options, all environment values",
 "environment x options combinations",
 [L+": normalizePackage","cmd/scip-go/main.go: makeOptions"])
p("C42","Standard library packages get the canonical module and un-prefixed path",
 "Every package without module or of module std, and every package while indexing std, is attributed to github.com/golang/go/src with the configured Go version, and a `std/` prefix of its path is removed.",
 "all packages and options without driver",
 "all inputs",
 [L+": normalizePackage, isStandardLib"])
p("C43","The set of packages is closed under imports",
 "Every package imported (transitively) by a kept package is represented in the set of all packages, and every represented package other than builtin was reachable from a loaded one.",
 "all import graphs",
 "graph reachability over unbounded graphs",
 [L+": addImportsToPkgs, LoadPackages"])
p("C44","The variant with most files wins",
 "Among all loaded variants of a package path, the one kept has at least as many files as every other variant met, and the first of several largest ones is kept.",
 "all import graphs, all orders of import iteration",
 "order dependence",
 [L+": addImportsToPkgs"])
p("C45","Package collection terminates on every import graph",
 "Collecting imports terminates on every finite import graph, also on cyclic ones.",
 "all finite graphs",
 "non-termination can not be tested",
 [L+": addImportsToPkgs"])
p("C46","Project packages are among all packages",
 "Every project package is also in the set of all packages, under the same identity and as the same object, and the pseudo package builtin is present.",
 "all load results",
 "all graphs",
 [L+": LoadPackages"])
p("C47","Sibling-module detection by directory is exactly nesting",
 "Two directories are taken as nested iff one is an ancestor of (or equal to) the other; the relation is symmetric and false for unknown directories.",
 "all pairs of cleaned absolute paths",
 "path arithmetic over unbounded paths",
 [L+": isNestedDir"])
p("C48","Unversioned packages inherit the project version exactly when they belong to the project's repository",
 "A package whose module is not replaced and has no version gets the project version if its directory is nested with the module root or its path or repository root equals that of the project module, and `.` otherwise; a package whose module is replaced by one without version always gets the project version, with a pseudo-version reduced to its revision and build metadata dropped.",
 "all packages, all repository-root oracles",
 "oracle dependent",
 [L+": normalizePackage, hasSameRepoRoot"])
p("C49","Metadata first, then documents, then external symbols",
 "The sequence of messages handed to the writer is always one metadata message, then documents, then external symbols; every run that reports success wrote all of them.",
 "all projects, all writers (also failing ones)",
 "all failure points",
 [I+": Index"])
p("C50","A write failure stops indexing and is reported",
 "If the writer fails on some message, no later message is written and the run reports exactly this error.",
 "all failure points",
 "needs every crash point",
 [I+": Index"])
p("C51","One document per source file in deterministic order",
 "A successful run writes exactly one document for every source file of every project package, ordered by package path and then by file order, independent of map iteration order.",
 "all projects with distinct files, all map orders",
 "all orders",
 [I+": Index, indexVisitPackages"])
p("C52","The output file decodes to the messages written",
 "Decoding the output file as one SCIP index yields the metadata and, in order, exactly the documents and external symbols that were written; a file cut after any number of messages decodes to exactly those messages.",
 "all message sequences and all payload bytes",
 "wire format over unbounded payloads",
 ["cmd/scip-go/main.go: IndexCmd.Run"])
p("C53","Concurrent writes never interleave",
 "If several goroutines write messages concurrently, then in every schedule and at every moment the output is the concatenation of whole messages, each goroutine's in its own order, followed by at most one partial message, as long as no write has failed.",
 "all schedules, all numbers of goroutines",
 "all interleavings",
 ["cmd/scip-go/main.go: IndexCmd.Run"])
p("C54","A failed run leaves no output file",
 "If indexing reports an error, a regular output file is removed; option errors leave a pre-existing output file untouched; with `-` nothing is removed. So after a run over a well-typed project the output path holds what was there before, nothing, or a complete index.",
 "all failure points, all file system states",
 "all failure points",
 ["cmd/scip-go/main.go: IndexCmd.Run"])
p("C55","The missing-documents command never reports a loaded file",
 "Listing missing documents reports no file: every file of every project package was collected.",
 "all projects",
 "universal claim",
 [I+": ListMissing"])
p("C56","Package listing is sorted, duplicate free and nested",
 "The two printed package lists are strictly sorted; every current package is listed among the dependency packages, which also contain builtin.",
 "all load results, all map orders",
 "all orders",
 [I+": GetPackages","cmd/scip-go/main.go: PackagesCmd.Run"])
p("C57","Package documentation is complete and ordered by relevance",
 "The package documentation lists the doc comments of exactly the files that have one, doc.go first, then the file named like the package, then other non-test files, then test files, preserving file order within a class.",
 "all packages, all file names",
 "all names and orders",
 ["internal/index/package_ident.go"])
p("C58","Every file of a package defines the package symbol once; it is described once per package",
 "Each document of a non-empty package starts with one definition occurrence of the package symbol at the package clause, and the package symbol's description is registered in the first file. In the whole index the symbol of a package has exactly one description, and exactly one definition per file of the package, at the clause; nothing else, in this package or another, has this symbol.",
 "all packages",
 "all packages",
 [I+": indexVisitPackages",V+"visitor_file.go: NewFileVisitor"])
p("C59","Human readable durations never overstate and lose at most a bounded fraction",
 "The displayed duration is never greater than the measured one, loses less than 1/61 of it, never loses its leading unit, is monotone in it and displaying twice changes nothing.",
 "all durations",
 "all integers",
 ["internal/output/duration.go: humanElapsed"])
p("C60","Progress reporting waits for the work and ends with n/n",
 "In every schedule the progress display returns only after all work is done, its last line shows n/n, and in quiet mode nothing is printed.",
 "all schedules of ticker and workers",
 "all interleavings",
 ["internal/output/output.go: WithProgressParallel, WithProgress"])
p("C61","Log level is monotone in verbosity and quiet wins",
 "For every non-negative verbosity the level is defined, more verbosity never shows less, verbosity beyond 2 equals 2, and quiet always selects the silent level.",
 "all counters",
 "all integers",
 ["cmd/scip-go/main.go: getLogLevel"])
p("C62","SSH-style and URL-style remotes of the same repository give the same name",
 "git@H:P and git@H:P.git both give H/P, and a URL with host H and path /P or /P.git gives the same name.",
 "all hosts and paths without colon",
 "string handling over unbounded input",
 ["internal/git/infer_repo.go: parseRemote"])
p("C63","The inferred module version prefers semantic version tags",
 "If some tag at HEAD is a valid semantic version the first such tag is used; otherwise the first tag; without tags the first 12 characters of the commit id.",
 "all tag lists and commit ids",
 "all lists",
 ["internal/git/infer_module_version.go: InferModuleVersion"])
p("C64","Module name resolution: explicit name wins, then go.mod, then repository",
 "An explicit module path is used verbatim; otherwise the go.mod module path; otherwise the resolved repository root, and a failure to resolve is reported as an error; std is recognised in every case.",
 "all option values and file contents",
 "all combinations",
 ["internal/modules/modules.go: ModuleName, resolveModuleName"])
p("C65","The default module root is the closest ancestor with a go.mod",
 "The default module root is the closest directory at or above the working directory and inside the repository that contains a go.mod, and `.` if there is none.",
 "all directory trees and working directories",
 "all trees",
 ["cmd/scip-go/paths.go: searchForGoMod"])
p("C66","Deprecation is detected exactly for lines starting with Deprecated:",
 "A documentation list counts as deprecated iff one of its texts has a line that starts with `Deprecated:`, wherever the line is and however many texts there are.",
 "all texts",
 "all strings",
 ["internal/document/document.go: IsDocDeprecated"])
p("C67","Re-quoting of struct tags preserves everything else",
 "Signature text outside double-quoted literals is preserved verbatim and in order; each well-formed double-quoted literal is replaced by its value in back-ticks; text without double quotes is unchanged.",
 "all strings",
 "all strings",
 ["internal/document/document.go: quotedTagsToBacktick"])
p("C68","Documentation of a declared symbol",
 "The documentation list of a declared symbol has no empty entry and no duplicate: it is the entity's own comment (falling back to the declaration group's comment) followed by the group comment if that is different and non-empty.",
 "all declaration groups and comments",
 "comment placement combinations",
 ["internal/document/document.go: SetNewSymbolForPos, extractHoverText"])
p("C69","Two runs produce the same documents up to the order of symbol descriptions",
 "For the same input, two runs under different map iteration orders give the same documents with the same occurrences in the same order, and symbol lists that are permutations of each other.",
 "all inputs, all map iteration orders",
 "Go randomises map iteration",
 [I+": Index",V+"visitor_file.go: ToScipDocument","internal/lookup/lookup.go: SymbolsForFile"])
p("C70","A collected package-level entity always has a symbol of its own package",
 "Every symbol registered while collecting a package starts with the package's own module path, version and import path.",
 "all packages and syntax trees",
 "all trees",
 [V+"scope.go",S+"symbols.go: FromDescriptors"])
p("C71","Kinds of type parameters",
 "An object that is a type parameter is reported with kind TypeParameter, never with the kind of an ordinary type.",
 "all type-checker objects",
 "all objects",
 [S+"composer.go: KindForObject"])
p("C72","The module path follows replacements and local go.mod files",
 "A loaded package of an ordinary module keeps its import path, and its module path is that of the replacement if the module is replaced, the one named by the go.mod file if that is a local directory with a readable go.mod, and `.` if the result is empty.",
 "all packages, options, file contents and import graphs",
 "depends on module information, file contents and traversal",
 [L+": normalizePackage"])
p("C73","Documents are named by their path below the module root",
 "For a module root and a file below it, both clean absolute paths, the document's relative path is the rest of the path: it does not start with a slash or contain `..`, and root joined with it is the file again; different files get different relative paths.",
 "all clean absolute paths",
 "all paths",
 [V+"visitors.go: VisitPackageSyntax"])
p("C74","Indexing a well-typed program never crashes",
 "Indexing a loaded program without errors never panics, whatever the map iteration orders and whatever the writer does: the run ends with success, or with the error of the write that failed.",
 "all well-typed projects, all map iteration orders, all writers",
 "absence of panics over all programs",
 [I+": Index, indexVisitPackages",V+"visitor_file.go","internal/implementations/implementations.go: AddImplementationRelationships"])
p("C75","Every symbol defined in a document is described in it",
  "If a document of a run has a definition occurrence of a symbol, then the document's symbol list has an entry with this symbol. The only exception is the symbol of the package at the package clause, which is described in one document of the package only (C58).",
  "all loaded projects, all map iteration orders, all files, all definition occurrences",
  "tests compare the definitions of a few sample packages with golden files; that no kind of declaration in any program yields a definition without a description is a statement about all of them",
  ["internal/visitors/visitor_file.go: fileVisitor.Visit, ToScipDocument","internal/lookup/lookup.go: Package.SymbolsForFile","internal/index/scip.go: indexVisitPackages"])
p("C76","The listing commands print exactly what was loaded",
  "The packages command prints a heading, the import paths of the project's packages in strictly increasing order, a second heading and the import paths of all loaded packages in strictly increasing order, one per line, so that a reader recovers both lists from the text; before that, unless --quiet is given, the lines that announce resolving the module name and loading; the missing command prints that nothing is missing for every project; if loading fails both print nothing of the listing and return the error.",
  "all flags, all loaded package graphs, all map iteration orders",
  "tests see a few projects; that nothing is lost, repeated or reordered for any graph and map order is a universal statement",
  ["cmd/scip-go/main.go: PackagesCmd.Run, MissingCmd.Run","internal/index/scip.go: GetPackages, ListMissing"])
p("C77","Missing tools only leave defaults empty",
  "Before flags are parsed the program asks git and go for defaults. Whatever these tools answer or however they fail, the program goes on: a failing tool leaves its default empty, an answering one determines it (repository name, tag or commit, go followed by the module's Go version). The program stops only if git reports no tag and a commit id of less than 12 characters, or if go list prints the JSON value null (in both cases by a panic).",
  "all outputs and failures of the subprocesses",
  "the answers of the tools depend on the environment; unit tests run in one environment",
  ["cmd/scip-go/main.go: parseArgs, defaultRepositoryRemote, defaultModuleVersion, defaultGoVersion","internal/git/infer_repo.go: InferRepo","internal/git/infer_module_version.go: InferModuleVersion"])
p("C78","The exit status tells whether the index is complete",
  "The program ends with status 0 exactly if the arguments were understood and the command succeeded; an error gives status 1 and its text on standard error. If index ends with status 0, what is at the output path (or, for `-`, what was written of the index to standard output, see C89) decodes to the metadata, one document for every file of every project package in order and the external symbols; otherwise the output path holds what was there before or nothing.",
  "all flags, all projects, all failures of writing, creating, loading",
  "a statement about all failure points of all runs",
  ["cmd/scip-go/main.go: main, IndexCmd.Run","internal/index/scip.go: Index"])
p("C79","The signature of a symbol tells exactly what was declared",
  "Every symbol that is defined by an object of the type checker is described with a non-empty signature. The signature of a variable, field, constant, function, method, defined type or alias determines its kind, name and complete type (of a constant also the value, of a method the receiver), and entities that agree in these have the same signature; types of the same package are written without package, others with the name of their package.",
  "all objects of all packages, all types",
  "tests compare a few golden signatures; that no two different declarations share a signature and that none is empty is a statement about all types",
  ["internal/document/document.go: typeStringForObject, formatTypeDeclaration, formatAliasDeclaration, expandTypeExpr, formatGoDecl, relativeQualifier"])
p("C80","The signature of a local symbol tells what was declared",
  "Every local symbol except the variable of a type switch is described with a non-empty signature: for an import the name and the path, for anything else a text that determines kind, name and type (package names left out), and that entities agreeing in these share.",
  "all local objects, all types",
  "a statement about all types and objects",
  ["internal/lookup/local.go: SignatureText","internal/visitors/visitor_file.go: ToScipDocument"])
p("C81","Every loaded package has exactly one identity",
  "The module path and version under which a package is indexed depend only on the package as the go command delivers it, on the options and on the go.mod files and repository roots asked for: with a package driver the project's path and version; for the standard library golang/go/src and the Go version; otherwise the path of the (possibly replaced) module or the one its local go.mod names, and the version reduced to revision or core version, the project's version or `.`.",
  "all packages, options, import graphs, iteration orders and environments",
  "the identity is computed in place during a traversal that depends on the graph and on map iteration; that it is the same for every way a package can be reached is a statement about all graphs",
  [L+": normalizePackage, LoadPackages",L+": ensureVersionForPackage"])
p("C82","Every source file of every matched package is indexed, and the run ends",
  "From the go command's answer to the messages of the index: a successful run writes exactly one document for every source file of every package that the patterns match, in whatever variant (with or without tests) the file occurs, and none else, named by the path below the module root. Every run ends and never crashes. If no write fails, a run fails exactly if some package of the program belongs to a module replaced by a local directory whose go.mod file has no module directive; it then fails with a panic message after writing the metadata. If the go command fails the run fails with its error and nothing but the metadata is written.",
  "all answers of the go command for well-typed programs, all environments, import iteration orders, map orders, options and writers",
  "a statement about all programs, graphs and schedules of map iteration",
  [I+": Index, indexVisitPackages",L+": LoadPackages, loadPackages"])
p("C83","Every symbol carries the identity of a package of the program",
  "Every symbol in any occurrence, description or relationship of the output is `local` with a number (never in relationships or external symbols) or starts with the import path of a delivered package together with exactly the module path and version that identify this package.",
  "all well-typed programs, all environments, orders and options",
  "a statement about all symbols of all programs",
  [S+"symbols.go: FromDescriptors",I+": Index","internal/lookup/lookup.go: GetSymbolOfObject",L+": normalizePackage"])
p("C84","The relationships in the index are exactly the implementations in the source",
  "In every document of every run, a described symbol is local and has no relationships, or it belongs to something declared in this file, and its relationships are, in increasing order and without repetition, exactly the interfaces (for a type) or interface methods (for a method) that it implements: named by their own symbols, for every pair of a concrete type and a non-empty interface of which at least one belongs to the project (interfaces with unexported methods count for types of their own package only). A type declared at package level is described under its symbol in the document of its file. A successful run writes external symbols for exactly the exported dependency types that implement a project interface, each once. Everything is said in terms of the declarations in the source and their type information.",
  "all well-typed projects and dependencies, map orders, options and writers",
  "relationships connect any type of the project with any interface of any dependency; that none is missing or superfluous for any program is a statement about all programs",
  ["internal/implementations/implementations.go: AddImplementationRelationships, findImplementations","internal/implementations/extractor.go: extractInterfacesAndConcreteTypes",I+": Index"])
p("C85","The index does not depend on the order of iteration anywhere",
  "Two runs of the whole program on the same answer of the go command, with any orders of iteration over imports (which decide in which order packages are met, and which of several equal variants of a package is kept) and over all other maps, write the same index: the same metadata, the same documents in the same order with the same occurrences in the same order, the same descriptions and relationships, and the same external symbols. If no write fails both have the same outcome, even if some go.mod file is broken: both succeed with the same index or both fail alike after the metadata; otherwise what both have written agrees.",
  "all well-typed programs whose variants with equally many files are alike, all orders of iteration over imports and maps, all environments, options and writers",
  "Go chooses the iteration order of a map at random; a test sees a few orders, the property is about all of them",
  [L+": LoadPackages, addImportsToPkgs",I+": Index","internal/implementations/implementations.go: AddImplementationRelationships"])
p("C86","What is indexed is exactly what the go command delivers",
  "A run of the whole program that gets beyond loading indexes, for every import path among the packages reachable from the matched ones, exactly one variant delivered under that path, one with the most files; with its own syntax, type information and source text, and identified by the module that the options, the delivered module information and the environment determine. The project is exactly the packages under the paths of matched packages. Nothing else is indexed, and nothing reachable is left out.",
  "all well-typed programs delivered by the go command, orders of iteration, environments, options and writers",
  "which variant of a package is met first depends on map iteration; the property is about all import graphs and orders",
  [L+": LoadPackages, addImportsToPkgs, IsStandardLib, normalizePackage",I+": Index"])
p("C87","The index is exactly what the source says",
  "A successful run writes metadata, then one document per file of the packages of the project, in the order of import paths and of files, then external symbols. The occurrences of a document are, in source order, the definition of the package clause and for every identifier, package qualifier and import spec of the file exactly the definitions and references that the declarations and the type checker give it, each with its span, symbol, enclosing range and deprecation mark; its descriptions are exactly one per position of the file at which the package declares something and one per local declaration, each with its name, kind, signature, comments and relationships. Every document written by a failing run is complete in the same sense. If nothing in the source is ambiguous this determines the index: two indexes of the same project are the same up to the order of descriptions and of external symbols.",
  "all well-typed projects and programs, orders of iteration, environments, options and writers",
  "a statement about the whole content of the index for all programs, which no set of snapshots covers",
  [I+": Index, indexVisitPackages","internal/visitors/visitor_file.go: Visit, NewFileVisitor, ToScipDocument","internal/visitors/visitors.go: VisitPackageSyntax, walkPackageAst"])
p("C88","From the command line to the output file",
  "The command `index`, on a program that the Go tools deliver, always ends, with exit status 0 or 1. With status 0 the output (the file; for `-` standard output, with --quiet all of it, else what is left without progress) decodes to the index of the delivered program, as C87 describes it. With status 1 it says why on standard error, and at the output path there is what was there before or nothing. If no write fails, the file can be created, no go.mod file is broken and all texts are UTF-8, the status is 0.",
  "all flags, delivered programs, orders of iteration, environments, disks and earlier contents of the output file",
  "the whole command with all its inputs and all failures of the disk; snapshots never see a failure",
  ["cmd/scip-go/main.go: main, IndexCmd.Run, makeOptions",I+": Index",L+": LoadPackages"])
p("C89","Standard output is the index and nothing else",
  "With `--output -` standard output consists of exactly the bytes of the index; with another output no byte of the index goes there.",
  "all flags, projects, environments, disks, schedules of progress and writing",
  "progress is printed by other goroutines at moments chosen by a ticker; a statement about all interleavings",
  ["cmd/scip-go/main.go: IndexCmd.Run","internal/output/output.go: WithProgress, WithProgressParallel","internal/modules/modules.go: ModuleName",L+": LoadPackages",I+": Index"])
p("C90","Compose may be called concurrently",
  "Any number of goroutines may call Compose on one composer: no two of them access its table at once, none waits for ever, and each gets the answer that the calls made one after the other, in some order that agrees with time, would get; if all requests about one entity come with the same package, that is the answer of a composer of its own, whatever the schedule.",
  "all numbers of goroutines, sequences of requests and interleavings",
  "schedules cannot be enumerated by tests; a race shows only in some",
  [S+"composer.go: Composer.Compose, NewComposer"])
p("C91","UTF-8 in, UTF-8 out",
  "If the source files, paths, versions and arguments are UTF-8, every string in the index is UTF-8; since Protocol Buffers refuse other strings, and with one such string the whole index fails, the command then ends with status 0 if nothing outside of it fails.",
  "all programs whose texts are UTF-8, orders of iteration, options, environments, writers",
  "texts are cut, trimmed, split, quoted and unquoted in many places; a cut inside of a character shows only for some inputs and makes the whole run fail",
  [I+": Index","internal/document/document.go: typeStringForObject, quotedTagsToBacktick, formatGoDecl",S+"composer.go: Compose","cmd/scip-go/main.go: IndexCmd.Run"])
p("C92","Every schedule of the indexer's goroutines gives the same index",
"Index starts three goroutines (collecting definitions, relating types, visiting files), each under a progress display with a goroutine of its own. Whatever the schedule: when Index is over, the messages handed to the writer and the outcome are those of the same program run without goroutines; at any time before (so also if the process is killed) the messages written are the first ones of these; no two goroutines ever access the same variable at the same time unless both only read or both go through an atomic, a wait group, a channel or a mutex; until it is over some goroutine can go on, it cannot run forever unless only the display moves, and when it is over no goroutine is left behind.",
"all schedules (interleavings of the steps of all goroutines), all programs, all writers (failing at any call), all log levels, all orders of map iteration",
"a test sees one schedule per run; the race detector only reports races that happened",
[I+":Index",I+":indexVisitPackages","internal/implementations/implementations.go:AddImplementationRelationships","internal/output/output.go:WithProgressParallel"])

p("C93","--skip-implementations removes relationships and external symbols, and nothing else",
"Indexing the same program with and without --skip-implementations gives documents for the same files in the same order, with the same occurrences and the same descriptions of symbols; the index made with the flag has no relationship and no external symbol; the metadata differ at most in the recorded arguments.",
"all programs the Go tools deliver, orders of iteration in both runs, options",
"the two runs make independent choices of map iteration; tests compare one pair of runs on a fixed program",
[I+": Index","internal/implementations/implementations.go: AddImplementationRelationships","cmd/scip-go/main.go: IndexCmd"])

p("C94","Where files lie in the file set, and all addresses, do not matter",
"Files are parsed and packages type-checked concurrently, so positions in the file set, the addresses of identifiers and objects and the numbers of files differ from run to run. Whatever they are, the index is the same: the same documents with the same occurrences, descriptions and relationships, and the same external symbols, each list in some order. With suitable orders of map iteration, the two runs even write the same messages in the same order.",
"all programs, injective renumberings of positions (each file moved as a whole), identifiers, objects and files, orders of iteration in both runs",
"positions and pointers are keys of the indexer's maps and are decided by the scheduler inside go/packages; a test sees the layout of one run",
[I+": Index","internal/lookup/lookup.go: Package, Global",S+"composer.go: Composer","internal/implementations/implementations.go: AddImplementationRelationships",V+"visitor_file.go: NewFileVisitor"])

p("C95","Which other packages are indexed in the same run does not matter to a file, apart from references to them",
  "If a package is indexed once together with some packages and once together with more of them, each of its files gets the same relative path, descriptions of the same symbols with the same texts (relationships left out), and the same occurrences in the same order except for references to entities of the packages that were not indexed before: only these can be marked as deprecated, have another symbol (for what C04 excepts, e.g. methods of interfaces) or be added. Files that refer to nothing in those packages have equal occurrences, and where the referenced entities are declared plainly (no interface method, alias receiver or derived struct) only deprecation marks are added.",
  "all pairs of loaded projects of which one extends the other, all packages and files, all orders of map iteration, all writers and options",
  "a test compares one pair of package patterns; what one package's visit leaves behind in shared tables could change any other document",
  [I+": Index, indexVisitPackages, indexProject, visitPackage","internal/lookup/lookup.go: Global.GetSymbolOfObject, Global.GetSymbolInformation",V+"visitor_file.go: NewFileVisitor, fileVisitor.Visit", L+": LoadPackages, loadMode"])

p("C96","A file that is not edited keeps its part of the index while other files are edited",
  "If a file is left alone while other files of the project are edited (in its own package or elsewhere), and the types of what it declares and the symbols of what it refers to remain, then its document keeps its path and its occurrences, in the same order, and describes the same entities in the same words; relationships may change with the interfaces of the project and are the same if the implemented interfaces are. Names of locals, which are counters, do not shift. The exception is real: when a comment elsewhere declares a referenced entity deprecated, the reference is marked.",
  "all pairs of loaded projects with a file in common that was not edited, all edits of other files that keep the symbols and deprecation of what the file refers to, all orders of map iteration, writers and options",
  "a test edits one file of one project; counters, tables shared by the files of a package and package-level documentation could carry any edit into other documents",
  [I+": Index, indexVisitPackages, visitPackage",V+"visitor_file.go: NewFileVisitor, fileVisitor.Visit","internal/index/package_ident.go: findPackageDocs",S+"composer.go: Composer","internal/lookup/lookup.go: Package, Global.GetSymbolOfObject"])

p("C97","What a document lacks is reported in the log",
  "While a file is visited the program logs, in the order of the source: every import that the type checker could not resolve, every import of a package that was not loaded, every name pkg.Name of such a package, every identifier the type checker knows nothing about, and every identifier that refers to something which should have a symbol but has none, with its position and package; and nothing else. So an identifier that refers to something has a reference in the document, or refers to something that has no symbol by design (predeclared, unsafe, labels, nil), or is in the log; likewise imports and qualified names. With -VV all of this is shown, with less verbosity only the unresolved imports (Warn), with --quiet nothing, and more verbosity never hides anything.",
  "all loaded projects with all combinations of missing packages, unresolved imports and identifiers; all files; all orders of map iteration and writers; all verbosities",
  "a test has a few missing symbols; silence about a lost reference is visible only by comparing every identifier of every file with log and document",
  [V+"visitor_file.go: fileVisitor.Visit, emitImportReference","internal/output/output.go: SetOutputOptions","cmd/scip-go/main.go: getLogLevel","internal/lookup/lookup.go: Global.GetSymbolOfObject, Global.GetPkgSymbol"])

p("C98","Flags about output do not change the content of the index",
  "Two invocations of the command `index` on the same program that differ only in `--quiet`, `--verbose`, `--output`, the profile rate, the disk, what was at the output path, and all orders of iteration: if both succeed, what they have written (a file or standard output) decodes to the same index: the same documents in the same order with the same occurrences, descriptions and relationships, the same external symbols, and the same metadata except for the recorded arguments, which are those given to each. If the options of one are accepted and nothing outside fails, the other succeeds too, whatever the flags, except that a negative verbosity without `--quiet` crashes before anything is written.",
  "all well-typed programs, pairs of invocations, surroundings, disks, prior targets and orders of iteration",
  "a statement about pairs of runs for all programs and all values of the flags",
  ["cmd/scip-go/main.go: makeOptions, IndexCmd.Run, getLogLevel",I+": Index","internal/output/output.go: SetOutputOptions"])
p("C99","No declaration displaces another",
  "Symbols are recorded by position. In files as the parser delivers them (every identifier has its own position) two entities are never recorded at the same position: not two members, not a field and its embedded type, not a package clause and a declaration, not entities of two packages. So after collecting, the position of every declared entity has exactly its own symbol, what was recorded for earlier files stays while later files are visited, every declared entity is described in its document under its own symbol, name, kind, signature and comments, and definitions and references use that symbol.",
  "all syntax trees with distinct identifier positions, all packages and projects made of them, all orders of map iteration and writers",
  "a conflict would need two declarations anywhere in any program to share a position; a test sees a few files, and the code only logs the conflict and overwrites",
  ["internal/lookup/lookup.go: Package.Set, Package.GetSymbol",V+"visitor_type.go: typeVisitor.Visit",V+"visitor_var.go: varVisitor.Visit",V+"visitor_func.go: funcVisitor.Visit",I+": visitPackage"])
p("C100","A symbol denotes one entity of the project",
  "Types, functions (apart from init), methods, package-level variables and constants, and the fields and methods in the bodies of type declarations (unless two identical anonymous types stand side by side in the body) have symbols of their own: two of them at different places, in one package or in two, never have the same symbol, and nothing else that the project declares, no package and no entity of a dependency has it either. So a complete index contains exactly one description and exactly one definition occurrence for each of these symbols, the definition is at the declaring identifier, and no external symbol carries it.",
  "all parsed and type-checked projects whose declarations follow Go's rules about unique names, all module names and versions that symbols can represent, all map orders and writers, all such entities",
  "injectivity over all pairs of declarations of all packages; tests compare a handful of snapshot files in which a collision between two far-apart declarations would go unnoticed",
  ["internal/symbols/symbols.go: FromDescriptors",V+"visitor_type.go: typeVisitor.Visit",V+"visitor_var.go: varVisitor.Visit",V+"visitor_func.go: funcVisitor.Visit",V+"visitor_file.go: fileVisitor.Visit",I+": Index"])
p("C101","From the repository to the symbols",
  "When `scip-go index` is started in a directory of a git repository, without a packages driver, and exits with status 0, what it has written decodes to an index in which every symbol is local or names a package of the loaded program: packages of the module carry the module path declared by the go.mod file of the module root and, as version, the first tag at HEAD that is a semantic version, else the first tag, else the first 12 characters of the commit id; packages of the standard library carry the Go version that `go list` reports with `go` in front; dependencies carry their own module path and version (pseudo-versions as the commit), also when replaced. A flag that is given takes the place of the value found. The options are exactly the flags and these values; the default pattern is `./...`. What `--module-root` names does not influence the default version, remote and Go version, which are those of the working directory.",
  "all repositories, tags, commit ids, flags, environments, loaded programs, orders of map iteration and surroundings in which the run succeeds",
  "tests run in one repository with fixed flags; the chain from git and go.mod to every symbol of every document has to hold for all of them",
  ["cmd/scip-go/main.go: parseArgs, makeOptions, IndexCmd.Run, defaultModuleRoot, defaultModuleVersion, defaultModulePath, defaultGoVersion","internal/git/infer_module_version.go: InferModuleVersion","internal/modules/modules.go: ModuleName",L+": normalizePackage"])
p("C102","The program ends, and it panics in four situations only",
  "Every invocation of the program (index, list of packages, list of missing packages, or bad arguments) ends with status 0, 1 or 2. It ends with status 2 (a panic) exactly if the commit id is shorter than 12 characters and there is no tag, or `go list` prints JSON null, whatever the flags; or, with arguments that are accepted and a module root that can be made absolute (and a profile that can be created, if one is asked for), if the verbosity is negative without `--quiet`, or if the module path has to be read from a go.mod file that has no module directive.",
  "all arguments, environments, answers of git and go, loaded programs (well-typed and finite), contents of the disk, failures of system calls and orders of iteration",
  "a panic could come from any partial operation on any path of the program; tests exercise a few inputs",
  ["cmd/scip-go/main.go: main, parseArgs, getLogLevel, makeOptions, IndexCmd.Run, PackagesCmd.Run, MissingCmd.Run","internal/git/infer_module_version.go: InferModuleVersion","internal/modules/modules.go: ModuleName",I+": Index"])
p("C103","When the program succeeds, and what the listing commands print",
  "A command exits with status 0 exactly if its arguments are accepted, git's and go's answers do not make the defaults panic, the module root can be made absolute, the verbosity is not negative (or --quiet is given), the module can be named (by the flag, by a go.mod file with a module directive, or, without a go.mod file, by the remote or not at all), the go command delivers the packages asked for, and no package of a locally replaced module has a broken go.mod file; `index` moreover has to be able to create its files, to write, and to encode (UTF-8). `packages` then prints a heading, the sorted import paths of the packages that match the patterns, a heading, and the sorted import paths of all packages they need together with `builtin`; `missing` prints that nothing is missing; neither touches the output file.",
  "all arguments, environments, answers of git and go, loaded programs (well-typed), states of the disk and orders of iteration",
  "an equivalence over all inputs of the program; a test sees one outcome of one set of inputs",
  ["cmd/scip-go/main.go: main, parseArgs, makeOptions, IndexCmd.Run, PackagesCmd.Run, MissingCmd.Run","internal/modules/modules.go: ModuleName",I+": GetPackages, ListMissing, Index",L+": LoadPackages"])
p("C104","Warnings have causes",
  "Indexing a parsed, type-checked project warns of exactly two things: first, once each, of the packages of which there are no types at all (unless implementations are skipped), then of the imports that the type checker could not resolve, in the order of files and source up to the file at which the run ended; so a project whose imports are all resolved and whose packages all have types is indexed silently. A conflict is warned of exactly where two declarations share a position under different symbols, and the warning names both; that never happens in parsed files. Before indexing there is a warning exactly if the module path is not given and there is no go.mod file in the module root; the warnings about missing patterns and missing modules never appear.",
  "all loaded projects, options, writers and orders of iteration; all environments and command lines",
  "absence of spurious and of missing warnings over all inputs; a test sees the log of one run",
  ["internal/lookup/lookup.go: Package.Set","internal/implementations/extractor.go: Extract",V+"visitor_file.go: Visit",I+": Index","internal/modules/modules.go: ModuleName",L+": normalizePackage, LoadPackages"])
p("C105","Standard error",
  "With --quiet nothing is logged, whatever happens (except the failure to write a wanted memory profile when the module root cannot be made absolute); without -V only problems are logged, with -V also what the program works with: the Go version, the module, whether it is the standard library, what is skipped and the packages driver. A run that does not get as far as loading packages logs nothing. Otherwise `packages` and `missing` log only these settings and the lack of a go.mod file where it is needed; `index` moreover the packages without types, each once, and then the imports that could not be resolved, all of them if it succeeds, and last a memory profile that could not be written. A line `error: ...` is printed exactly if the exit status is 1; a command line that is not understood is reported in it.",
  "all arguments, environments, answers of git and go, loaded programs (well-typed), states of the disk and orders of iteration",
  "absence of spurious and of missing output over all inputs and flags; a test sees the output of one run",
  ["cmd/scip-go/main.go: main, makeOptions, IndexCmd.Run, PackagesCmd.Run, MissingCmd.Run, getLogLevel","internal/output/output.go: SetOutputOptions","internal/modules/modules.go: ModuleName",L+": LoadPackages, addImportsToPkgs, normalizePackage",I+": Index, GetPackages, ListMissing"])
p("C106","-V -V explains the identities of packages and what is left out",
  "With -V -V the loader tells, of every package it keeps, exactly where its identity is not what the go command reported: the go.mod file of a local replacement that names its module path and version, or could not be read or parsed, and a version that is not known; a package of which nothing is told is indexed under the module path that was reported and under the version expected for it. If loading fails because of a go.mod file that cannot be parsed, this file is told. Collecting definitions tells of each package of the project once, in increasing order of the paths. The search for implementations tells exactly of the types and methods that it leaves out: types of packages outside of the project that were loaded from source, and methods that nothing names; in particular never of a type of the project, and of nothing with --skip-implementations.",
  "all package graphs with import cycles and replacements, go.mod files, options, orders of iteration and well-typed programs",
  "completeness and absence of false alarms over all inputs; a test checks chosen log lines",
  [L+": normalizePackage, addImportsToPkgs, LoadPackages",I+": indexVisitPackages",M+"/extractor.go: extractLocal, extractRemote, classify"])
p("C107","The text of a fingerprint tree reads back",
  "The text (String) of the tree that is parsed from the fingerprint of a type is this fingerprint, character by character. The text of any tree of lists, identifiers, strings and numbers parses to this very tree; so different trees have different texts.",
  "all types without tuples and with at most as many type parameters as are in scope; all finite trees",
  "a round trip over an infinite set of nested trees and of strings that have to be quoted; tests try a few types",
  [F+": Tree.String, writeSexpr, Parse, Encode"])
p("C108","-V -V tells which declarations are not understood, and silence means they are",
  "With -V -V the collecting pass over a package tells exactly of the variable and constant specs whose declared type it does not know (such as one in parentheses), the rest of which it skips, and of the embedded elements that it finds no name for. A package-level variable or constant is recorded under its package and its name alone exactly if no spec before it in the same declaration is told of; if none is told of in a whole package, all its variables and constants are recorded so. An embedded field of a declared struct type that is not told of is recorded, unless its type is of a kind that names nothing. In a run these records come directly after the one that says that the package is visited.",
  "all packages that the parser can deliver, with declarations nested in function literals and anonymous types to any depth",
  "an equivalence between log and symbols over all syntax trees; a test compares chosen lines",
  [V+"visitors.go: getIdentOfTypeExpr, VisitPackageSyntax",V+"visitor_var.go: Visit",V+"visitor_type.go: Visit",I+": indexVisitPackages"])
p("C109","The symbol tables may be filled concurrently, and read concurrently, but not both at once",
  "Any number of goroutines may call Add and SetPkgSymbol on one Global: there is no data race and no deadlock, every call returns, the answers and the tables are those of the calls made one after the other, and what is known of a package that only one of them is about does not depend on the schedule. Any number may look things up in tables that are not being changed, other than predeclared types, with the same guarantees, and each gets the answer it would get alone. Nothing else is safe: every possible data race is between a call that fills the tables and a lookup, or between a lookup of a predeclared type and another lookup of an object, and both kinds occur.",
  "all numbers of goroutines, sequences of calls, tables and interleavings",
  "schedules cannot be enumerated by tests; the race detector sees only those that happen",
  ["internal/lookup/lookup.go: Global.Add, Global.SetPkgSymbol, Global.GetPkgSymbol, Global.GetPackage, Global.GetSymbolInformation, Global.GetSymbolOfObject, skippedTypes"])
p("C110","A declaration that is kept keeps its symbols",
  "Between two versions of a package, edit whatever you like around a top-level declaration: add, change, remove or reorder others, in its file or elsewhere, move the declaration itself to another line or another file of the package. As long as the package has the same path and belongs to the same module version and the anonymous types in the declaration mean the same, everything that the declaration declares has the symbol it had. For entities with a name of their own (C100) both indexes have exactly one description and one definition with this symbol, the definition where the identifier now stands. The two descriptions say the same: display name, kind, documentation (the comments belong to the declaration), and the signature if the object is still written the same. The only exception are fields of anonymous types in a variable or constant spec with several names: their symbols contain line and column of the spec, so they change when anything above it does.",
  "all pairs of packages (in all well-typed projects), declarations and places",
  "a statement about all edits of all programs; tests compare chosen versions",
  [V+"visitors.go: VisitPackageSyntax, visitSyntax",V+"visitor_type.go",V+"visitor_func.go",V+"visitor_var.go",I+": Index","internal/symbols/symbols.go: FromDescriptors"])
p("C111","References lead from one index into another",
  "Index a package from source in one run, and in another run code that uses it as a dependency (known from type information only, in the same module version). If an identifier of the second index is used for a package-level type, constant, variable, function, method or field that the package declares, then the document has a reference over it whose symbol has exactly one definition and exactly one description in the first index, over the declaring identifier and with its name, and is no external symbol there; this holds exactly under the conditions of C04 (not for methods of interfaces, nor where aliases as receivers, derived structs or parenthesised types come in), and otherwise no reference of the identifier has that symbol. Conversely, a reference that has the symbol of an entity of the first index always belongs to an object of the package with the same path and module version and with the entity's name: it never leads astray. References to the package itself (imports and package qualifiers) lead to exactly one description and to the clauses of its files; external symbols and relationships with interfaces of the dependency lead to the declarations of these types.",
  "all pairs of well-typed projects and runs, packages, entities and identifiers that use them",
  "it is about pairs of indexes of arbitrary programs, made in different runs with different knowledge of the package; snapshot tests compare one index with itself",
  [I+": Index, indexVisitPackages","internal/symbols/composer.go: Compose","internal/lookup/lookup.go: Global.GetSymbolOfObject","internal/symbols/symbols.go: FromDescriptors",V+"visitor_file.go: Visit"])
with open("/verif/properties.jsonl","w") as f:
    for x in P: f.write(json.dumps(x)+"\n")
print(len(P))
