{"id": "C01", "title": "Symbol strings are uniquely decodable", "statement": "Every global symbol string the indexer emits can be decoded back into exactly the scheme, package manager, module path, module version and descriptor list it was built from; hence two symbols that differ in module, version or any descriptor are never the same string.", "quantifier": "all module paths/versions that are non-empty and do not start with a space, and all descriptor lists over the suffixes scip-go uses (namespace, type, term, method, meta), with arbitrary (also empty, unicode, back-quoted) names", "why_tests_cant": "escaping bugs show only for names with back-ticks, spaces or punctuation in particular neighbouring positions; the set of names is infinite", "anchors": ["internal/symbols/symbols.go: FromDescriptors", "internal/symbols/composer.go: Composer.Compose", "internal/visitors/scope.go: Scope.makeSymbol"]}
{"id": "C02", "title": "Global symbols are never mistaken for document-local symbols", "statement": "No global symbol string the indexer emits starts with the `local ` prefix that marks file-local symbols, and every file-local symbol does.", "quantifier": "all packages, all descriptor lists, all local counters", "why_tests_cant": "the claim is about every string the two builders can produce", "anchors": ["internal/symbols/symbols.go: FromDescriptors", "internal/visitors/visitor_file.go: createNewLocalSymbol"]}
{"id": "C03", "title": "Composed symbols do not depend on what was composed before", "statement": "Whatever sequence of symbol requests was made before, asking for the symbol of an object always gives the same string as the first time it was asked for; if an object is always asked for with the same package this is the string of that package; an object that has no symbol stays without.", "quantifier": "all finite histories of composition requests over all objects and packages", "why_tests_cant": "the memo table makes the result depend on history in principle; tests try one or two calls", "anchors": ["internal/symbols/composer.go: Composer.Compose"]}
{"id": "C04", "title": "A dependency reference uses the symbol under which the declaring module defines the entity", "statement": "For a package-level type, constant, variable, function, method, and for a field of a package-level struct type, the symbol a dependent module emits for a reference (made from type information only) equals the symbol the indexer emits for the definition when it indexes the declaring module itself.", "quantifier": "all package-level declarations of all packages, all receiver shapes (pointer, parenthesised, generic)", "why_tests_cant": "two independent code paths (syntax vs type objects) must agree on every declaration shape", "anchors": ["internal/symbols/composer.go: describe*, locateOwner, nameType", "internal/visitors/visitor_type.go", "internal/visitors/visitor_func.go", "internal/visitors/visitor_var.go"]}
{"id": "C05", "title": "Different package-level entities of a package get different symbols", "statement": "Within a package, the composed symbols of two package-level objects coincide only if the objects agree in descriptor path (owner and name) and in being function-like, type-like or value-like.", "quantifier": "all pairs of package-level objects of all packages", "why_tests_cant": "pairs of declarations over unbounded names", "anchors": ["internal/symbols/composer.go: describePkgName, describeTypeName, describeConst, describeFunc, describeVar"]}
{"id": "C06", "title": "The reported symbol kind and the symbol's last descriptor agree", "statement": "An object gets kind Function/Method/MethodSpecification iff its composed symbol ends in a method descriptor, a type kind iff it ends in a type descriptor, Constant/Variable/Field iff it ends in a term descriptor, Package iff it is a single namespace descriptor; nil objects and objects of other classes get no kind and no symbol.", "quantifier": "all objects of all classes and all underlying types", "why_tests_cant": "class/type combinations are open ended", "anchors": ["internal/symbols/kind.go: KindForObject", "internal/symbols/composer.go: Compose"]}
{"id": "C07", "title": "Emitted ranges are well formed", "statement": "For source positions in a file the emitted range has three components exactly when start and end are on the same line and four otherwise, is zero based, and its start is not after its end; the 32-bit conversion is exact for every position below 2^31.", "quantifier": "all start/end positions with line, column >= 1 and start <= end", "why_tests_cant": "wrap-around and line-crossing need all positions", "anchors": ["internal/visitors/visitors.go: scipRange", "internal/symbols/symbols.go: RangeFromName"]}
{"id": "C08", "title": "Import references and package clauses cover the text they name", "statement": "The range of an import reference covers exactly the characters between the quotes of the import path whenever the imported package's path is the path written in the source; the range of the package clause occurrence covers exactly the package name.", "quantifier": "all positions, all import paths", "why_tests_cant": "the range is computed from a name, not from the source text", "anchors": ["internal/symbols/symbols.go: RangeFromName", "internal/visitors/visitor_file.go: emitImportReference", "internal/index/scip.go: indexVisitPackages"]}
{"id": "C09", "title": "Local symbols are unique within a document", "statement": "Within one document, two different local declarations never get the same `local N` symbol, and the symbols are numbered 0,1,2,... without gaps.", "quantifier": "all syntax trees and all type information", "why_tests_cant": "uniqueness is an invariant over every traversal", "anchors": ["internal/visitors/visitor_file.go: createNewLocalSymbol, Visit"]}
{"id": "C10", "title": "A reference to a local resolves to the symbol of its declaration", "statement": "Every identifier that refers to a file-local object whose declaration was traversed earlier gets a reference occurrence with exactly the symbol that was given to the declaration.", "quantifier": "all syntax trees, all type information, all positions of uses after the declaration", "why_tests_cant": "needs the invariant that the local table is never overwritten", "anchors": ["internal/visitors/visitor_file.go: Visit"]}
{"id": "C11", "title": "Every local symbol that occurs in a document is described in it exactly once", "statement": "For every occurrence whose symbol is a `local N` given to a declaration, the document's symbol list has exactly one entry for it, with the declared object's name and kind; entries exist for no other local symbols.", "quantifier": "all syntax trees, all type information, all map iteration orders", "why_tests_cant": "relation between two independently filled collections", "anchors": ["internal/visitors/visitor_file.go: ToScipDocument, createNewLocalSymbol"]}
{"id": "C12", "title": "Every declaring identifier gets exactly one definition occurrence", "statement": "For each visited non-blank identifier that declares an object, exactly one definition occurrence with the identifier's range is emitted, in traversal order, and nothing else is emitted as a definition apart from the package clause and type-switch guards.", "quantifier": "all syntax trees, all type information", "why_tests_cant": "completeness over every tree shape", "anchors": ["internal/visitors/visitor_file.go: Visit, newDefinition"]}
{"id": "C13", "title": "Every resolvable identifier gets exactly one reference occurrence", "statement": "For each visited non-blank identifier that refers to an object with a symbol, exactly one reference occurrence with that symbol and the identifier's range is emitted; identifiers referring to universe objects, labels without local, or unresolvable objects get none.", "quantifier": "all syntax trees, all type information, all symbol tables", "why_tests_cant": "completeness over every tree shape", "anchors": ["internal/visitors/visitor_file.go: Visit, newReference", "internal/lookup/lookup.go: GetSymbolOfObject"]}
{"id": "C14", "title": "Indexing a file never crashes on well-typed input", "statement": "Given type information as the type checker produces it (a package name is used only to the left of a selector, declaring identifiers have distinct positions, package-less objects are universe objects), traversing a file never panics.", "quantifier": "all syntax trees and type information satisfying the stated facts", "why_tests_cant": "a crash needs one unlucky tree", "anchors": ["internal/visitors/visitor_file.go: Visit, createNewLocalSymbol", "internal/lookup/lookup.go: GetSymbolOfObject"]}
{"id": "C15", "title": "Definitions and references of a project entity agree across files and packages", "statement": "If an entity's declaration was collected from a project package, then the definition occurrence at its declaring identifier and every reference occurrence to it from any file of any project package carry the same symbol, and that symbol has a symbol-information entry in the document of the declaring file.", "quantifier": "all projects, all files, all pairs of identifiers", "why_tests_cant": "global agreement between passes; tests see sampled programs", "anchors": ["internal/visitors/visitor_file.go: Visit", "internal/lookup/lookup.go: GetSymbolOfObject, Get", "internal/visitors/visitors.go: VisitPackageSyntax"]}
{"id": "C16", "title": "Deprecation diagnostics follow the documentation", "statement": "A definition or reference occurrence of a collected project entity carries the Deprecated diagnostic iff the entity's collected documentation has a line starting with `Deprecated:`; locals and entities from dependencies never carry it.", "quantifier": "all documentation texts, all occurrences", "why_tests_cant": "unbounded texts and programs", "anchors": ["internal/visitors/visitor_file.go: isDeprecated, newDefinition, newReference", "internal/document/document.go: IsDocDeprecated"]}
{"id": "C17", "title": "Enclosing ranges are attached to function names only", "statement": "An occurrence carries an enclosing range iff it is the definition of a declared function's or method's name, and then the range is that of the whole declaration.", "quantifier": "all syntax trees including nested function literals", "why_tests_cant": "stateful tracking of the current function declaration", "anchors": ["internal/visitors/visitor_file.go: enclosingRange, Visit"]}
{"id": "C18", "title": "The declaration table behaves like a map with keep-first on equal symbols", "statement": "After any sequence of registrations, a position resolves to a registered entry for this position; re-registering the same symbol keeps the first entry, a different symbol replaces it, other positions are unaffected.", "quantifier": "all finite registration sequences", "why_tests_cant": "history dependence", "anchors": ["internal/lookup/lookup.go: Set, Get, GetSymbol"]}
{"id": "C19", "title": "Each collected symbol is published in exactly one document", "statement": "Every collected symbol entry appears in the symbol list of the document of the file that contains its position and of no other document, and no document lists an entry that was not collected.", "quantifier": "all tables, all files, all map iteration orders", "why_tests_cant": "partition property over unbounded tables and orders", "anchors": ["internal/lookup/lookup.go: SymbolsForFile", "internal/visitors/visitor_file.go: ToScipDocument"]}
{"id": "C20", "title": "Symbol lookup is history independent and classifies failures", "statement": "The answer of a symbol lookup for an object does not depend on which lookups were made before; universe objects, nil, labels and `unsafe` yield 'no symbol' without an error; an error is reported only for objects that belong to a package. An answer is either a description collected for the position of the object or one in which nothing but the symbol is filled in.", "quantifier": "all lookup histories, all objects", "why_tests_cant": "the implementation keeps global caches", "anchors": ["internal/lookup/lookup.go: GetSymbolOfObject, skippedTypes"]}
{"id": "C21", "title": "Type declarations: nesting of symbols mirrors nesting of source", "statement": "Collecting a type declaration registers the type name under <package>/<T># and each named field or interface method of its struct/interface body under <package>/<T>#<name>., restoring the scope afterwards, so that declarations never leak descriptors into following ones.", "quantifier": "all files, all type declarations, any nesting depth", "why_tests_cant": "scope push/pop balance over every tree", "anchors": ["internal/visitors/visitor_type.go", "internal/visitors/scope.go"]}
{"id": "C22", "title": "Package-level variables and constants are registered under <package>/<name>.", "statement": "Every name declared by a package-level var or const declaration is registered under the two-descriptor symbol of its package and its own name, independent of the other specs in the declaration group.", "quantifier": "all declaration groups with any number of specs, types and values", "why_tests_cant": "leakage between specs depends on type syntax of earlier specs", "anchors": ["internal/visitors/visitor_var.go: Visit"]}
{"id": "C23", "title": "Functions and methods are registered under their receiver's base type name", "statement": "A function declaration registers <package>/<f>(). and a method declaration <package>/<T>#<m>()., where T is the base name of the receiver through any nesting of pointers, parentheses and type argument lists.", "quantifier": "all receiver expressions of any depth", "why_tests_cant": "unbounded nesting", "anchors": ["internal/visitors/visitor_func.go: Visit, receiverTypeName, baseTypeName"]}
{"id": "C24", "title": "An embedded field is registered where the type checker places it", "statement": "For an embedded struct field the symbol is registered at the position of the embedded type's name, i.e. the position under which the definition occurrence and all references look it up.", "quantifier": "all embedded field expressions (T, *T, pkg.T, *pkg.T, instantiated) in type and var declarations", "why_tests_cant": "two visitors, many expression shapes", "anchors": ["internal/visitors/visitor_type.go: Visit", "internal/visitors/visitor_var.go: Visit", "internal/visitors/visitors.go: getIdentOfTypeExpr"]}
{"id": "C25", "title": "Fields of anonymous types are scoped by the owner and the type", "statement": "Fields of an anonymous struct/interface type reached from a named field through maps, arrays, slices and pointers are registered below the owner with the key of the anonymous type in between; identical anonymous types under the same owner share field symbols, and different anonymous types never do.", "quantifier": "all nestings of map, array, slice, pointer and anonymous types", "why_tests_cant": "unbounded nesting", "anchors": ["internal/visitors/visitor_type.go: walkAnonymousTypeFields", "internal/visitors/anon_type_key.go"]}
{"id": "C26", "title": "Identical types have equal fingerprints", "statement": "If two method signatures are identical by Go's type identity rules then their fingerprints are equal strings with the same tricky flag.", "quantifier": "all types of any depth", "why_tests_cant": "type terms are unbounded", "anchors": ["internal/implementations/fingerprint/fingerprint.go: Encode"]}
{"id": "C27", "title": "Equal non-tricky fingerprints mean identical types", "statement": "If two types have equal fingerprints and are not tricky, and package-qualified names denote unique types, then they are identical.", "quantifier": "all pairs of non-tricky types", "why_tests_cant": "collisions need unlucky pairs", "anchors": ["internal/implementations/fingerprint/fingerprint.go: Encode"]}
{"id": "C28", "title": "Parsing a fingerprint is infallible", "statement": "Parsing the fingerprint of any type succeeds and yields the tree that the fingerprint grammar prescribes for the type.", "quantifier": "all types whose names are Go identifiers, with arbitrary struct tags and package paths", "why_tests_cant": "lexing, quoting and nesting over unbounded input", "anchors": ["internal/implementations/fingerprint/fingerprint.go: Parse"]}
{"id": "C29", "title": "Fingerprint matching finds exactly the consistent instantiations", "statement": "A tree with type parameters matches a tree without them iff some assignment of subtrees to type parameters makes them equal; two parameter-free trees match iff they are equal; matching never crashes.", "quantifier": "all pairs of fingerprint trees", "why_tests_cant": "unification over unbounded trees", "anchors": ["internal/implementations/fingerprint/fingerprint.go: Matches, unify"]}
{"id": "C30", "title": "The method-set prefilters never lose an implementation", "statement": "If a concrete type or its pointer implements an interface, the method-count test and the 64-bit mask test both let the pair through, whatever the hash function does.", "quantifier": "all method sets, all interfaces, all hash values", "why_tests_cant": "depends on all hash collisions", "anchors": ["internal/implementations/implementations.go: methodMask, findImplementations"]}
{"id": "C31", "title": "Every emitted implementation relationship is real", "statement": "If a type symbol carries an implementation relationship to an interface symbol, then the type or its pointer implements that interface; a method carries one only to the interface method of the same identity.", "quantifier": "all programs, all iteration orders", "why_tests_cant": "soundness over all pairs", "anchors": ["internal/implementations/implementations.go: findImplementations"]}
{"id": "C32", "title": "Every implementation is emitted", "statement": "Every project type with methods that implements a non-empty interface (project or dependency) carries the relationship, and so do its methods.", "quantifier": "all pairs of concrete types and interfaces", "why_tests_cant": "completeness over all pairs, including unexported methods and embedding across packages", "anchors": ["internal/implementations/implementations.go: findImplementations"]}
{"id": "C33", "title": "Implementation results do not depend on iteration order", "statement": "The relationship list of every symbol after the implementation pass is the same for every order in which types, interfaces and methods are enumerated.", "quantifier": "all permutations of all maps", "why_tests_cant": "Go randomises map iteration; a test run sees one order", "anchors": ["internal/implementations/implementations.go: findImplementations, AddImplementationRelationships"]}
{"id": "C34", "title": "Relationship lists are sorted and duplicate free", "statement": "After the pass every touched symbol's relationships are strictly sorted by symbol, and repeating canonicalisation changes nothing.", "quantifier": "all relationship lists", "why_tests_cant": "needs all list contents", "anchors": ["internal/implementations/implementations.go: findImplementations"]}
{"id": "C35", "title": "External symbols are exactly the dependency types that implement project interfaces", "statement": "The external symbols produced are exactly the symbols of dependency types with at least one relationship, each of which names a project interface.", "quantifier": "all programs", "why_tests_cant": "completeness/soundness over all packages", "anchors": ["internal/implementations/implementations.go: AddImplementationRelationships"]}
{"id": "C36", "title": "The implementation progress counter ends at the announced total", "statement": "When the implementation passes finish the counter equals the announced total.", "quantifier": "all sets of types", "why_tests_cant": "off-by-one over all sizes", "anchors": ["internal/implementations/implementations.go: AddImplementationRelationships, findImplementations"]}
{"id": "C37", "title": "Every loaded package has a usable module identity", "statement": "After loading, every package has a module with non-empty path and non-empty version, whatever module information the loader delivered, unless loading reports an error.", "quantifier": "all packages (nil module, std, replaced, local replaced, unversioned), all options", "why_tests_cant": "many independent conditions", "anchors": ["internal/loader/loader.go: normalizePackage, LoadPackages"]}
{"id": "C38", "title": "Normalising a package twice changes nothing", "statement": "Normalising an already normalised package yields the same module path and version.", "quantifier": "all packages and options", "why_tests_cant": "a package can be normalised again via another import path", "anchors": ["internal/loader/loader.go: normalizePackage"]}
{"id": "C39", "title": "Pseudo-versions are reduced to their revision", "statement": "A module version that is a pseudo-version <base>-<timestamp>-<rev>[+build] becomes exactly <rev>.", "quantifier": "all version strings", "why_tests_cant": "string grammar over unbounded input", "anchors": ["internal/loader/loader.go: normalizePackage"]}
{"id": "C40", "title": "Build metadata is dropped, other versions are kept", "statement": "A valid semantic version with build metadata loses exactly the metadata; any other non-empty version is kept unchanged.", "quantifier": "all version strings", "why_tests_cant": "string grammar over unbounded input", "anchors": ["internal/loader/loader.go: normalizePackage"]}
{"id": "C41", "title": "With a packages driver all packages belong to the indexed module", "statement": "When a packages driver is configured, every package gets the configured module path and version (or `.`), regardless of what the driver reported; an environment variable that is unset or `off` does not count as configured.", "quantifier": "all packages, all options, all environment values", "why_tests_cant": "environment x options combinations", "anchors": ["internal/loader/loader.go: normalizePackage", "cmd/scip-go/main.go: makeOptions"]}
{"id": "C42", "title": "Standard library packages get the canonical module and un-prefixed path", "statement": "Every package without module or of module std, and every package while indexing std, is attributed to github.com/golang/go/src with the configured Go version, and a `std/` prefix of its path is removed.", "quantifier": "all packages and options without driver", "why_tests_cant": "all inputs", "anchors": ["internal/loader/loader.go: normalizePackage, isStandardLib"]}
{"id": "C43", "title": "The set of packages is closed under imports", "statement": "Every package imported (transitively) by a kept package is represented in the set of all packages, and every represented package other than builtin was reachable from a loaded one.", "quantifier": "all import graphs", "why_tests_cant": "graph reachability over unbounded graphs", "anchors": ["internal/loader/loader.go: addImportsToPkgs, LoadPackages"]}
{"id": "C44", "title": "The variant with most files wins", "statement": "Among all loaded variants of a package path, the one kept has at least as many files as every other variant met, and the first of several largest ones is kept.", "quantifier": "all import graphs, all orders of import iteration", "why_tests_cant": "order dependence", "anchors": ["internal/loader/loader.go: addImportsToPkgs"]}
{"id": "C45", "title": "Package collection terminates on every import graph", "statement": "Collecting imports terminates on every finite import graph, also on cyclic ones.", "quantifier": "all finite graphs", "why_tests_cant": "non-termination can not be tested", "anchors": ["internal/loader/loader.go: addImportsToPkgs"]}
{"id": "C46", "title": "Project packages are among all packages", "statement": "Every project package is also in the set of all packages, under the same identity and as the same object, and the pseudo package builtin is present.", "quantifier": "all load results", "why_tests_cant": "all graphs", "anchors": ["internal/loader/loader.go: LoadPackages"]}
{"id": "C47", "title": "Sibling-module detection by directory is exactly nesting", "statement": "Two directories are taken as nested iff one is an ancestor of (or equal to) the other; the relation is symmetric and false for unknown directories.", "quantifier": "all pairs of cleaned absolute paths", "why_tests_cant": "path arithmetic over unbounded paths", "anchors": ["internal/loader/loader.go: isNestedDir"]}
{"id": "C48", "title": "Unversioned packages inherit the project version exactly when they belong to the project's repository", "statement": "A package whose module is not replaced and has no version gets the project version if its directory is nested with the module root or its path or repository root equals that of the project module, and `.` otherwise; a package whose module is replaced by one without version always gets the project version, with a pseudo-version reduced to its revision and build metadata dropped.", "quantifier": "all packages, all repository-root oracles", "why_tests_cant": "oracle dependent", "anchors": ["internal/loader/loader.go: normalizePackage, hasSameRepoRoot"]}
{"id": "C49", "title": "Metadata first, then documents, then external symbols", "statement": "The sequence of messages handed to the writer is always one metadata message, then documents, then external symbols; every run that reports success wrote all of them.", "quantifier": "all projects, all writers (also failing ones)", "why_tests_cant": "all failure points", "anchors": ["internal/index/scip.go: Index"]}
{"id": "C50", "title": "A write failure stops indexing and is reported", "statement": "If the writer fails on some message, no later message is written and the run reports exactly this error.", "quantifier": "all failure points", "why_tests_cant": "needs every crash point", "anchors": ["internal/index/scip.go: Index"]}
{"id": "C51", "title": "One document per source file in deterministic order", "statement": "A successful run writes exactly one document for every source file of every project package, ordered by package path and then by file order, independent of map iteration order.", "quantifier": "all projects with distinct files, all map orders", "why_tests_cant": "all orders", "anchors": ["internal/index/scip.go: Index, indexVisitPackages"]}
{"id": "C52", "title": "The output file decodes to the messages written", "statement": "Decoding the output file as one SCIP index yields the metadata and, in order, exactly the documents and external symbols that were written; a file cut after any number of messages decodes to exactly those messages.", "quantifier": "all message sequences and all payload bytes", "why_tests_cant": "wire format over unbounded payloads", "anchors": ["cmd/scip-go/main.go: IndexCmd.Run"]}
{"id": "C53", "title": "Concurrent writes never interleave", "statement": "If several goroutines write messages concurrently, then in every schedule and at every moment the output is the concatenation of whole messages, each goroutine's in its own order, followed by at most one partial message, as long as no write has failed.", "quantifier": "all schedules, all numbers of goroutines", "why_tests_cant": "all interleavings", "anchors": ["cmd/scip-go/main.go: IndexCmd.Run"]}
{"id": "C54", "title": "A failed run leaves no output file", "statement": "If indexing reports an error, a regular output file is removed; option errors leave a pre-existing output file untouched; with `-` nothing is removed. So after a run over a well-typed project the output path holds what was there before, nothing, or a complete index.", "quantifier": "all failure points, all file system states", "why_tests_cant": "all failure points", "anchors": ["cmd/scip-go/main.go: IndexCmd.Run"]}
{"id": "C55", "title": "The missing-documents command never reports a loaded file", "statement": "Listing missing documents reports no file: every file of every project package was collected.", "quantifier": "all projects", "why_tests_cant": "universal claim", "anchors": ["internal/index/scip.go: ListMissing"]}
{"id": "C56", "title": "Package listing is sorted, duplicate free and nested", "statement": "The two printed package lists are strictly sorted; every current package is listed among the dependency packages, which also contain builtin.", "quantifier": "all load results, all map orders", "why_tests_cant": "all orders", "anchors": ["internal/index/scip.go: GetPackages", "cmd/scip-go/main.go: PackagesCmd.Run"]}
{"id": "C57", "title": "Package documentation is complete and ordered by relevance", "statement": "The package documentation lists the doc comments of exactly the files that have one, doc.go first, then the file named like the package, then other non-test files, then test files, preserving file order within a class.", "quantifier": "all packages, all file names", "why_tests_cant": "all names and orders", "anchors": ["internal/index/package_ident.go"]}
{"id": "C58", "title": "Every file of a package defines the package symbol once; it is described once per package", "statement": "Each document of a non-empty package starts with one definition occurrence of the package symbol at the package clause, and the package symbol's description is registered in the first file. In the whole index the symbol of a package has exactly one description, and exactly one definition per file of the package, at the clause; nothing else, in this package or another, has this symbol.", "quantifier": "all packages", "why_tests_cant": "all packages", "anchors": ["internal/index/scip.go: indexVisitPackages", "internal/visitors/visitor_file.go: NewFileVisitor"]}
{"id": "C59", "title": "Human readable durations never overstate and lose at most a bounded fraction", "statement": "The displayed duration is never greater than the measured one, loses less than 1/61 of it, never loses its leading unit, is monotone in it and displaying twice changes nothing.", "quantifier": "all durations", "why_tests_cant": "all integers", "anchors": ["internal/output/duration.go: humanElapsed"]}
{"id": "C60", "title": "Progress reporting waits for the work and ends with n/n", "statement": "In every schedule the progress display returns only after all work is done, its last line shows n/n, and in quiet mode nothing is printed.", "quantifier": "all schedules of ticker and workers", "why_tests_cant": "all interleavings", "anchors": ["internal/output/output.go: WithProgressParallel, WithProgress"]}
{"id": "C61", "title": "Log level is monotone in verbosity and quiet wins", "statement": "For every non-negative verbosity the level is defined, more verbosity never shows less, verbosity beyond 2 equals 2, and quiet always selects the silent level.", "quantifier": "all counters", "why_tests_cant": "all integers", "anchors": ["cmd/scip-go/main.go: getLogLevel"]}
{"id": "C62", "title": "SSH-style and URL-style remotes of the same repository give the same name", "statement": "git@H:P and git@H:P.git both give H/P, and a URL with host H and path /P or /P.git gives the same name.", "quantifier": "all hosts and paths without colon", "why_tests_cant": "string handling over unbounded input", "anchors": ["internal/git/infer_repo.go: parseRemote"]}
{"id": "C63", "title": "The inferred module version prefers semantic version tags", "statement": "If some tag at HEAD is a valid semantic version the first such tag is used; otherwise the first tag; without tags the first 12 characters of the commit id.", "quantifier": "all tag lists and commit ids", "why_tests_cant": "all lists", "anchors": ["internal/git/infer_module_version.go: InferModuleVersion"]}
{"id": "C64", "title": "Module name resolution: explicit name wins, then go.mod, then repository", "statement": "An explicit module path is used verbatim; otherwise the go.mod module path; otherwise the resolved repository root, and a failure to resolve is reported as an error; std is recognised in every case.", "quantifier": "all option values and file contents", "why_tests_cant": "all combinations", "anchors": ["internal/modules/modules.go: ModuleName, resolveModuleName"]}
{"id": "C65", "title": "The default module root is the closest ancestor with a go.mod", "statement": "The default module root is the closest directory at or above the working directory and inside the repository that contains a go.mod, and `.` if there is none.", "quantifier": "all directory trees and working directories", "why_tests_cant": "all trees", "anchors": ["cmd/scip-go/paths.go: searchForGoMod"]}
{"id": "C66", "title": "Deprecation is detected exactly for lines starting with Deprecated:", "statement": "A documentation list counts as deprecated iff one of its texts has a line that starts with `Deprecated:`, wherever the line is and however many texts there are.", "quantifier": "all texts", "why_tests_cant": "all strings", "anchors": ["internal/document/document.go: IsDocDeprecated"]}
{"id": "C67", "title": "Re-quoting of struct tags preserves everything else", "statement": "Signature text outside double-quoted literals is preserved verbatim and in order; each well-formed double-quoted literal is replaced by its value in back-ticks; text without double quotes is unchanged.", "quantifier": "all strings", "why_tests_cant": "all strings", "anchors": ["internal/document/document.go: quotedTagsToBacktick"]}
{"id": "C68", "title": "Documentation of a declared symbol", "statement": "The documentation list of a declared symbol has no empty entry and no duplicate: it is the entity's own comment (falling back to the declaration group's comment) followed by the group comment if that is different and non-empty.", "quantifier": "all declaration groups and comments", "why_tests_cant": "comment placement combinations", "anchors": ["internal/document/document.go: SetNewSymbolForPos, extractHoverText"]}
{"id": "C69", "title": "Two runs produce the same documents up to the order of symbol descriptions", "statement": "For the same input, two runs under different map iteration orders give the same documents with the same occurrences in the same order, and symbol lists that are permutations of each other.", "quantifier": "all inputs, all map iteration orders", "why_tests_cant": "Go randomises map iteration", "anchors": ["internal/index/scip.go: Index", "internal/visitors/visitor_file.go: ToScipDocument", "internal/lookup/lookup.go: SymbolsForFile"]}
{"id": "C70", "title": "A collected package-level entity always has a symbol of its own package", "statement": "Every symbol registered while collecting a package starts with the package's own module path, version and import path.", "quantifier": "all packages and syntax trees", "why_tests_cant": "all trees", "anchors": ["internal/visitors/scope.go", "internal/symbols/symbols.go: FromDescriptors"]}
{"id": "C71", "title": "Kinds of type parameters", "statement": "An object that is a type parameter is reported with kind TypeParameter, never with the kind of an ordinary type.", "quantifier": "all type-checker objects", "why_tests_cant": "all objects", "anchors": ["internal/symbols/composer.go: KindForObject"]}
{"id": "C72", "title": "The module path follows replacements and local go.mod files", "statement": "A loaded package of an ordinary module keeps its import path, and its module path is that of the replacement if the module is replaced, the one named by the go.mod file if that is a local directory with a readable go.mod, and `.` if the result is empty.", "quantifier": "all packages, options, file contents and import graphs", "why_tests_cant": "depends on module information, file contents and traversal", "anchors": ["internal/loader/loader.go: normalizePackage"]}
{"id": "C73", "title": "Documents are named by their path below the module root", "statement": "For a module root and a file below it, both clean absolute paths, the document's relative path is the rest of the path: it does not start with a slash or contain `..`, and root joined with it is the file again; different files get different relative paths.", "quantifier": "all clean absolute paths", "why_tests_cant": "all paths", "anchors": ["internal/visitors/visitors.go: VisitPackageSyntax"]}
{"id": "C74", "title": "Indexing a well-typed program never crashes", "statement": "Indexing a loaded program without errors never panics, whatever the map iteration orders and whatever the writer does: the run ends with success, or with the error of the write that failed.", "quantifier": "all well-typed projects, all map iteration orders, all writers", "why_tests_cant": "absence of panics over all programs", "anchors": ["internal/index/scip.go: Index, indexVisitPackages", "internal/visitors/visitor_file.go", "internal/implementations/implementations.go: AddImplementationRelationships"]}
{"id": "C75", "title": "Every symbol defined in a document is described in it", "statement": "If a document of a run has a definition occurrence of a symbol, then the document's symbol list has an entry with this symbol. The only exception is the symbol of the package at the package clause, which is described in one document of the package only (C58).", "quantifier": "all loaded projects, all map iteration orders, all files, all definition occurrences", "why_tests_cant": "tests compare the definitions of a few sample packages with golden files; that no kind of declaration in any program yields a definition without a description is a statement about all of them", "anchors": ["internal/visitors/visitor_file.go: fileVisitor.Visit, ToScipDocument", "internal/lookup/lookup.go: Package.SymbolsForFile", "internal/index/scip.go: indexVisitPackages"]}
{"id": "C76", "title": "The listing commands print exactly what was loaded", "statement": "The packages command prints a heading, the import paths of the project's packages in strictly increasing order, a second heading and the import paths of all loaded packages in strictly increasing order, one per line, so that a reader recovers both lists from the text; before that, unless --quiet is given, the lines that announce resolving the module name and loading; the missing command prints that nothing is missing for every project; if loading fails both print nothing of the listing and return the error.", "quantifier": "all flags, all loaded package graphs, all map iteration orders", "why_tests_cant": "tests see a few projects; that nothing is lost, repeated or reordered for any graph and map order is a universal statement", "anchors": ["cmd/scip-go/main.go: PackagesCmd.Run, MissingCmd.Run", "internal/index/scip.go: GetPackages, ListMissing"]}
{"id": "C77", "title": "Missing tools only leave defaults empty", "statement": "Before flags are parsed the program asks git and go for defaults. Whatever these tools answer or however they fail, the program goes on: a failing tool leaves its default empty, an answering one determines it (repository name, tag or commit, go followed by the module's Go version). The program stops only if git reports no tag and a commit id of less than 12 characters, or if go list prints the JSON value null (in both cases by a panic).", "quantifier": "all outputs and failures of the subprocesses", "why_tests_cant": "the answers of the tools depend on the environment; unit tests run in one environment", "anchors": ["cmd/scip-go/main.go: parseArgs, defaultRepositoryRemote, defaultModuleVersion, defaultGoVersion", "internal/git/infer_repo.go: InferRepo", "internal/git/infer_module_version.go: InferModuleVersion"]}
{"id": "C78", "title": "The exit status tells whether the index is complete", "statement": "The program ends with status 0 exactly if the arguments were understood and the command succeeded; an error gives status 1 and its text on standard error. If index ends with status 0, what is at the output path (or, for `-`, what was written of the index to standard output, see C89) decodes to the metadata, one document for every file of every project package in order and the external symbols; otherwise the output path holds what was there before or nothing.", "quantifier": "all flags, all projects, all failures of writing, creating, loading", "why_tests_cant": "a statement about all failure points of all runs", "anchors": ["cmd/scip-go/main.go: main, IndexCmd.Run", "internal/index/scip.go: Index"]}
{"id": "C79", "title": "The signature of a symbol tells exactly what was declared", "statement": "Every symbol that is defined by an object of the type checker is described with a non-empty signature. The signature of a variable, field, constant, function, method, defined type or alias determines its kind, name and complete type (of a constant also the value, of a method the receiver), and entities that agree in these have the same signature; types of the same package are written without package, others with the name of their package.", "quantifier": "all objects of all packages, all types", "why_tests_cant": "tests compare a few golden signatures; that no two different declarations share a signature and that none is empty is a statement about all types", "anchors": ["internal/document/document.go: typeStringForObject, formatTypeDeclaration, formatAliasDeclaration, expandTypeExpr, formatGoDecl, relativeQualifier"]}
{"id": "C80", "title": "The signature of a local symbol tells what was declared", "statement": "Every local symbol except the variable of a type switch is described with a non-empty signature: for an import the name and the path, for anything else a text that determines kind, name and type (package names left out), and that entities agreeing in these share.", "quantifier": "all local objects, all types", "why_tests_cant": "a statement about all types and objects", "anchors": ["internal/lookup/local.go: SignatureText", "internal/visitors/visitor_file.go: ToScipDocument"]}
{"id": "C81", "title": "Every loaded package has exactly one identity", "statement": "The module path and version under which a package is indexed depend only on the package as the go command delivers it, on the options and on the go.mod files and repository roots asked for: with a package driver the project's path and version; for the standard library golang/go/src and the Go version; otherwise the path of the (possibly replaced) module or the one its local go.mod names, and the version reduced to revision or core version, the project's version or `.`.", "quantifier": "all packages, options, import graphs, iteration orders and environments", "why_tests_cant": "the identity is computed in place during a traversal that depends on the graph and on map iteration; that it is the same for every way a package can be reached is a statement about all graphs", "anchors": ["internal/loader/loader.go: normalizePackage, LoadPackages", "internal/loader/loader.go: ensureVersionForPackage"]}
{"id": "C82", "title": "Every source file of every matched package is indexed, and the run ends", "statement": "From the go command's answer to the messages of the index: a successful run writes exactly one document for every source file of every package that the patterns match, in whatever variant (with or without tests) the file occurs, and none else, named by the path below the module root. Every run ends and never crashes. If no write fails, a run fails exactly if some package of the program belongs to a module replaced by a local directory whose go.mod file has no module directive; it then fails with a panic message after writing the metadata. If the go command fails the run fails with its error and nothing but the metadata is written.", "quantifier": "all answers of the go command for well-typed programs, all environments, import iteration orders, map orders, options and writers", "why_tests_cant": "a statement about all programs, graphs and schedules of map iteration", "anchors": ["internal/index/scip.go: Index, indexVisitPackages", "internal/loader/loader.go: LoadPackages, loadPackages"]}
{"id": "C83", "title": "Every symbol carries the identity of a package of the program", "statement": "Every symbol in any occurrence, description or relationship of the output is `local` with a number (never in relationships or external symbols) or starts with the import path of a delivered package together with exactly the module path and version that identify this package.", "quantifier": "all well-typed programs, all environments, orders and options", "why_tests_cant": "a statement about all symbols of all programs", "anchors": ["internal/symbols/symbols.go: FromDescriptors", "internal/index/scip.go: Index", "internal/lookup/lookup.go: GetSymbolOfObject", "internal/loader/loader.go: normalizePackage"]}
{"id": "C84", "title": "The relationships in the index are exactly the implementations in the source", "statement": "In every document of every run, a described symbol is local and has no relationships, or it belongs to something declared in this file, and its relationships are, in increasing order and without repetition, exactly the interfaces (for a type) or interface methods (for a method) that it implements: named by their own symbols, for every pair of a concrete type and a non-empty interface of which at least one belongs to the project (interfaces with unexported methods count for types of their own package only). A type declared at package level is described under its symbol in the document of its file. A successful run writes external symbols for exactly the exported dependency types that implement a project interface, each once. Everything is said in terms of the declarations in the source and their type information.", "quantifier": "all well-typed projects and dependencies, map orders, options and writers", "why_tests_cant": "relationships connect any type of the project with any interface of any dependency; that none is missing or superfluous for any program is a statement about all programs", "anchors": ["internal/implementations/implementations.go: AddImplementationRelationships, findImplementations", "internal/implementations/extractor.go: extractInterfacesAndConcreteTypes", "internal/index/scip.go: Index"]}
{"id": "C85", "title": "The index does not depend on the order of iteration anywhere", "statement": "Two runs of the whole program on the same answer of the go command, with any orders of iteration over imports (which decide in which order packages are met, and which of several equal variants of a package is kept) and over all other maps, write the same index: the same metadata, the same documents in the same order with the same occurrences in the same order, the same descriptions and relationships, and the same external symbols. If no write fails both have the same outcome, even if some go.mod file is broken: both succeed with the same index or both fail alike after the metadata; otherwise what both have written agrees.", "quantifier": "all well-typed programs whose variants with equally many files are alike, all orders of iteration over imports and maps, all environments, options and writers", "why_tests_cant": "Go chooses the iteration order of a map at random; a test sees a few orders, the property is about all of them", "anchors": ["internal/loader/loader.go: LoadPackages, addImportsToPkgs", "internal/index/scip.go: Index", "internal/implementations/implementations.go: AddImplementationRelationships"]}
{"id": "C86", "title": "What is indexed is exactly what the go command delivers", "statement": "A run of the whole program that gets beyond loading indexes, for every import path among the packages reachable from the matched ones, exactly one variant delivered under that path, one with the most files; with its own syntax, type information and source text, and identified by the module that the options, the delivered module information and the environment determine. The project is exactly the packages under the paths of matched packages. Nothing else is indexed, and nothing reachable is left out.", "quantifier": "all well-typed programs delivered by the go command, orders of iteration, environments, options and writers", "why_tests_cant": "which variant of a package is met first depends on map iteration; the property is about all import graphs and orders", "anchors": ["internal/loader/loader.go: LoadPackages, addImportsToPkgs, IsStandardLib, normalizePackage", "internal/index/scip.go: Index"]}
{"id": "C87", "title": "The index is exactly what the source says", "statement": "A successful run writes metadata, then one document per file of the packages of the project, in the order of import paths and of files, then external symbols. The occurrences of a document are, in source order, the definition of the package clause and for every identifier, package qualifier and import spec of the file exactly the definitions and references that the declarations and the type checker give it, each with its span, symbol, enclosing range and deprecation mark; its descriptions are exactly one per position of the file at which the package declares something and one per local declaration, each with its name, kind, signature, comments and relationships. Every document written by a failing run is complete in the same sense. If nothing in the source is ambiguous this determines the index: two indexes of the same project are the same up to the order of descriptions and of external symbols.", "quantifier": "all well-typed projects and programs, orders of iteration, environments, options and writers", "why_tests_cant": "a statement about the whole content of the index for all programs, which no set of snapshots covers", "anchors": ["internal/index/scip.go: Index, indexVisitPackages", "internal/visitors/visitor_file.go: Visit, NewFileVisitor, ToScipDocument", "internal/visitors/visitors.go: VisitPackageSyntax, walkPackageAst"]}
{"id": "C88", "title": "From the command line to the output file", "statement": "The command `index`, on a program that the Go tools deliver, always ends, with exit status 0 or 1. With status 0 the output (the file; for `-` standard output, with --quiet all of it, else what is left without progress) decodes to the index of the delivered program, as C87 describes it. With status 1 it says why on standard error, and at the output path there is what was there before or nothing. If no write fails, the file can be created, no go.mod file is broken and all texts are UTF-8, the status is 0.", "quantifier": "all flags, delivered programs, orders of iteration, environments, disks and earlier contents of the output file", "why_tests_cant": "the whole command with all its inputs and all failures of the disk; snapshots never see a failure", "anchors": ["cmd/scip-go/main.go: main, IndexCmd.Run, makeOptions", "internal/index/scip.go: Index", "internal/loader/loader.go: LoadPackages"]}
{"id": "C89", "title": "Standard output is the index and nothing else", "statement": "With `--output -` standard output consists of exactly the bytes of the index; with another output no byte of the index goes there.", "quantifier": "all flags, projects, environments, disks, schedules of progress and writing", "why_tests_cant": "progress is printed by other goroutines at moments chosen by a ticker; a statement about all interleavings", "anchors": ["cmd/scip-go/main.go: IndexCmd.Run", "internal/output/output.go: WithProgress, WithProgressParallel", "internal/modules/modules.go: ModuleName", "internal/loader/loader.go: LoadPackages", "internal/index/scip.go: Index"]}
{"id": "C90", "title": "Compose may be called concurrently", "statement": "Any number of goroutines may call Compose on one composer: no two of them access its table at once, none waits for ever, and each gets the answer that the calls made one after the other, in some order that agrees with time, would get; if all requests about one entity come with the same package, that is the answer of a composer of its own, whatever the schedule.", "quantifier": "all numbers of goroutines, sequences of requests and interleavings", "why_tests_cant": "schedules cannot be enumerated by tests; a race shows only in some", "anchors": ["internal/symbols/composer.go: Composer.Compose, NewComposer"]}
{"id": "C91", "title": "UTF-8 in, UTF-8 out", "statement": "If the source files, paths, versions and arguments are UTF-8, every string in the index is UTF-8; since Protocol Buffers refuse other strings, and with one such string the whole index fails, the command then ends with status 0 if nothing outside of it fails.", "quantifier": "all programs whose texts are UTF-8, orders of iteration, options, environments, writers", "why_tests_cant": "texts are cut, trimmed, split, quoted and unquoted in many places; a cut inside of a character shows only for some inputs and makes the whole run fail", "anchors": ["internal/index/scip.go: Index", "internal/document/document.go: typeStringForObject, quotedTagsToBacktick, formatGoDecl", "internal/symbols/composer.go: Compose", "cmd/scip-go/main.go: IndexCmd.Run"]}
{"id": "C92", "title": "Every schedule of the indexer's goroutines gives the same index", "statement": "Index starts three goroutines (collecting definitions, relating types, visiting files), each under a progress display with a goroutine of its own. Whatever the schedule: when Index is over, the messages handed to the writer and the outcome are those of the same program run without goroutines; at any time before (so also if the process is killed) the messages written are the first ones of these; no two goroutines ever access the same variable at the same time unless both only read or both go through an atomic, a wait group, a channel or a mutex; until it is over some goroutine can go on, it cannot run forever unless only the display moves, and when it is over no goroutine is left behind.", "quantifier": "all schedules (interleavings of the steps of all goroutines), all programs, all writers (failing at any call), all log levels, all orders of map iteration", "why_tests_cant": "a test sees one schedule per run; the race detector only reports races that happened", "anchors": ["internal/index/scip.go:Index", "internal/index/scip.go:indexVisitPackages", "internal/implementations/implementations.go:AddImplementationRelationships", "internal/output/output.go:WithProgressParallel"]}
{"id": "C93", "title": "--skip-implementations removes relationships and external symbols, and nothing else", "statement": "Indexing the same program with and without --skip-implementations gives documents for the same files in the same order, with the same occurrences and the same descriptions of symbols; the index made with the flag has no relationship and no external symbol; the metadata differ at most in the recorded arguments.", "quantifier": "all programs the Go tools deliver, orders of iteration in both runs, options", "why_tests_cant": "the two runs make independent choices of map iteration; tests compare one pair of runs on a fixed program", "anchors": ["internal/index/scip.go: Index", "internal/implementations/implementations.go: AddImplementationRelationships", "cmd/scip-go/main.go: IndexCmd"]}
{"id": "C94", "title": "Where files lie in the file set, and all addresses, do not matter", "statement": "Files are parsed and packages type-checked concurrently, so positions in the file set, the addresses of identifiers and objects and the numbers of files differ from run to run. Whatever they are, the index is the same: the same documents with the same occurrences, descriptions and relationships, and the same external symbols, each list in some order. With suitable orders of map iteration, the two runs even write the same messages in the same order.", "quantifier": "all programs, injective renumberings of positions (each file moved as a whole), identifiers, objects and files, orders of iteration in both runs", "why_tests_cant": "positions and pointers are keys of the indexer's maps and are decided by the scheduler inside go/packages; a test sees the layout of one run", "anchors": ["internal/index/scip.go: Index", "internal/lookup/lookup.go: Package, Global", "internal/symbols/composer.go: Composer", "internal/implementations/implementations.go: AddImplementationRelationships", "internal/visitors/visitor_file.go: NewFileVisitor"]}
{"id": "C95", "title": "Which other packages are indexed in the same run does not matter to a file, apart from references to them", "statement": "If a package is indexed once together with some packages and once together with more of them, each of its files gets the same relative path, descriptions of the same symbols with the same texts (relationships left out), and the same occurrences in the same order except for references to entities of the packages that were not indexed before: only these can be marked as deprecated, have another symbol (for what C04 excepts, e.g. methods of interfaces) or be added. Files that refer to nothing in those packages have equal occurrences, and where the referenced entities are declared plainly (no interface method, alias receiver or derived struct) only deprecation marks are added.", "quantifier": "all pairs of loaded projects of which one extends the other, all packages and files, all orders of map iteration, all writers and options", "why_tests_cant": "a test compares one pair of package patterns; what one package's visit leaves behind in shared tables could change any other document", "anchors": ["internal/index/scip.go: Index, indexVisitPackages, indexProject, visitPackage", "internal/lookup/lookup.go: Global.GetSymbolOfObject, Global.GetSymbolInformation", "internal/visitors/visitor_file.go: NewFileVisitor, fileVisitor.Visit", "internal/loader/loader.go: LoadPackages, loadMode"]}
{"id": "C96", "title": "A file that is not edited keeps its part of the index while other files are edited", "statement": "If a file is left alone while other files of the project are edited (in its own package or elsewhere), and the types of what it declares and the symbols of what it refers to remain, then its document keeps its path and its occurrences, in the same order, and describes the same entities in the same words; relationships may change with the interfaces of the project and are the same if the implemented interfaces are. Names of locals, which are counters, do not shift. The exception is real: when a comment elsewhere declares a referenced entity deprecated, the reference is marked.", "quantifier": "all pairs of loaded projects with a file in common that was not edited, all edits of other files that keep the symbols and deprecation of what the file refers to, all orders of map iteration, writers and options", "why_tests_cant": "a test edits one file of one project; counters, tables shared by the files of a package and package-level documentation could carry any edit into other documents", "anchors": ["internal/index/scip.go: Index, indexVisitPackages, visitPackage", "internal/visitors/visitor_file.go: NewFileVisitor, fileVisitor.Visit", "internal/index/package_ident.go: findPackageDocs", "internal/symbols/composer.go: Composer", "internal/lookup/lookup.go: Package, Global.GetSymbolOfObject"]}
{"id": "C97", "title": "What a document lacks is reported in the log", "statement": "While a file is visited the program logs, in the order of the source: every import that the type checker could not resolve, every import of a package that was not loaded, every name pkg.Name of such a package, every identifier the type checker knows nothing about, and every identifier that refers to something which should have a symbol but has none, with its position and package; and nothing else. So an identifier that refers to something has a reference in the document, or refers to something that has no symbol by design (predeclared, unsafe, labels, nil), or is in the log; likewise imports and qualified names. With -VV all of this is shown, with less verbosity only the unresolved imports (Warn), with --quiet nothing, and more verbosity never hides anything.", "quantifier": "all loaded projects with all combinations of missing packages, unresolved imports and identifiers; all files; all orders of map iteration and writers; all verbosities", "why_tests_cant": "a test has a few missing symbols; silence about a lost reference is visible only by comparing every identifier of every file with log and document", "anchors": ["internal/visitors/visitor_file.go: fileVisitor.Visit, emitImportReference", "internal/output/output.go: SetOutputOptions", "cmd/scip-go/main.go: getLogLevel", "internal/lookup/lookup.go: Global.GetSymbolOfObject, Global.GetPkgSymbol"]}
{"id": "C98", "title": "Flags about output do not change the content of the index", "statement": "Two invocations of the command `index` on the same program that differ only in `--quiet`, `--verbose`, `--output`, the profile rate, the disk, what was at the output path, and all orders of iteration: if both succeed, what they have written (a file or standard output) decodes to the same index: the same documents in the same order with the same occurrences, descriptions and relationships, the same external symbols, and the same metadata except for the recorded arguments, which are those given to each. If the options of one are accepted and nothing outside fails, the other succeeds too, whatever the flags, except that a negative verbosity without `--quiet` crashes before anything is written.", "quantifier": "all well-typed programs, pairs of invocations, surroundings, disks, prior targets and orders of iteration", "why_tests_cant": "a statement about pairs of runs for all programs and all values of the flags", "anchors": ["cmd/scip-go/main.go: makeOptions, IndexCmd.Run, getLogLevel", "internal/index/scip.go: Index", "internal/output/output.go: SetOutputOptions"]}
{"id": "C99", "title": "No declaration displaces another", "statement": "Symbols are recorded by position. In files as the parser delivers them (every identifier has its own position) two entities are never recorded at the same position: not two members, not a field and its embedded type, not a package clause and a declaration, not entities of two packages. So after collecting, the position of every declared entity has exactly its own symbol, what was recorded for earlier files stays while later files are visited, every declared entity is described in its document under its own symbol, name, kind, signature and comments, and definitions and references use that symbol.", "quantifier": "all syntax trees with distinct identifier positions, all packages and projects made of them, all orders of map iteration and writers", "why_tests_cant": "a conflict would need two declarations anywhere in any program to share a position; a test sees a few files, and the code only logs the conflict and overwrites", "anchors": ["internal/lookup/lookup.go: Package.Set, Package.GetSymbol", "internal/visitors/visitor_type.go: typeVisitor.Visit", "internal/visitors/visitor_var.go: varVisitor.Visit", "internal/visitors/visitor_func.go: funcVisitor.Visit", "internal/index/scip.go: visitPackage"]}
{"id": "C100", "title": "A symbol denotes one entity of the project", "statement": "Types, functions (apart from init), methods, package-level variables and constants, and the fields and methods in the bodies of type declarations (unless two identical anonymous types stand side by side in the body) have symbols of their own: two of them at different places, in one package or in two, never have the same symbol, and nothing else that the project declares, no package and no entity of a dependency has it either. So a complete index contains exactly one description and exactly one definition occurrence for each of these symbols, the definition is at the declaring identifier, and no external symbol carries it.", "quantifier": "all parsed and type-checked projects whose declarations follow Go's rules about unique names, all module names and versions that symbols can represent, all map orders and writers, all such entities", "why_tests_cant": "injectivity over all pairs of declarations of all packages; tests compare a handful of snapshot files in which a collision between two far-apart declarations would go unnoticed", "anchors": ["internal/symbols/symbols.go: FromDescriptors", "internal/visitors/visitor_type.go: typeVisitor.Visit", "internal/visitors/visitor_var.go: varVisitor.Visit", "internal/visitors/visitor_func.go: funcVisitor.Visit", "internal/visitors/visitor_file.go: fileVisitor.Visit", "internal/index/scip.go: Index"]}
{"id": "C101", "title": "From the repository to the symbols", "statement": "When `scip-go index` is started in a directory of a git repository, without a packages driver, and exits with status 0, what it has written decodes to an index in which every symbol is local or names a package of the loaded program: packages of the module carry the module path declared by the go.mod file of the module root and, as version, the first tag at HEAD that is a semantic version, else the first tag, else the first 12 characters of the commit id; packages of the standard library carry the Go version that `go list` reports with `go` in front; dependencies carry their own module path and version (pseudo-versions as the commit), also when replaced. A flag that is given takes the place of the value found. The options are exactly the flags and these values; the default pattern is `./...`. What `--module-root` names does not influence the default version, remote and Go version, which are those of the working directory.", "quantifier": "all repositories, tags, commit ids, flags, environments, loaded programs, orders of map iteration and surroundings in which the run succeeds", "why_tests_cant": "tests run in one repository with fixed flags; the chain from git and go.mod to every symbol of every document has to hold for all of them", "anchors": ["cmd/scip-go/main.go: parseArgs, makeOptions, IndexCmd.Run, defaultModuleRoot, defaultModuleVersion, defaultModulePath, defaultGoVersion", "internal/git/infer_module_version.go: InferModuleVersion", "internal/modules/modules.go: ModuleName", "internal/loader/loader.go: normalizePackage"]}
{"id": "C102", "title": "The program ends, and it panics in four situations only", "statement": "Every invocation of the program (index, list of packages, list of missing packages, or bad arguments) ends with status 0, 1 or 2. It ends with status 2 (a panic) exactly if the commit id is shorter than 12 characters and there is no tag, or `go list` prints JSON null, whatever the flags; or, with arguments that are accepted and a module root that can be made absolute (and a profile that can be created, if one is asked for), if the verbosity is negative without `--quiet`, or if the module path has to be read from a go.mod file that has no module directive.", "quantifier": "all arguments, environments, answers of git and go, loaded programs (well-typed and finite), contents of the disk, failures of system calls and orders of iteration", "why_tests_cant": "a panic could come from any partial operation on any path of the program; tests exercise a few inputs", "anchors": ["cmd/scip-go/main.go: main, parseArgs, getLogLevel, makeOptions, IndexCmd.Run, PackagesCmd.Run, MissingCmd.Run", "internal/git/infer_module_version.go: InferModuleVersion", "internal/modules/modules.go: ModuleName", "internal/index/scip.go: Index"]}
{"id": "C103", "title": "When the program succeeds, and what the listing commands print", "statement": "A command exits with status 0 exactly if its arguments are accepted, git's and go's answers do not make the defaults panic, the module root can be made absolute, the verbosity is not negative (or --quiet is given), the module can be named (by the flag, by a go.mod file with a module directive, or, without a go.mod file, by the remote or not at all), the go command delivers the packages asked for, and no package of a locally replaced module has a broken go.mod file; `index` moreover has to be able to create its files, to write, and to encode (UTF-8). `packages` then prints a heading, the sorted import paths of the packages that match the patterns, a heading, and the sorted import paths of all packages they need together with `builtin`; `missing` prints that nothing is missing; neither touches the output file.", "quantifier": "all arguments, environments, answers of git and go, loaded programs (well-typed), states of the disk and orders of iteration", "why_tests_cant": "an equivalence over all inputs of the program; a test sees one outcome of one set of inputs", "anchors": ["cmd/scip-go/main.go: main, parseArgs, makeOptions, IndexCmd.Run, PackagesCmd.Run, MissingCmd.Run", "internal/modules/modules.go: ModuleName", "internal/index/scip.go: GetPackages, ListMissing, Index", "internal/loader/loader.go: LoadPackages"]}
{"id": "C104", "title": "Warnings have causes", "statement": "Indexing a parsed, type-checked project warns of exactly two things: first, once each, of the packages of which there are no types at all (unless implementations are skipped), then of the imports that the type checker could not resolve, in the order of files and source up to the file at which the run ended; so a project whose imports are all resolved and whose packages all have types is indexed silently. A conflict is warned of exactly where two declarations share a position under different symbols, and the warning names both; that never happens in parsed files. Before indexing there is a warning exactly if the module path is not given and there is no go.mod file in the module root; the warnings about missing patterns and missing modules never appear.", "quantifier": "all loaded projects, options, writers and orders of iteration; all environments and command lines", "why_tests_cant": "absence of spurious and of missing warnings over all inputs; a test sees the log of one run", "anchors": ["internal/lookup/lookup.go: Package.Set", "internal/implementations/extractor.go: Extract", "internal/visitors/visitor_file.go: Visit", "internal/index/scip.go: Index", "internal/modules/modules.go: ModuleName", "internal/loader/loader.go: normalizePackage, LoadPackages"]}
{"id": "C105", "title": "Standard error", "statement": "With --quiet nothing is logged, whatever happens (except the failure to write a wanted memory profile when the module root cannot be made absolute); without -V only problems are logged, with -V also what the program works with: the Go version, the module, whether it is the standard library, what is skipped and the packages driver. A run that does not get as far as loading packages logs nothing. Otherwise `packages` and `missing` log only these settings and the lack of a go.mod file where it is needed; `index` moreover the packages without types, each once, and then the imports that could not be resolved, all of them if it succeeds, and last a memory profile that could not be written. A line `error: ...` is printed exactly if the exit status is 1; a command line that is not understood is reported in it.", "quantifier": "all arguments, environments, answers of git and go, loaded programs (well-typed), states of the disk and orders of iteration", "why_tests_cant": "absence of spurious and of missing output over all inputs and flags; a test sees the output of one run", "anchors": ["cmd/scip-go/main.go: main, makeOptions, IndexCmd.Run, PackagesCmd.Run, MissingCmd.Run, getLogLevel", "internal/output/output.go: SetOutputOptions", "internal/modules/modules.go: ModuleName", "internal/loader/loader.go: LoadPackages, addImportsToPkgs, normalizePackage", "internal/index/scip.go: Index, GetPackages, ListMissing"]}
{"id": "C106", "title": "-V -V explains the identities of packages and what is left out", "statement": "With -V -V the loader tells, of every package it keeps, exactly where its identity is not what the go command reported: the go.mod file of a local replacement that names its module path and version, or could not be read or parsed, and a version that is not known; a package of which nothing is told is indexed under the module path that was reported and under the version expected for it. If loading fails because of a go.mod file that cannot be parsed, this file is told. Collecting definitions tells of each package of the project once, in increasing order of the paths. The search for implementations tells exactly of the types and methods that it leaves out: types of packages outside of the project that were loaded from source, and methods that nothing names; in particular never of a type of the project, and of nothing with --skip-implementations.", "quantifier": "all package graphs with import cycles and replacements, go.mod files, options, orders of iteration and well-typed programs", "why_tests_cant": "completeness and absence of false alarms over all inputs; a test checks chosen log lines", "anchors": ["internal/loader/loader.go: normalizePackage, addImportsToPkgs, LoadPackages", "internal/index/scip.go: indexVisitPackages", "internal/implementations//extractor.go: extractLocal, extractRemote, classify"]}
{"id": "C107", "title": "The text of a fingerprint tree reads back", "statement": "The text (String) of the tree that is parsed from the fingerprint of a type is this fingerprint, character by character. The text of any tree of lists, identifiers, strings and numbers parses to this very tree; so different trees have different texts.", "quantifier": "all types without tuples and with at most as many type parameters as are in scope; all finite trees", "why_tests_cant": "a round trip over an infinite set of nested trees and of strings that have to be quoted; tests try a few types", "anchors": ["internal/implementations/fingerprint/fingerprint.go: Tree.String, writeSexpr, Parse, Encode"]}
{"id": "C108", "title": "-V -V tells which declarations are not understood, and silence means they are", "statement": "With -V -V the collecting pass over a package tells exactly of the variable and constant specs whose declared type it does not know (such as one in parentheses), the rest of which it skips, and of the embedded elements that it finds no name for. A package-level variable or constant is recorded under its package and its name alone exactly if no spec before it in the same declaration is told of; if none is told of in a whole package, all its variables and constants are recorded so. An embedded field of a declared struct type that is not told of is recorded, unless its type is of a kind that names nothing. In a run these records come directly after the one that says that the package is visited.", "quantifier": "all packages that the parser can deliver, with declarations nested in function literals and anonymous types to any depth", "why_tests_cant": "an equivalence between log and symbols over all syntax trees; a test compares chosen lines", "anchors": ["internal/visitors/visitors.go: getIdentOfTypeExpr, VisitPackageSyntax", "internal/visitors/visitor_var.go: Visit", "internal/visitors/visitor_type.go: Visit", "internal/index/scip.go: indexVisitPackages"]}
{"id": "C109", "title": "The symbol tables may be filled concurrently, and read concurrently, but not both at once", "statement": "Any number of goroutines may call Add and SetPkgSymbol on one Global: there is no data race and no deadlock, every call returns, the answers and the tables are those of the calls made one after the other, and what is known of a package that only one of them is about does not depend on the schedule. Any number may look things up in tables that are not being changed, other than predeclared types, with the same guarantees, and each gets the answer it would get alone. Nothing else is safe: every possible data race is between a call that fills the tables and a lookup, or between a lookup of a predeclared type and another lookup of an object, and both kinds occur.", "quantifier": "all numbers of goroutines, sequences of calls, tables and interleavings", "why_tests_cant": "schedules cannot be enumerated by tests; the race detector sees only those that happen", "anchors": ["internal/lookup/lookup.go: Global.Add, Global.SetPkgSymbol, Global.GetPkgSymbol, Global.GetPackage, Global.GetSymbolInformation, Global.GetSymbolOfObject, skippedTypes"]}
{"id": "C110", "title": "A declaration that is kept keeps its symbols", "statement": "Between two versions of a package, edit whatever you like around a top-level declaration: add, change, remove or reorder others, in its file or elsewhere, move the declaration itself to another line or another file of the package. As long as the package has the same path and belongs to the same module version and the anonymous types in the declaration mean the same, everything that the declaration declares has the symbol it had. For entities with a name of their own (C100) both indexes have exactly one description and one definition with this symbol, the definition where the identifier now stands. The two descriptions say the same: display name, kind, documentation (the comments belong to the declaration), and the signature if the object is still written the same. The only exception are fields of anonymous types in a variable or constant spec with several names: their symbols contain line and column of the spec, so they change when anything above it does.", "quantifier": "all pairs of packages (in all well-typed projects), declarations and places", "why_tests_cant": "a statement about all edits of all programs; tests compare chosen versions", "anchors": ["internal/visitors/visitors.go: VisitPackageSyntax, visitSyntax", "internal/visitors/visitor_type.go", "internal/visitors/visitor_func.go", "internal/visitors/visitor_var.go", "internal/index/scip.go: Index", "internal/symbols/symbols.go: FromDescriptors"]}
{"id": "C111", "title": "References lead from one index into another", "statement": "Index a package from source in one run, and in another run code that uses it as a dependency (known from type information only, in the same module version). If an identifier of the second index is used for a package-level type, constant, variable, function, method or field that the package declares, then the document has a reference over it whose symbol has exactly one definition and exactly one description in the first index, over the declaring identifier and with its name, and is no external symbol there; this holds exactly under the conditions of C04 (not for methods of interfaces, nor where aliases as receivers, derived structs or parenthesised types come in), and otherwise no reference of the identifier has that symbol. Conversely, a reference that has the symbol of an entity of the first index always belongs to an object of the package with the same path and module version and with the entity's name: it never leads astray. References to the package itself (imports and package qualifiers) lead to exactly one description and to the clauses of its files; external symbols and relationships with interfaces of the dependency lead to the declarations of these types.", "quantifier": "all pairs of well-typed projects and runs, packages, entities and identifiers that use them", "why_tests_cant": "it is about pairs of indexes of arbitrary programs, made in different runs with different knowledge of the package; snapshot tests compare one index with itself", "anchors": ["internal/index/scip.go: Index, indexVisitPackages", "internal/symbols/composer.go: Compose", "internal/lookup/lookup.go: Global.GetSymbolOfObject", "internal/symbols/symbols.go: FromDescriptors", "internal/visitors/visitor_file.go: Visit"]}
